import Verif.Proofs.ParseDoc
import Verif.Props.Folding

/-!
Unfolding a document line by line.
-/

namespace Ical

open Nom Spec

/-- the text does not start with a space or tab -/
def NoIndent (t : Str) : Prop := t.head? ≠ some ' ' ∧ t.head? ≠ some '\t'

/-- a line break not followed by a space or tab separates what is unfolded -/
theorem unfoldSpec_break (p : Str) (br : Break) (t : Str) (h : NoIndent t) :
    unfoldSpec (p ++ (br.text ++ t)) = unfoldSpec p ++ (br.text ++ unfoldSpec t) := by
  have hlf : ∀ (u : Str), NoIndent u → unfoldSpec ('\n' :: u) = '\n' :: unfoldSpec u := by
    intro u hu
    apply unfoldSpec_cons
    intro m ⟨s, hs⟩
    cases m <;> simp [Marker.text] at hs <;> (subst hs; simp [NoIndent] at hu)
  fun_induction unfoldSpec p with
  | case1 =>
    cases br with
    | lf => simpa [Break.text] using hlf t h
    | crlf =>
      simp only [Break.text, List.nil_append, List.cons_append]
      rw [unfoldSpec_cons, hlf t h]
      intro m ⟨s, hs⟩
      cases m <;> simp [Marker.text] at hs <;> (subst hs; simp [NoIndent] at h)
  | case2 s ih => simpa [unfoldSpec] using ih
  | case3 s ih => simpa [unfoldSpec] using ih
  | case4 s ih => simpa [unfoldSpec] using ih
  | case5 s ih => simpa [unfoldSpec] using ih
  | case6 c s h1 h2 h3 h4 ih =>
    rw [List.cons_append, unfoldSpec_cons, ih]
    · rfl
    · apply not_prefix_of_pattern
      · intro u hc hs
        rcases s with _ | ⟨a, _ | ⟨b, s⟩⟩
        · cases br <;> simp [Break.text] at hs
          subst hs; simp [NoIndent] at h
        · cases br <;> simp [Break.text] at hs
        · simp at hs
          obtain ⟨rfl, rfl, -⟩ := hs
          exact h1 s hc rfl
      · intro u hc hs
        rcases s with _ | ⟨a, _ | ⟨b, s⟩⟩
        · cases br <;> simp [Break.text] at hs
          subst hs; simp [NoIndent] at h
        · cases br <;> simp [Break.text] at hs
        · simp at hs
          obtain ⟨rfl, rfl, -⟩ := hs
          exact h2 s hc rfl
      · intro u hc hs
        rcases s with _ | ⟨a, s⟩
        · cases br <;> simp [Break.text] at hs
        · simp at hs
          obtain ⟨rfl, -⟩ := hs
          exact h3 s hc rfl
      · intro u hc hs
        rcases s with _ | ⟨a, s⟩
        · cases br <;> simp [Break.text] at hs
        · simp at hs
          obtain ⟨rfl, -⟩ := hs
          exact h4 s hc rfl

/-- unfolding one folded content line and what follows -/
theorem unfold_line {l f : Str} (hm : MarkerFree l) (hf : foldLine l = .ok f) {t : Str} (ht : NoIndent t) :
    unfoldSpec (f ++ (crlf ++ t)) = l ++ (crlf ++ unfoldSpec t) := by
  have := unfoldSpec_break f .crlf t ht
  rw [← unfold_eq_spec f, fold_unfold l f hm hf] at this
  exact this

/-- unfolding one line written without folding and what follows -/
theorem unfold_raw {l : Str} (hm : MarkerFree l) (br : Break) {t : Str} (ht : NoIndent t) :
    unfoldSpec (l ++ (br.text ++ t)) = l ++ (br.text ++ unfoldSpec t) := by
  rw [unfoldSpec_break l br t ht, unfoldSpec_markerFree l hm]

theorem markerFree_of_noLf {s : Str} (h : '\n' ∉ s) : MarkerFree s :=
  ⟨fun hc => h (hc.mem (by simp)), fun hc => h (hc.mem (by simp))⟩

theorem noIndent_cons {c : Char} {s : Str} (h1 : c ≠ ' ') (h2 : c ≠ '\t') : NoIndent (c :: s) := by
  simp [NoIndent, h1, h2]

theorem noIndent_nil : NoIndent [] := by simp [NoIndent]

theorem keyword_noIndent {b s t : Str} {x : Char} (h : b.map lowerAscii = x :: t)
    (h1 : x ≠ ' ') (h2 : x ≠ '\t') : NoIndent (b ++ s) := by
  obtain ⟨c, r, rfl, hc⟩ := keyword_head h
  refine noIndent_cons ?_ ?_ <;> (intro he; subst he; simp [lowerAscii] at hc; simp_all [eq_comm])

theorem keyword_not_mem {b t : Str} {y : Char} (h : b.map lowerAscii = t) (hy : lowerAscii y ∉ t) : y ∉ b := by
  intro hc
  apply hy
  rw [← h]
  exact List.mem_map_of_mem hc

variable [Uni]

theorem LineHead.noIndent {s : Str} (h : LineHead s) : NoIndent s := by
  obtain ⟨c, r, rfl, h⟩ := h
  refine noIndent_cons ?_ ?_ <;> (intro he; subst he; simp [isKeyChar_sp, isKeyChar_tab] at h)

theorem item_noIndent {br : Break} {it : Item} (h : it.Ok br) (s : Str) : NoIndent (it.text br ++ s) := by
  cases it with
  | prop key params val =>
    simp only [Item.Ok] at h
    have := (lineHead_prop h.1.name params val (br.text ++ s)).noIndent
    simpa [Item.text] using this
  | comp b e name items =>
    simp only [Item.Ok] at h
    simp only [Item.text, List.append_assoc]
    exact keyword_noIndent h.1 (by decide) (by decide)

theorem items_noIndent {br : Break} {l : List Item} (h : ItemsOk br l) {s : Str} (hs : NoIndent s) :
    NoIndent (itemsText br l ++ s) := by
  cases l with
  | nil => simpa [itemsText] using hs
  | cons i l =>
    simp only [ItemsOk] at h
    rw [itemsText, List.append_assoc]
    exact item_noIndent h.1 _

theorem keyword_name_markerFree {b t name : Str} (hb : b.map lowerAscii = t) (ht : lowerAscii '\n' ∉ t)
    (hn : IsName name) : MarkerFree (b ++ name) := by
  apply markerFree_of_noLf
  rw [List.mem_append, not_or]
  exact ⟨keyword_not_mem hb ht, name_not_mem hn isKeyChar_lf⟩

mutual
/-- a flat document is its own unfolded form -/
theorem unfold_item {br : Break} (it : Item) (h : it.Ok br) (hf : it.Flat) {s : Str} (hs : NoIndent s) :
    unfoldSpec (it.text br ++ s) = it.text br ++ unfoldSpec s := by
  match it, h, hf with
  | .prop key params val, h, hf =>
    simp only [Item.Flat] at hf
    have := unfold_raw hf br hs
    simp only [Item.text]
    rw [List.append_assoc _ br.text s, this]
    simp
  | .comp b e name items, h, hf =>
    simp only [Item.Ok, Item.Flat] at h hf
    obtain ⟨hb, he, hn, hi⟩ := h
    have h1 := keyword_name_markerFree hb (by decide) hn
    have h2 := keyword_name_markerFree he (by decide) hn
    have hend : NoIndent (e ++ name ++ (br.text ++ s)) := by
      rw [List.append_assoc]
      exact keyword_noIndent he (by decide) (by decide)
    have e1 : (Item.comp b e name items).text br ++ s =
        (b ++ name) ++ (br.text ++ (itemsText br items ++ (e ++ name ++ (br.text ++ s)))) := by
      simp [Item.text]
    rw [e1, unfold_raw h1 br (items_noIndent hi hend), unfold_items items hi hf hend,
      unfold_raw h2 br hs]
    simp [Item.text]

theorem unfold_items {br : Break} (l : List Item) (h : ItemsOk br l) (hf : ItemsFlat l) {s : Str}
    (hs : NoIndent s) : unfoldSpec (itemsText br l ++ s) = itemsText br l ++ unfoldSpec s := by
  match l, h, hf with
  | [], _, _ => simp [itemsText]
  | i :: l, h, hf =>
    simp only [ItemsOk, ItemsFlat] at h hf
    rw [itemsText, List.append_assoc, unfold_item i h.1 hf.1 (items_noIndent h.2 hs),
      unfold_items l h.2 hf.2 hs, List.append_assoc]
end

theorem unfold_doc {br : Break} {it : Item} (h : it.Ok br) (hf : it.Flat) :
    unfold (it.text br) = it.text br := by
  have := unfold_item it h hf (s := []) noIndent_nil
  rw [unfold_eq_spec]
  simpa [unfoldSpec] using this

end Ical
