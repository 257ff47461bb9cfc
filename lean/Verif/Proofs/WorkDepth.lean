import Verif.Proofs.WorkLinear
import Verif.Proofs.WorkLower
import Verif.Proofs.CalendarIO

/-!
The recursion depth of reading well-formed documents, exactly.
-/

namespace Ical
open Spec (Item itemsText ItemsOk Break itemsLevels nesting nestings DParam)

namespace MP

theorem till_depth_done {α β : Type} {f : MP α} {g : MP β} {i r : Str} {b : β} {n : Nat} (hf : Flat g) (hg : g.run i = .ok r b) :
    manyTillCost .depth f g (n + 1) i = 0 := by
  show max (g.cost i) _ = _
  rw [hg, hf]
  rfl

theorem till_depth_more {α β : Type} {f : MP α} {g : MP β} {i r : Str} {a : α} {n : Nat} (hfl : Flat g) (hg : g.run i = .error)
    (hf : f.run i = .ok r a) (hl : r.length ≠ i.length) :
    manyTillCost .depth f g (n + 1) i = max (f.cost i) (manyTillCost .depth f g n r) := by
  show max (g.cost i) _ = _
  rw [hg, hfl]
  show max 0 (max (f.cost i) _) = _
  rw [hf]
  simp only [hl, if_false]
  omega

theorem lineSeparated_depth {α : Type} {p : MP α} {i : Str} (hi : Nom.lineEnding i = .error) :
    (lineSeparated .depth p).cost i = p.cost i := by
  have hb : Flat (many0 .depth (lineEnding .depth)) := flat_many0 flat_lineEnding
  show (pair .depth (many0 .depth (lineEnding .depth)) (pair .depth p (many0 .depth (lineEnding .depth)))).cost i = _
  rw [pair_depth_ok (many0_lineEnding_none hi), hb]
  show max 0 (max (p.cost i) _) = _
  cases hp : p.run i with
  | ok r a => simp only [hb r]; omega
  | error => simp only; omega
  | failure => simp only; omega

variable [Uni]

/-- what an element costs is what the attempt to read a component costs -/
theorem child_depth {rec : MP PComp} {i : Str} (hi : Nom.lineEnding i = .error) :
    (componentChild .depth rec).cost i = rec.cost i := by
  have hp : Flat (map Child.prop (lineSeparated .depth (property .depth))) :=
    flat_map (flat_lineSeparated flat_property)
  show max ((lineSeparated .depth rec).cost i) _ = _
  rw [lineSeparated_depth hi]
  split
  · rw [hp]; omega
  · omega

theorem body_depth_error {rec : MP PComp} {i : Str} (h : Ical.line c!"BEGIN:" Ical.validKeySequence i = .error) :
    (componentBody .depth rec).cost i = 1 := by
  unfold componentBody
  simp only [h]
  show max ((line .depth c!"BEGIN:" (validKeySequence .depth)).cost i) 0 + 1 = 1
  rw [flat_line c!"BEGIN:" flat_validKeySequence]
  rfl

theorem body_depth_ok {rec : MP PComp} {i r : Str} {name : Str}
    (h : Ical.line c!"BEGIN:" Ical.validKeySequence i = .ok r name) :
    (componentBody .depth rec).cost i =
      1 + (manyTill .depth (componentChild .depth rec) (componentEnd .depth name)).cost r := by
  have hb : Flat (many0 .depth (tag .depth ['\n'])) := flat_many0 (flat_tag _)
  unfold componentBody
  simp only [h]
  show max ((line .depth c!"BEGIN:" (validKeySequence .depth)).cost i) (max _ _) + 1 = _
  rw [flat_line c!"BEGIN:" flat_validKeySequence]
  cases (manyTill .depth (componentChild .depth rec) (componentEnd .depth name)).run r with
  | ok r' x => simp only [hb r']; omega
  | error => simp only; omega
  | failure => simp only; omega

theorem componentF_run_depth {i : Str} {n : Nat} (h : i.length < n) : (componentF .depth n).run i = Ical.component i := by
  rw [run_componentF, componentF_budget n (i.length + 1) i h (by omega)]
  rfl

mutual
theorem component_depth_doc {br : Break} {b e name : Str} {items : List Item} (h : (Item.comp b e name items).Ok br)
    {r : Str} (hr : Nom.lineEnding r = .error) {n : Nat}
    (hn : ((Item.comp b e name items).text br ++ r).length < n)
    (hq : br = .lf → '\r' ∉ (Item.comp b e name items).text br ++ r) :
    (componentF .depth n).cost ((Item.comp b e name items).text br ++ r) = 1 + itemsLevels items := by
  simp only [Item.Ok] at h
  obtain ⟨hb, he, hnm, hi⟩ := h
  have e1 : (Item.comp b e name items).text br ++ r =
      b ++ (name ++ (br.text ++ (itemsText br items ++ (e ++ name ++ br.text ++ r)))) := by
    simp [Item.text]
  have e3 : (itemsText br items ++ (e ++ name ++ br.text ++ r)).length + 6 ≤
      ((Item.comp b e name items).text br ++ r).length := by
    have l1 : b.length = 6 := by rw [← List.length_map lowerAscii, hb]; rfl
    rw [e1]
    simp
    omega
  have hend : Nom.lineEnding (e ++ name ++ br.text ++ r) = .error := by
    rw [List.append_assoc, List.append_assoc]
    exact keyword_lineEnding he (by decide) (by decide)
  have hle := items_lineEnding hi hend
  have h1 : Ical.line c!"BEGIN:" Ical.validKeySequence
      (b ++ (name ++ (br.text ++ (itemsText br items ++ (e ++ name ++ br.text ++ r))))) =
      .ok (itemsText br items ++ (e ++ name ++ br.text ++ r)) name :=
    line_ok (br := br) (by rw [hb]; decide) (keyword_lineEnding hb (by decide) (by decide))
      (validKeySequence_ok hnm (stopsAt_break br)) hle
  rw [e1] at hn e3 hq ⊢
  cases n with
  | zero => omega
  | succ n =>
    show (componentBody .depth (componentF .depth n)).cost _ = _
    rw [body_depth_ok h1]
    have h2 := items_depth_doc hi he hr (name := name) (n := n)
      (k := (itemsText br items ++ (e ++ name ++ br.text ++ r)).length + 1) (by omega) (by omega)
      (by intro hbr; have := hq hbr; simp at this ⊢; simp [this])
    rw [← h2]
    rfl
termination_by sizeOf items + 1
decreasing_by omega

theorem items_depth_doc {br : Break} {items : List Item} (h : ItemsOk br items) {e name : Str}
    (he : e.map lowerAscii = c!"end:") {r : Str} (hr : Nom.lineEnding r = .error) {n k : Nat}
    (hn : (itemsText br items ++ (e ++ name ++ br.text ++ r)).length < n)
    (hk : (itemsText br items ++ (e ++ name ++ br.text ++ r)).length < k)
    (hq : br = .lf → '\r' ∉ itemsText br items ++ (e ++ name ++ br.text ++ r)) :
    manyTillCost .depth (componentChild .depth (componentF .depth n)) (componentEnd .depth name) k
      (itemsText br items ++ (e ++ name ++ br.text ++ r)) = itemsLevels items := by
  have hend : Nom.lineEnding (e ++ name ++ br.text ++ r) = .error := by
    rw [List.append_assoc, List.append_assoc]
    exact keyword_lineEnding he (by decide) (by decide)
  cases k with
  | zero => omega
  | succ k =>
  match hI : items, h, hn, hk, hq with
  | [], _, hn, hk, _ =>
    simp only [itemsText, List.nil_append]
    rw [till_depth_done (g := componentEnd .depth name) (flat_componentEnd name) (componentEnd_ok (br := br) he hr)]
    simp [itemsLevels]
  | .prop key params val :: l, h, hn, hk, hq =>
    simp only [ItemsOk, Item.Ok] at h
    obtain ⟨⟨hky, hp, hv⟩, hl⟩ := h
    have hrest := items_lineEnding hl hend
    have hle := item_lineEnding (br := br) (it := .prop key params val) (by simp only [Item.Ok]; exact ⟨hky, hp, hv⟩)
      (itemsText br l ++ (e ++ name ++ br.text ++ r))
    have e1 : (Item.prop key params val).text br ++ (itemsText br l ++ (e ++ name ++ br.text ++ r)) =
        key ++ ((params.map DParam.text).flatten ++ (':' :: (val ++ (br.text ++
          (itemsText br l ++ (e ++ name ++ br.text ++ r)))))) := by simp [Item.text]
    rw [itemsText, List.append_assoc] at hq
    have hpr := property_ok (br := br) (r := itemsText br l ++ (e ++ name ++ br.text ++ r))
      hky.name hky.notEnd hky.notBegin hp hv
      (by intro hbr; have := hq hbr; simp [Item.text] at this ⊢; simp [this])
    have hE := keyOk_line hky params val (br.text ++ (itemsText br l ++ (e ++ name ++ br.text ++ r)))
      (.inl rfl)
    have hB := keyOk_line hky params val (br.text ++ (itemsText br l ++ (e ++ name ++ br.text ++ r)))
      (.inr rfl)
    rw [← e1] at hE hB
    change Nom.prefixNoCase c!"END:" _ = false at hE
    change Nom.prefixNoCase c!"BEGIN:" _ = false at hB
    have hcomp : Ical.component ((Item.prop key params val).text br ++
          (itemsText br l ++ (e ++ name ++ br.text ++ r))) = .error := by
      rw [component_eq]
      unfold Ical.componentBody
      rw [Ical.line_error hle hB]
    have hpos := item_text_pos br (.prop key params val)
    simp only [itemsText, List.append_assoc] at hn hk ⊢
    have e4 : e ++ (name ++ (br.text ++ r)) = e ++ name ++ br.text ++ r := by simp
    rw [e4] at hn hk ⊢
    rw [List.length_append] at hn hk
    have hrun : (componentF .depth n).run ((Item.prop key params val).text br ++
          (itemsText br l ++ (e ++ name ++ br.text ++ r))) = .error := by
      rw [componentF_run_depth (by rw [List.length_append]; exact hn), hcomp]
    have hchild : (componentChild .depth (componentF .depth n)).run ((Item.prop key params val).text br ++
          (itemsText br l ++ (e ++ name ++ br.text ++ r))) = .ok (itemsText br l ++ (e ++ name ++ br.text ++ r)) (.prop (Spec.meaningProp key params val)) := by
      show Ical.componentChild (componentF .depth n).run _ = _
      unfold Ical.componentChild Nom.cut Nom.alt Nom.map
      rw [lineSeparated_error hle hrun, lineSeparated_ok hle hpr (many0_lineEnding_none hrest)]
    rw [till_depth_more (g := componentEnd .depth name) (flat_componentEnd name) (Ical.line_error hle hE) hchild (length_ne hpos),
      child_depth hle]
    have c2 : (componentF .depth n).cost ((Item.prop key params val).text br ++
          (itemsText br l ++ (e ++ name ++ br.text ++ r))) = 1 := by
      cases n with
      | zero => omega
      | succ n =>
        show (componentBody .depth (componentF .depth n)).cost _ = _
        rw [body_depth_error (Ical.line_error hle hB)]
    have h4 := items_depth_doc hl he hr (name := name) (n := n) (k := k) (by omega) (by omega)
      (by intro hbr; have := hq hbr; simp at this ⊢; simp [this])
    rw [c2, h4]
    simp [itemsLevels, Item.levels]
  | .comp b e' name' items' :: l, h, hn, hk, hq =>
    simp only [ItemsOk] at h
    obtain ⟨hi, hl⟩ := h
    have hrest := items_lineEnding hl hend
    have hle := item_lineEnding hi (itemsText br l ++ (e ++ name ++ br.text ++ r))
    have hpos := item_text_pos br (.comp b e' name' items')
    have hE : Nom.prefixNoCase c!"END:" ((Item.comp b e' name' items').text br ++
        (itemsText br l ++ (e ++ name ++ br.text ++ r))) = false := by
      have hi' := hi
      simp only [Item.Ok] at hi'
      obtain ⟨c, s, rfl, hc⟩ := keyword_head hi'.1
      simp only [Item.text, List.cons_append]
      exact prefixNoCase_head_ne (by rw [hc]; decide)
    rw [itemsText, List.append_assoc] at hq
    have hc := component_ok hi hrest hq
    simp only [itemsText, List.append_assoc] at hn hk ⊢
    have e4 : e ++ (name ++ (br.text ++ r)) = e ++ name ++ br.text ++ r := by simp
    rw [e4] at hn hk ⊢
    rw [List.length_append] at hn hk
    have hrun : (componentF .depth n).run ((Item.comp b e' name' items').text br ++
          (itemsText br l ++ (e ++ name ++ br.text ++ r))) = .ok _ _ :=
      (componentF_run_depth (by rw [List.length_append]; exact hn)).trans hc
    have hchild : (componentChild .depth (componentF .depth n)).run ((Item.comp b e' name' items').text br ++
          (itemsText br l ++ (e ++ name ++ br.text ++ r))) = .ok (itemsText br l ++ (e ++ name ++ br.text ++ r)) (.comp (.mk name' (Spec.itemsProps items') (Spec.itemsComps items'))) := by
      show Ical.componentChild (componentF .depth n).run _ = _
      unfold Ical.componentChild Nom.cut Nom.alt Nom.map
      rw [lineSeparated_ok hle hrun (many0_lineEnding_none hrest)]
    rw [till_depth_more (g := componentEnd .depth name) (flat_componentEnd name) (Ical.line_error hle hE) hchild (length_ne hpos),
      child_depth hle]
    have c2 := component_depth_doc hi hrest (n := n) (by rw [List.length_append]; exact hn) hq
    have h4 := items_depth_doc hl he hr (name := name) (n := n) (k := k) (by omega) (by omega)
      (by intro hbr; have := hq hbr; simp at this ⊢; simp [this])
    rw [c2, h4]
    simp [itemsLevels, Item.levels]
termination_by sizeOf items
decreasing_by all_goals (rw [hI]; simp; try omega)
end

/-- a document whose root is well formed -/
theorem components_depth_doc {br : Break} {b e name : Str} {items : List Item} (h : (Item.comp b e name items).Ok br)
    (hq : br = .lf → '\r' ∉ (Item.comp b e name items).text br) :
    (components .depth).cost ((Item.comp b e name items).text br) = 1 + itemsLevels items := by
  have hpos := item_text_pos br (.comp b e name items)
  have hrun := component_ok h (r := []) rfl (by simpa using hq)
  have hc := component_depth_doc h (r := []) rfl (n := ((Item.comp b e name items).text br).length + 1) (by simp) (by simpa using hq)
  rw [List.append_nil] at hrun hc
  obtain ⟨n, hn⟩ : ∃ n, ((Item.comp b e name items).text br).length = n + 1 := ⟨_, (Nat.succ_pred_eq_of_pos hpos).symm⟩
  have hall : (allConsuming (component .depth)).run ((Item.comp b e name items).text br) =
      .ok [] (.mk name (Spec.itemsProps items) (Spec.itemsComps items)) := by
    show Nom.allConsuming Ical.component _ = _
    unfold Nom.allConsuming
    rw [hrun]
    rfl
  show max ((allConsuming (component .depth)).cost ((Item.comp b e name items).text br)) _ = _
  rw [hall]
  have h2 : (allConsuming (component .depth)).cost ((Item.comp b e name items).text br) =
    (componentF .depth (((Item.comp b e name items).text br).length + 1)).cost
      ((Item.comp b e name items).text br) := rfl
  have h3 : many0Cost .depth (allConsuming (component .depth)) ((Item.comp b e name items).text br).length [] = 1 := by
    rw [hn]
    rfl
  have h4 : ([] : Str).length ≠ ((Item.comp b e name items).text br).length := by rw [hn]; simp
  simp only [h4, if_false, h2, h3, hc]
  omega

end MP

open MP Spec

theorem itemsLevels_append (a b : List Item) : itemsLevels (a ++ b) = max (itemsLevels a) (itemsLevels b) := by
  induction a with
  | nil => simp [itemsLevels]
  | cons x a ih => simp only [List.cons_append, itemsLevels, ih]; omega

variable [Uni]

theorem propItems_levels (l : List Property) (w : World) : itemsLevels (propItems l w) = if l = [] then 0 else 1 := by
  induction l generalizing w with
  | nil => rfl
  | cons p l ih =>
    show max 1 (itemsLevels (propItems l (w.sub 1))) = _
    rw [ih]
    split <;> simp

mutual
theorem item_levels : (o : Other) → (w : World) → (o.item w).levels = 1 + nesting o
  | .mk name props multi comps, w => by
    have h1 := others_levels comps (w.sub 2)
    have h2 := propItems_levels props.values (w.sub 0)
    have h3 := propItems_levels multi.values.flatten (w.sub 1)
    have hm : ∀ k v, itemsLevels (missing props k v) ≤ 1 := by
      intro k v
      unfold missing
      split <;> simp [itemsLevels, genItem, Item.levels]
    have hd : 1 ≤ max (itemsLevels (missing props c!"DTSTAMP" (fmtUtc (w.now [])))) (itemsLevels (propItems props.values (w.sub 0))) := by
      rw [h2]
      cases props with
      | nil => simp [missing, BMap.containsKey, BMap.get, genItem, itemsLevels, Item.levels]; omega
      | cons x l => simp [BMap.values]; omega
    have a1 := hm c!"DTSTAMP" (fmtUtc (w.now []))
    have a2 := hm c!"UID" (w.uuid [])
    have a3 : itemsLevels (propItems props.values (w.sub 0)) ≤ 1 := by rw [h2]; split <;> simp
    have a4 : itemsLevels (propItems multi.values.flatten (w.sub 1)) ≤ 1 := by rw [h3]; split <;> simp
    simp only [Other.item, Item.levels, itemsLevels_append, h1, nesting]
    cases comps with
    | nil => simp [nestings]; omega
    | cons x l => simp; omega
theorem others_levels : (l : List Other) → (w : World) → itemsLevels (otherItems l w) = if l = [] then 0 else 1 + nestings l
  | [], w => rfl
  | o :: l, w => by
    have h1 := item_levels o (w.sub 0)
    have h2 := others_levels l (w.sub 1)
    simp only [otherItems, itemsLevels, h1, h2, nestings]
    cases l with
    | nil => simp [nestings]
    | cons x l => simp; try omega
end

theorem compItems_eq (l : List CalComp) (w : World) : compItems l w = otherItems (l.map CalComp.toOther) w := by
  induction l generalizing w with
  | nil => rfl
  | cons x l ih => simp only [compItems, List.map_cons, otherItems, ih]

end Ical
