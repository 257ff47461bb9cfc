import Verif.Spec.FileBlocks
import Verif.Props.Blocks
import Verif.Props.Merge
import Verif.Props.InjectionExact

/-!
# Copying components of the files of others

C148: a program that unfolds a file and copies some of its components, knowing only the lines that begin and end
components, writes a file of the calendar with these components.
-/

namespace Ical

open Nom Spec

/-! ### what is copied has no folded lines -/

/-- followed by lines that are not indented, these are lines that are not indented -/
def WellEnded (s : Str) : Prop := ∀ t, MarkerFree t → NoIndent t → MarkerFree (s ++ t) ∧ NoIndent (s ++ t)

theorem wellEnded_nil : WellEnded [] := fun _ h1 h2 => ⟨h1, h2⟩

theorem wellEnded_append {a b : Str} (ha : WellEnded a) (hb : WellEnded b) : WellEnded (a ++ b) := by
  intro t h1 h2
  obtain ⟨h3, h4⟩ := hb t h1 h2
  rw [List.append_assoc]
  exact ha _ h3 h4

theorem wellEnded_break {x : Str} (hx : NoLf x) (hi : NoIndent x) (br : Break) : WellEnded (x ++ br.text) := by
  obtain ⟨q, hq, e⟩ := break_cases br
  intro t h1 h2
  have hlf : MarkerFree ('\n' :: t) := by
    constructor <;> intro hc
    · rw [List.infix_cons_iff, List.cons_prefix_cons] at hc
      rcases hc with ⟨-, r, hr⟩ | hc
      · exact h2.1 (by rw [← hr]; rfl)
      · exact h1.1 hc
    · rw [List.infix_cons_iff, List.cons_prefix_cons] at hc
      rcases hc with ⟨-, r, hr⟩ | hc
      · exact h2.2 (by rw [← hr]; rfl)
      · exact h1.2 hc
  constructor
  · rw [e, List.append_assoc, List.append_assoc]
    exact markerFree_noLf_append hx (markerFree_noLf_append hq hlf)
  · rw [List.append_assoc]
    refine noIndent_append hi ?_
    cases br <;> exact noIndent_cons (by decide) (by decide)

theorem wellEnded_blank {bl : Str} (h : Blank bl) : WellEnded bl := by
  obtain ⟨bs, rfl⟩ := h
  induction bs with
  | nil => exact wellEnded_nil
  | cons b bs ih => exact wellEnded_append (a := b.text) (wellEnded_break (x := []) (by decide) noIndent_nil b) ih

theorem foldedForm_plain {s : Str} (h : MarkerFree s) : FoldedForm s s :=
  ⟨s, [], by simp [unmarked], by simp [joinMarked], h, by simp, trivial⟩

theorem copy_mem {keep : Str → Bool} {c : Char} : (ls : List Str) → (d : Nat) → (held : Str) → c ∈ copyLines keep d held ls →
    c ∈ held ∨ c ∈ ls.flatten
  | [], _, _, h => .inl h
  | l :: ls, d, held, h => by
    have ih := fun d held => copy_mem (keep := keep) (c := c) ls d held
    rw [List.flatten_cons, List.mem_append]
    rw [copyLines] at h
    split at h
    · split at h
      · rcases List.mem_append.1 h with h | h
        · exact .inr (.inl h)
        · exact (ih _ _ h).elim (fun h => by cases h) (fun h => .inr (.inr h))
      · rcases ih _ _ h with h | h
        · exact (List.mem_append.1 h).elim .inl (fun h => .inr (.inl h))
        · exact .inr (.inr h)
    · split at h
      · rcases List.mem_append.1 h with h | h
        · exact .inr (.inl h)
        · exact (ih _ _ h).elim (fun h => by cases h) (fun h => .inr (.inr h))
      · split at h
        · rcases List.mem_append.1 h with h | h
          · split at h
            · exact (List.mem_append.1 h).elim .inl (fun h => .inr (.inl h))
            · cases h
          · exact (ih _ _ h).elim (fun h => by cases h) (fun h => .inr (.inr h))
        · rcases ih _ _ h with h | h
          · exact (List.mem_append.1 h).elim .inl (fun h => .inr (.inl h))
          · exact .inr (.inr h)
    · split at h
      · rcases List.mem_append.1 h with h | h
        · exact .inr (.inl h)
        · exact (ih _ _ h).elim (fun h => by cases h) (fun h => .inr (.inr h))
      · rcases ih _ _ h with h | h
        · exact (List.mem_append.1 h).elim .inl (fun h => .inr (.inl h))
        · exact .inr (.inr h)

/-! ### texts of documents -/

theorem lineEnded_break {x : Str} (h : NoLf x) (br : Break) : LineEnded (x ++ br.text) := by
  obtain ⟨q, hq, e⟩ := break_cases br
  have := lineEnded_line (x := x ++ q) (by simp [NoLf] at h hq ⊢; exact ⟨h, hq⟩)
  rw [List.append_assoc, ← e] at this
  exact this

theorem flat_blank {bl : Str} (h : Blank bl) : Flat bl := by
  refine flat_of ?_ (bracketed_blank h)
  obtain ⟨bs, rfl⟩ := h
  induction bs with
  | nil => exact lineEnded_nil
  | cons b bs ih => exact lineEnded_append (a := b.text) (lineEnded_break (x := []) (by decide) b) ih

theorem copy_flat {keep : Str → Bool} {d : Nat} (hd : d ≤ 1) {s : Str} (h : Flat s) (t : Str) :
    copyLines keep d [] (cutLines (s ++ t)) = s ++ copyLines keep d [] (cutLines t) := by
  rw [h.1, copy_outer hd _ _ h.2, cutLines_flatten]

theorem cutLines_break {x : Str} (h : NoLf x) (br : Break) (t : Str) :
    cutLines (x ++ br.text ++ t) = (x ++ br.text) :: cutLines t := by
  obtain ⟨q, hq, e⟩ := break_cases br
  have := cutLines_line (x := x ++ q) (by simp [NoLf] at h hq ⊢; exact ⟨h, hq⟩) t
  rw [e]
  simpa only [List.append_assoc, List.cons_append, List.nil_append] using this

/-! ### files that are not unfolded -/

/-- unfolding the text, followed by a line that is not indented -/
def Unfolds (a u : Str) : Prop := NoIndent a ∧ ∀ t, NoIndent t → unfoldSpec (a ++ t) = u ++ unfoldSpec t

theorem unfolds_nil : Unfolds [] [] := ⟨noIndent_nil, fun _ _ => rfl⟩

theorem unfolds_append {a b u v : Str} (ha : Unfolds a u) (hb : Unfolds b v) : Unfolds (a ++ b) (u ++ v) := by
  refine ⟨noIndent_append ha.1 hb.1, fun t ht => ?_⟩
  rw [List.append_assoc, ha.2 _ (noIndent_append hb.1 ht), hb.2 t ht, List.append_assoc]

theorem unfolds_all {a u : Str} (h : Unfolds a u) : unfoldSpec a = u := by
  have := h.2 [] noIndent_nil
  rwa [List.append_nil, show unfoldSpec [] = [] from rfl, List.append_nil] at this

/-- the lines of a text and those of the unfolded text -/
inductive Logical : List Str → List Str → Prop
  | nil : Logical [] []
  | last {x : Str} (h : NoIndent x) (hx : NoLf x) : Logical [x] [x]
  | lastGroup {x u : Str} {conts : List Str} (h : NoIndent x) (hx : bracketOf x = none) (hc : ∀ y ∈ conts, bracketOf y = none)
      (hu : unfoldSpec (x ++ conts.flatten) = u) (hb : bracketOf u = none) (hne : x ≠ []) : Logical (x :: conts) [u]
  | line {x : Str} {ls us : List Str} (h : Unfolds x x) (hl : Logical ls us) : Logical (x :: ls) (x :: us)
  | group {x u : Str} {conts ls us : List Str} (h : Unfolds (x ++ conts.flatten) u) (hx : bracketOf x = none)
      (hc : ∀ y ∈ conts, bracketOf y = none) (hb : bracketOf u = none) (hl : Logical ls us) : Logical (x :: (conts ++ ls)) (u :: us)

theorem copy_logical (keep : Str → Bool) {ls us : List Str} (h : Logical ls us) : ∀ (d : Nat) (held held' : Str), Unfolds held held' →
    (d ≤ 1 → held = []) →
    unfoldSpec (copyLines (fun s => keep (unfoldSpec s)) d held ls) = copyLines keep d held' us ∧
    NoIndent (copyLines (fun s => keep (unfoldSpec s)) d held ls) := by
  induction h with
  | nil =>
    intro d held held' hh _
    simp only [copyLines]
    exact ⟨unfolds_all hh, hh.1⟩
  | @last x h hx =>
    intro d held held' hh h0
    have hu := noLf_unfold hx
    have e : unfoldSpec (held ++ x) = held' ++ x := by rw [hh.2 x h, hu]
    simp only [copyLines]
    split
    · split
      · simp only [List.append_nil]; exact ⟨hu, h⟩
      · exact ⟨e, noIndent_append hh.1 h⟩
    · split
      · simp only [List.append_nil]; exact ⟨hu, h⟩
      · split
        · simp only [e]
          split
          · simp only [List.append_nil]; exact ⟨e, noIndent_append hh.1 h⟩
          · exact ⟨rfl, noIndent_nil⟩
        · exact ⟨e, noIndent_append hh.1 h⟩
    · split
      · simp only [List.append_nil]; exact ⟨hu, h⟩
      · exact ⟨e, noIndent_append hh.1 h⟩
  | @lastGroup x u conts h hx hc hu hb hne =>
    intro d held held' hh h0
    have hi : NoIndent (x ++ conts.flatten) := by
      cases x with
      | nil => exact absurd rfl hne
      | cons c x => simpa [NoIndent] using h
    by_cases hd : d ≤ 1
    · have e1 := copy_outer (keep := fun s => keep (unfoldSpec s)) hd (x :: conts) [] (by
        intro l hl
        rcases List.mem_cons.1 hl with rfl | hl
        · exact hx
        · exact hc l hl)
      obtain rfl := h0 hd
      have : held' = [] := (unfolds_all hh).symm
      subst this
      rw [List.append_nil] at e1
      rw [e1, copyLines, copyLines, hb]
      simp only [if_pos hd, copyLines, List.append_nil, List.flatten_cons]
      exact ⟨hu, hi⟩
    · have e1 := copy_inner (keep := fun s => keep (unfoldSpec s)) hd (x :: conts) [] held (by
        intro l hl
        rcases List.mem_cons.1 hl with rfl | hl
        · exact hx
        · exact hc l hl)
      rw [List.append_nil] at e1
      rw [e1, copyLines, copyLines, hb]
      simp only [if_neg hd, copyLines, List.flatten_cons]
      exact ⟨by rw [hh.2 _ hi, hu], noIndent_append hh.1 hi⟩
  | @line x ls us h hl ih =>
    intro d held held' hh h0
    have hx := unfolds_append hh h
    have e : unfoldSpec (held ++ x) = held' ++ x := unfolds_all hx
    have start : ∀ {d' : Nat} {o o' : Str}, Unfolds o o' →
        unfoldSpec (o ++ copyLines (fun s => keep (unfoldSpec s)) d' [] ls) = o' ++ copyLines keep d' [] us ∧
        NoIndent (o ++ copyLines (fun s => keep (unfoldSpec s)) d' [] ls) := by
      intro d' o o' ho
      obtain ⟨i1, i2⟩ := ih d' [] [] unfolds_nil (fun _ => rfl)
      exact ⟨by rw [ho.2 _ i2, i1], noIndent_append ho.1 i2⟩
    simp only [copyLines]
    split
    · split
      · exact start h
      · exact ih _ _ _ hx (by omega)
    · split
      · exact start h
      · split
        · simp only [e]
          split
          · exact start hx
          · exact start unfolds_nil
        · exact ih _ _ _ hx (by omega)
    · split
      · exact start h
      · exact ih _ _ _ hx (by omega)
  | @group x u conts ls us h hx hc hb hl ih =>
    intro d held held' hh h0
    have hall : ∀ l ∈ x :: conts, bracketOf l = none := by
      intro l hl
      rcases List.mem_cons.1 hl with rfl | hl
      · exact hx
      · exact hc l hl
    rw [← List.cons_append]
    by_cases hd : d ≤ 1
    · obtain rfl := h0 hd
      have : held' = [] := (unfolds_all hh).symm
      subst this
      rw [copy_outer hd _ _ hall, copyLines, hb]
      simp only [if_pos hd, List.flatten_cons]
      obtain ⟨i1, i2⟩ := ih d [] [] unfolds_nil (fun _ => rfl)
      exact ⟨by rw [h.2 _ i2, i1], noIndent_append h.1 i2⟩
    · rw [copy_inner hd _ _ _ hall, copyLines, hb]
      simp only [if_neg hd, List.flatten_cons]
      exact ih _ _ _ (unfolds_append hh h) (fun hd' => absurd hd' hd)

/-- the lines that continue a line -/
theorem continued_lines (n : Nat) : ∀ (b : Char) (r : Str), r.length ≤ n → (b = ' ' ∨ b = '\t') →
    ∃ (conts : List Str) (w rest y : Str), conts.flatten = b :: w ∧ cutLines (b :: r) = conts ++ cutLines rest ∧ r = w ++ rest ∧
      (∀ x ∈ conts, Continues x) ∧ NoIndent rest ∧ NoLf y ∧
      ((∀ t, NoIndent t → unfoldSpec (w ++ t) = y ++ '\n' :: unfoldSpec t) ∨ (rest = [] ∧ unfoldSpec w = y)) := by
  induction n with
  | zero =>
    intro b r hr hb
    obtain rfl : r = [] := List.length_eq_zero_iff.1 (by omega)
    refine ⟨[[b]], [], [], [], rfl, ?_, rfl, ?_, noIndent_nil, by decide, .inr ⟨rfl, rfl⟩⟩
    · rcases hb with rfl | rfl <;> rfl
    · intro x hx
      rw [List.mem_singleton] at hx
      subst hx
      rcases hb with rfl | rfl
      · exact .inl (List.prefix_refl _)
      · exact .inr (List.prefix_refl _)
  | succ n ih =>
    intro b r hr hb
    have hcont : ∀ x, Continues (b :: x) := by
      intro x
      rcases hb with rfl | rfl
      · exact .inl ⟨x, rfl⟩
      · exact .inr ⟨x, rfl⟩
    have hbl : ∀ x, NoLf x → NoLf (b :: x) := by
      intro x hx
      rcases hb with rfl | rfl <;> simpa [NoLf] using hx
    rcases cut_first r with hx | ⟨x, r1, hx, rfl⟩
    · refine ⟨[b :: r], r, [], r, by simp, ?_, by simp, by simpa using hcont r, noIndent_nil, hx, .inr ⟨rfl, noLf_unfold hx⟩⟩
      rw [cutLines_last (hbl r hx), if_neg (by simp)]
      rfl
    · have e0 : cutLines (b :: (x ++ '\n' :: r1)) = (b :: x ++ ['\n']) :: cutLines r1 := cutLines_line (hbl x hx) r1
      rcases noIndent_cases r1 with h1 | ⟨b1, r2, hb1, rfl⟩
      · refine ⟨[b :: x ++ ['\n']], x ++ ['\n'], r1, x, by simp, by rw [e0]; rfl, by simp, ?_, h1, hx, .inl fun t ht => ?_⟩
        · intro y hy
          rw [List.mem_singleton] at hy
          subst hy
          exact hcont _
        · have := unfold_next hx ht
          simpa using this
      · obtain ⟨conts, w, rest, y, c1, c2, c3, c4, c5, c6, c7⟩ := ih b1 r2 (by simp at hr; omega) hb1
        have hlc : NoLf (lineContent (x ++ ['\n'])) := fun e => hx ((content_prefix x).subset e)
        refine ⟨(b :: x ++ ['\n']) :: conts, x ++ '\n' :: b1 :: w, rest, lineContent (x ++ ['\n']) ++ y, ?_, ?_, ?_, ?_, c5, ?_, ?_⟩
        · rw [List.flatten_cons, c1]; simp
        · rw [e0, c2]; rfl
        · rw [c3]; simp
        · intro z hz
          rcases List.mem_cons.1 hz with rfl | hz
          · exact hcont _
          · exact c4 z hz
        · simpa [NoLf] using ⟨hlc, c6⟩
        · rcases c7 with c7 | ⟨rfl, c7⟩
          · refine .inl fun t ht => ?_
            have := unfold_continued (r := w ++ t) hx hb1
            rw [c7 t ht] at this
            simpa using this
          · refine .inr ⟨rfl, ?_⟩
            rw [unfold_continued hx hb1, c7]

theorem bracketOf_continues {x : Str} (h : Continues x) : bracketOf x = none := by
  rcases h with ⟨t, rfl⟩ | ⟨t, rfl⟩ <;> exact bracketOf_blank (by decide) (by decide)

theorem bracketOf_long {x y z : Str} (h : bracketOf (x ++ y) = none) (hl : 6 ≤ x.length) : bracketOf (x ++ z) = none := by
  have e6 : ∀ w, (x ++ w).take 6 = x.take 6 := fun w => List.take_append_of_le_length hl
  have e4 : ∀ w, (x ++ w).take 4 = x.take 4 := fun w => List.take_append_of_le_length (by omega)
  unfold bracketOf at h ⊢
  rw [e6, e4] at h ⊢
  split at h
  · cases h
  · split at h
    · cases h
    · rename_i h1 h2
      rw [if_neg h1, if_neg h2]

theorem bracketsWhole_tail (a b : List Str) (h : BracketsWhole (a ++ b)) : BracketsWhole b := by
  induction a with
  | nil => exact h
  | cons x a ih =>
    apply ih
    cases hab : a ++ b with
    | nil => trivial
    | cons y l =>
      rw [List.cons_append, hab] at h
      exact h.2

theorem logical_lines (n : Nat) : ∀ s : Str, s.length ≤ n → NoIndent s → BracketsWhole (cutLines s) →
    Logical (cutLines s) (cutLines (unfoldSpec s)) := by
  induction n with
  | zero =>
    intro s hs _ _
    obtain rfl : s = [] := List.length_eq_zero_iff.1 (by omega)
    exact .nil
  | succ n ih =>
    intro s hs hi hw
    rcases cut_first s with hx | ⟨x, r, hx, rfl⟩
    · rw [noLf_unfold hx, cutLines_last hx]
      split
      · exact .nil
      · exact .last hi hx
    · have hxi : NoIndent (x ++ ['\n']) := by
        cases x with
        | nil => simp [NoIndent]
        | cons c x => simpa [NoIndent] using hi
      rw [cutLines_line hx] at hw ⊢
      rcases noIndent_cases r with hr | ⟨b, r', hb, rfl⟩
      · rw [unfold_next hx hr, cutLines_line hx]
        refine .line ⟨hxi, fun t ht => ?_⟩ (ih r (by simp at hs; omega) hr (bracketsWhole_tail [_] _ hw))
        have := unfold_next hx ht
        simpa using this
      · obtain ⟨conts, w, rest, y, c1, c2, c3, c4, c5, c6, c7⟩ := continued_lines _ b r' (Nat.le_refl _) hb
        have hlc : NoLf (lineContent (x ++ ['\n'])) := fun e => hx ((content_prefix x).subset e)
        have hnone : bracketOf (x ++ ['\n']) = none ∧ 6 ≤ (lineContent (x ++ ['\n'])).length := by
          cases hc : conts with
          | nil => rw [hc] at c1; cases c1
          | cons z l =>
            rw [c2, hc, List.cons_append] at hw
            rcases hw.1 (c4 z (by rw [hc]; simp)) with h | h
            · exact absurd hxi (continues_iff.1 h)
            · exact h
        obtain ⟨q, hq⟩ := content_prefix x
        have hlong : ∀ z, bracketOf (lineContent (x ++ ['\n']) ++ z) = none := by
          intro z
          refine bracketOf_long (y := q ++ ['\n']) ?_ hnone.2
          rw [← List.append_assoc, hq]
          exact hnone.1
        have hcn : ∀ z ∈ conts, bracketOf z = none := fun z hz => bracketOf_continues (c4 z hz)
        have hflat : x ++ ['\n'] ++ conts.flatten = x ++ '\n' :: b :: w := by rw [c1]; simp
        rw [c2, unfold_continued hx hb, c3]
        rcases c7 with c7 | ⟨rfl, c7⟩
        · rw [c7 rest c5, ← List.append_assoc, cutLines_line (by simpa [NoLf] using ⟨hlc, c6⟩)]
          refine .group ⟨?_, fun t ht => ?_⟩ hnone.1 hcn ?_ (ih rest ?_ c5 ?_)
          · cases x with
            | nil => simp [NoIndent]
            | cons c x => simpa [NoIndent] using hi
          · rw [hflat]
            have := unfold_continued (r := w ++ t) hx hb
            rw [c7 t ht] at this
            simpa using this
          · rw [List.append_assoc]; exact hlong _
          · rw [c3] at hs; simp at hs; omega
          · rw [c2] at hw
            exact bracketsWhole_tail ((x ++ ['\n']) :: conts) _ hw
        · have hne : lineContent (x ++ ['\n']) ++ y ≠ [] := by
            intro h
            have := congrArg List.length h
            simp at this
            have := hnone.2
            simp_all
          have hlast := cutLines_last (x := lineContent (x ++ ['\n']) ++ y) (by simpa [NoLf] using ⟨hlc, c6⟩)
          rw [if_neg hne] at hlast
          rw [List.append_nil, c7, hlast]
          simp only [cutLines, List.append_nil]
          refine .lastGroup hxi hnone.1 hcn ?_ (hlong _) (by simp)
          rw [hflat, unfold_continued hx hb, c7]

/-- **C148.** If the lines that begin and end components can be recognised without unfolding, then it does not matter
whether the components are copied from the file or from the unfolded file. -/
theorem selected_unfold (keep : Str → Bool) {s : Str} (hi : NoIndent s) (hw : BracketsWhole (cutLines s)) :
    unfold (selectBlocks (fun block => keep (unfold block)) s) = selectBlocks keep (unfold s) := by
  have e : (fun block => keep (unfold block)) = fun block => keep (unfoldSpec block) := by
    funext block; rw [unfold_eq_spec]
  rw [e, unfold_eq_spec, unfold_eq_spec]
  exact (copy_logical keep (logical_lines _ s (Nat.le_refl _) hi hw) 0 [] [] unfolds_nil (fun _ => rfl)).1

/-! ### what is read -/

variable [Uni]

/-- the line that begins or ends a component -/
theorem bracket_line {b n : Str} {br : Break} (hn : IsName n) :
    (b.map lowerAscii = c!"begin:" → NoLf (b ++ n) ∧ NoIndent (b ++ n) ∧ bracketOf (b ++ n ++ br.text) = some (true, n)) ∧
    (b.map lowerAscii = c!"end:" → NoLf (b ++ n) ∧ NoIndent (b ++ n) ∧ bracketOf (b ++ n ++ br.text) = some (false, n)) := by
  have h1 := name_plain hn
  constructor <;> intro hb
  · have h2 := keyword_unbroken hb (by decide) (by decide)
    refine ⟨by simpa [NoLf] using ⟨h2.2, h1.2.1⟩, ?_, ?_⟩
    · cases b with
      | nil => cases hb
      | cons c b =>
        have hc : lowerAscii c = 'b' := by simpa using (List.cons.inj hb).1
        refine noIndent_cons ?_ ?_ <;> (rintro rfl; exact absurd hc (by decide))
    · rw [List.append_assoc, bracketOf_begin hb, lineContent_break h1.2.2.1]
  · have h2 := keyword_unbroken hb (by decide) (by decide)
    refine ⟨by simpa [NoLf] using ⟨h2.2, h1.2.1⟩, ?_, ?_⟩
    · cases b with
      | nil => cases hb
      | cons c b =>
        have hc : lowerAscii c = 'e' := by simpa using (List.cons.inj hb).1
        refine noIndent_cons ?_ ?_ <;> (rintro rfl; exact absurd hc (by decide))
    · rw [List.append_assoc, bracketOf_end hb, lineContent_break h1.2.2.1]

/-- the line of a property -/
theorem prop_line {br : Break} {key : Str} {params : List DParam} {val : Str} (hk : KeyOk key)
    (hu : (Item.prop key params val).Unbroken) :
    Flat ((Item.prop key params val).text br) ∧ WellEnded ((Item.prop key params val).text br) := by
  simp only [Item.Unbroken] at hu
  obtain ⟨d, t, hd, ht⟩ := params_start params val
  constructor
  · refine flat_of ?_ ?_
    · rw [Item.text]; exact lineEnded_break hu.2 br
    · have hline := bracketed_break hu.2 br
      rw [bracketOf_prop hk hd (by rw [List.append_assoc, List.append_assoc, ht]; exact List.prefix_refl _) (.inr (break_start br))] at hline
      rw [Item.text]; exact hline
  · rw [Item.text]
    refine wellEnded_break hu.2 ?_ br
    rw [List.append_assoc, List.append_assoc, ht]
    refine noIndent_append ?_ ?_
    · cases key with
      | nil => exact noIndent_nil
      | cons c key =>
        have := (name_plain hk.name).2.2.2 c (by simp)
        exact noIndent_cons this.2.1 this.2.2
    · rcases hd with rfl | rfl <;> exact noIndent_cons (by decide) (by decide)

/-- elements within a component are held back with it; their lines are not indented -/
theorem spaced_held {br : Break} : (l : List Item) → ItemsOk br l → ItemsUnbroken l → {s : Str} → SpacedAll br l s →
    HeldBack s ∧ WellEnded s
  | [], _, _, s, hs => by
    simp only [SpacedAll] at hs
    subst hs
    exact ⟨heldBack_flat flat_nil, wellEnded_nil⟩
  | .prop key params val :: l, h, hu, s, hs => by
    simp only [SpacedAll, Spaced] at hs
    obtain ⟨s1, s2, ⟨bl, hb, rfl⟩, h2, rfl⟩ := hs
    simp only [ItemsOk, Item.Ok] at h
    rw [ItemsUnbroken] at hu
    obtain ⟨i1, i2⟩ := spaced_held l h.2 hu.2 h2
    obtain ⟨p1, p2⟩ := prop_line (br := br) h.1.1 hu.1
    exact ⟨heldBack_append (heldBack_flat (flat_append p1 (flat_blank hb))) i1,
      wellEnded_append (wellEnded_append p2 (wellEnded_blank hb)) i2⟩
  | .comp b e name items :: l, h, hu, s, hs => by
    simp only [SpacedAll, Spaced] at hs
    obtain ⟨s1, s2, ⟨bl, body, bl', hb, hb', hbody, rfl⟩, h2, rfl⟩ := hs
    simp only [ItemsOk, Item.Ok] at h
    simp only [ItemsUnbroken, Item.Unbroken] at hu
    obtain ⟨i1, i2⟩ := spaced_held l h.2 hu.2 h2
    obtain ⟨j1, j2⟩ := spaced_held items h.1.2.2.2 hu.1 hbody
    obtain ⟨n1, n2, n3⟩ := (bracket_line (br := br) h.1.2.2.1).1 h.1.1
    obtain ⟨m1, m2, m3⟩ := (bracket_line (br := br) h.1.2.2.1).2 h.1.2.1
    have body1 := heldBack_append (heldBack_flat (flat_blank hb)) j1
    have rest := heldBack_append (heldBack_flat (flat_blank hb')) i1
    constructor
    · intro keep d held t hd
      have e1 : b ++ (name ++ (br.text ++ bl ++ (body ++ (e ++ (name ++ (br.text ++ bl')))))) ++ s2 ++ t =
          b ++ name ++ br.text ++ (bl ++ body ++ (e ++ name ++ br.text ++ (bl' ++ s2 ++ t))) := by
        simp only [List.append_assoc]
      rw [e1, cutLines_break n1, copyLines, n3]
      simp only [if_neg (show ¬ d = 0 by omega)]
      rw [body1 keep (d + 1) _ _ (by omega), cutLines_break m1, copyLines, m3]
      simp only [if_neg (show ¬ d + 1 ≤ 1 by omega), if_neg (show ¬ d + 1 = 2 by omega), Nat.add_sub_cancel]
      rw [rest keep d _ _ hd]
      simp only [List.append_assoc]
    · have := wellEnded_append (wellEnded_append (wellEnded_append (wellEnded_append (wellEnded_append (wellEnded_break n1 n2 br)
        (wellEnded_blank hb)) j2) (wellEnded_break m1 m2 br)) (wellEnded_blank hb')) i2
      simpa only [List.append_assoc] using this

/-- what is copied of the elements of a calendar -/
theorem copy_items (keep : Str → Bool) {br : Break} : (l : List Item) → ItemsOk br l → ItemsUnbroken l → {s : Str} → SpacedAll br l s →
    ∃ (blocks : List (Item × Str)) (bl s' : Str) (l' : List Item),
      itemsComps (blocks.map Prod.fst) = itemsComps l ∧ (blocks.map Prod.snd).flatten.Sublist s ∧
      (∀ x ∈ blocks, (∃ b e n items, x.1 = .comp b e n items) ∧ ItemsOk br [x.1] ∧ ItemsUnbroken [x.1] ∧ SpacedAll br [x.1] x.2) ∧
      itemsProps l' = itemsProps l ∧ itemsComps l' = itemsComps ((blocks.filter (fun x => keep x.2)).map Prod.fst) ∧
      ItemsOk br l' ∧ ItemsUnbroken l' ∧ Blank bl ∧ SpacedAll br l' s' ∧
      ∀ t, copyLines keep 1 [] (cutLines (s ++ t)) = bl ++ (s' ++ copyLines keep 1 [] (cutLines t))
  | [], _, _, s, hs => by
    simp only [SpacedAll] at hs
    subst hs
    exact ⟨[], [], [], [], rfl, by simp, by simp, rfl, rfl, by simp [ItemsOk], by simp [ItemsUnbroken], blank_nil, by simp [SpacedAll], fun t => rfl⟩
  | .prop key params val :: l, h, hu, s, hs => by
    simp only [SpacedAll, Spaced] at hs
    obtain ⟨s1, s2, ⟨bl, hb, rfl⟩, h2, rfl⟩ := hs
    have h0 := h
    rw [ItemsOk, Item.Ok] at h
    rw [ItemsUnbroken] at hu
    obtain ⟨blocks, bl', s', l', a1, a2, a3, a4, a5, a6, a7, a8, a9, a10⟩ := copy_items keep l h.2 hu.2 h2
    obtain ⟨p1, -⟩ := prop_line (br := br) h.1.1 hu.1
    refine ⟨blocks, [], (Item.prop key params val).text br ++ (bl ++ bl') ++ s', .prop key params val :: l', ?_, ?_, a3, ?_, ?_, ?_, ?_, blank_nil, ?_, fun t => ?_⟩
    · rw [itemsComps]; exact a1
    · exact a2.trans (List.sublist_append_right _ _)
    · rw [itemsProps, itemsProps, a4]
    · rw [itemsComps]; exact a5
    · rw [ItemsOk, Item.Ok]; exact ⟨h.1, a6⟩
    · rw [ItemsUnbroken]; exact ⟨hu.1, a7⟩
    · simp only [SpacedAll, Spaced]
      exact ⟨_, s', ⟨bl ++ bl', blank_append hb a8, rfl⟩, a9, rfl⟩
    · rw [List.append_assoc, copy_flat (by omega) (flat_append p1 (flat_blank hb)), a10]
      simp only [List.append_assoc, List.nil_append]
  | .comp b e name items :: l, h, hu, s, hs => by
    simp only [SpacedAll, Spaced] at hs
    obtain ⟨s1, s2, ⟨bl, body, bl', hb, hb', hbody, rfl⟩, h2, rfl⟩ := hs
    have h0 := h
    have hu0 := hu
    rw [ItemsOk] at h0
    rw [ItemsUnbroken] at hu0
    simp only [ItemsOk, Item.Ok] at h
    simp only [ItemsUnbroken, Item.Unbroken] at hu
    obtain ⟨blocks, blr, sr, l', a1, a2, a3, a4, a5, a6, a7, a8, a9, a10⟩ := copy_items keep l h.2 hu.2 h2
    obtain ⟨j1, j2⟩ := spaced_held items h.1.2.2.2 hu.1 hbody
    obtain ⟨n1, n2, n3⟩ := (bracket_line (br := br) h.1.2.2.1).1 h.1.1
    obtain ⟨m1, m2, m3⟩ := (bracket_line (br := br) h.1.2.2.1).2 h.1.2.1
    have body1 := heldBack_append (heldBack_flat (flat_blank hb)) j1
    -- the text of the component, without the blank lines after it
    let block := b ++ (name ++ (br.text ++ bl ++ (body ++ (e ++ (name ++ (br.text ++ []))))))
    have hcopy : ∀ t, copyLines keep 1 [] (cutLines (b ++ (name ++ (br.text ++ bl ++ (body ++ (e ++ (name ++ (br.text ++ bl')))))) ++ s2 ++ t)) =
        (if keep block then block else []) ++ (bl' ++ (blr ++ (sr ++ copyLines keep 1 [] (cutLines t)))) := by
      intro t
      have e1 : b ++ (name ++ (br.text ++ bl ++ (body ++ (e ++ (name ++ (br.text ++ bl')))))) ++ s2 ++ t =
          b ++ name ++ br.text ++ (bl ++ body ++ (e ++ name ++ br.text ++ (bl' ++ (s2 ++ t)))) := by
        simp only [List.append_assoc]
      rw [e1, cutLines_break n1, copyLines, n3]
      simp only [if_neg (show ¬ (1 : Nat) = 0 by omega)]
      rw [body1 keep 2 _ _ (by omega), cutLines_break m1, copyLines, m3]
      simp only [if_neg (show ¬ (1 + 1 : Nat) ≤ 1 by omega), if_true]
      rw [copy_flat (by omega) (flat_blank hb'), a10]
      have e2 : [] ++ (b ++ name ++ br.text) ++ (bl ++ body) ++ (e ++ name ++ br.text) = block := by
        simp only [block, List.append_assoc, List.nil_append, List.append_nil]
      rw [e2]
    have hblock : SpacedAll br [Item.comp b e name items] block := by
      simp only [SpacedAll, Spaced]
      exact ⟨block, [], ⟨bl, body, [], hb, blank_nil, hbody, rfl⟩, rfl, by simp⟩
    refine ⟨(.comp b e name items, block) :: blocks, ?_⟩
    have c1 : itemsComps (((Item.comp b e name items, block) :: blocks).map Prod.fst) = itemsComps (.comp b e name items :: l) := by
      rw [List.map_cons, itemsComps_comp, itemsComps_comp, a1]
    have c2 : (((Item.comp b e name items, block) :: blocks).map Prod.snd).flatten.Sublist
        (b ++ (name ++ (br.text ++ bl ++ (body ++ (e ++ (name ++ (br.text ++ bl')))))) ++ s2) := by
      rw [List.map_cons, List.flatten_cons]
      refine List.Sublist.append ?_ a2
      have : b ++ (name ++ (br.text ++ bl ++ (body ++ (e ++ (name ++ (br.text ++ bl')))))) = block ++ bl' := by
        simp only [block, List.append_assoc, List.nil_append]
      rw [this]
      exact List.sublist_append_left _ _
    have c3 : ∀ x ∈ (Item.comp b e name items, block) :: blocks, (∃ b e n items, x.1 = .comp b e n items) ∧ ItemsOk br [x.1] ∧
        ItemsUnbroken [x.1] ∧ SpacedAll br [x.1] x.2 := by
      intro x hx
      rcases List.mem_cons.1 hx with rfl | hx
      · refine ⟨⟨_, _, _, _, rfl⟩, ?_, ?_, hblock⟩
        · simp only [ItemsOk, and_true]; exact h0.1
        · simp only [ItemsUnbroken, and_true]; exact hu0.1
      · exact a3 x hx
    by_cases hk : keep block = true
    · refine ⟨[], b ++ (name ++ (br.text ++ bl ++ (body ++ (e ++ (name ++ (br.text ++ (bl' ++ blr))))))) ++ sr, .comp b e name items :: l',
        c1, c2, c3, ?_, ?_, ?_, ?_, blank_nil, ?_, fun t => ?_⟩
      · rw [itemsProps, itemsProps, a4]
      · rw [List.filter_cons_of_pos (by simpa using hk), List.map_cons, itemsComps_comp, itemsComps_comp, a5]
      · rw [ItemsOk]; exact ⟨h0.1, a6⟩
      · rw [ItemsUnbroken]; exact ⟨hu0.1, a7⟩
      · simp only [SpacedAll, Spaced]
        exact ⟨_, sr, ⟨bl, body, bl' ++ blr, hb, blank_append hb' a8, hbody, rfl⟩, a9, rfl⟩
      · rw [hcopy, if_pos hk]
        simp only [block, List.append_assoc, List.nil_append]
    · refine ⟨bl' ++ blr, sr, l', c1, c2, c3, ?_, ?_, a6, a7, blank_append hb' a8, a9, fun t => ?_⟩
      · rw [itemsProps]; exact a4
      · rw [List.filter_cons_of_neg (by simpa using hk)]; exact a5
      · rw [hcopy, if_neg hk]
        simp only [List.append_assoc, List.nil_append]

/-- a text of these lines that is not folded presents the document -/
theorem presents_plain {br : Break} {b e : Str} {l : List Item} (h : (Item.comp b e c!"VCALENDAR" l).Ok br)
    (hu : (Item.comp b e c!"VCALENDAR" l).Unbroken) {lead bl body tail : Str} (hl : Blank lead) (hb : Blank bl) (ht : Blank tail)
    (hbody : SpacedAll br l body)
    (hr : br = .lf → '\r' ∉ lead ++ (b ++ (c!"VCALENDAR" ++ (br.text ++ bl ++ (body ++ (e ++ (c!"VCALENDAR" ++ tail))))))) :
    Presents br (.comp b e c!"VCALENDAR" l) (lead ++ (b ++ (c!"VCALENDAR" ++ (br.text ++ bl ++ (body ++ (e ++ (c!"VCALENDAR" ++ tail))))))) ∧
    MarkerFree (lead ++ (b ++ (c!"VCALENDAR" ++ (br.text ++ bl ++ (body ++ (e ++ (c!"VCALENDAR" ++ tail))))))) ∧
    NoIndent (lead ++ (b ++ (c!"VCALENDAR" ++ (br.text ++ bl ++ (body ++ (e ++ (c!"VCALENDAR" ++ tail))))))) := by
  simp only [Item.Ok] at h
  simp only [Item.Unbroken] at hu
  simp only [Presents]
  refine (fun hm => ⟨⟨lead, bl, body, tail, hl, hb, ht, hbody, hr, foldedForm_plain hm.1⟩, hm⟩) ?_
  obtain ⟨n1, n2, -⟩ := (bracket_line (br := br) h.2.2.1).1 h.1
  obtain ⟨m1, m2, -⟩ := (bracket_line (br := br) h.2.2.1).2 h.2.1
  have h1 := wellEnded_append (wellEnded_append (wellEnded_append (wellEnded_blank hl) (wellEnded_break n1 n2 br)) (wellEnded_blank hb))
    (spaced_held l h.2.2.2 hu hbody).2
  have h2 : MarkerFree (e ++ c!"VCALENDAR" ++ tail) ∧ NoIndent (e ++ c!"VCALENDAR" ++ tail) := by
    obtain ⟨bs, rfl⟩ := ht
    cases bs with
    | nil =>
      simp only [List.map_nil, List.flatten_nil, List.append_nil]
      exact ⟨markerFree_of_noLf m1, m2⟩
    | cons br' bs =>
      have := wellEnded_append (wellEnded_break m1 m2 br') (wellEnded_blank ⟨bs, rfl⟩) [] markerFree_nil noIndent_nil
      simpa only [List.map_cons, List.flatten_cons, List.append_assoc, List.append_nil] using this
  have := h1 _ h2.1 h2.2
  simpa only [List.append_assoc] using this

omit [Uni] in
theorem itemsComps_all {l : List Item} (h : ∀ i ∈ l, ∃ b e n items, i = Item.comp b e n items) : itemsComps l = l.map readAs := by
  induction l with
  | nil => rw [itemsComps, List.map_nil]
  | cons i l ih =>
    obtain ⟨b, e, n, items, rfl⟩ := h i (by simp)
    rw [itemsComps_comp, List.map_cons, ih (fun j hj => h j (by simp [hj]))]

/-- what is copied, as a document -/
theorem selected_text {br : Break} {b e : Str} {l : List Item} (h : (Item.comp b e c!"VCALENDAR" l).Ok br)
    (hu : (Item.comp b e c!"VCALENDAR" l).Unbroken) {file : Str} (hp : Presents br (.comp b e c!"VCALENDAR" l) file) (keep : Str → Bool) :
    ∃ (blocks : List (Item × Str)) (l' : List Item),
      itemsComps (blocks.map Prod.fst) = itemsComps l ∧ (blocks.map Prod.snd).flatten.Sublist (unfold file) ∧
      (∀ x ∈ blocks, (∃ b e n items, x.1 = .comp b e n items) ∧ ItemsOk br [x.1] ∧ ItemsUnbroken [x.1] ∧ SpacedAll br [x.1] x.2) ∧
      itemsProps l' = itemsProps l ∧ itemsComps l' = itemsComps ((blocks.filter (fun x => keep x.2)).map Prod.fst) ∧
      (Item.comp b e c!"VCALENDAR" l').Ok br ∧ Presents br (.comp b e c!"VCALENDAR" l') (selectBlocks keep (unfold file)) ∧
      MarkerFree (selectBlocks keep (unfold file)) ∧ NoIndent (unfold file) ∧ (br = .lf → '\r' ∉ unfold file) := by
  have h0 := h
  have hu0 := hu
  simp only [Item.Ok] at h
  simp only [Item.Unbroken] at hu
  simp only [Presents] at hp
  obtain ⟨lead, bl, body, tail, hl, hb, ht, hbody, hr, hfold⟩ := hp
  obtain ⟨blocks, bl', s', l', a1, a2, a3, a4, a5, a6, a7, a8, a9, a10⟩ := copy_items keep l h.2.2.2 hu hbody
  have hun := foldedForm_unfold hfold
  have hlast : copyLines keep 1 [] (cutLines (e ++ (c!"VCALENDAR" ++ tail))) = e ++ (c!"VCALENDAR" ++ tail) := by
    obtain ⟨bs, rfl⟩ := ht
    cases bs with
    | nil =>
      obtain ⟨m1, -, -⟩ := (bracket_line (br := br) h.2.2.1).2 h.2.1
      have e1 := cutLines_last m1
      rw [if_neg (by simp)] at e1
      have e2 := bracketOf_end (x := c!"VCALENDAR") h.2.1
      simp only [List.map_nil, List.flatten_nil, List.append_nil]
      rw [e1, copyLines, e2]
      simp [copyLines]
    | cons br' bs =>
      obtain ⟨m1, -, m3⟩ := (bracket_line (br := br') h.2.2.1).2 h.2.1
      have e1 : e ++ (c!"VCALENDAR" ++ ((br' :: bs).map Break.text).flatten) =
          e ++ c!"VCALENDAR" ++ br'.text ++ ((bs.map Break.text).flatten ++ []) := by
        simp only [List.map_cons, List.flatten_cons, List.append_assoc, List.append_nil]
      rw [e1, cutLines_break m1, copyLines, m3]
      simp only [if_pos (show (1 : Nat) ≤ 1 by omega)]
      rw [copy_flat (by omega) (flat_blank ⟨bs, rfl⟩)]
      simp only [cutLines, copyLines]
  have hres : selectBlocks keep (unfold file) =
      lead ++ (b ++ (c!"VCALENDAR" ++ (br.text ++ (bl ++ bl') ++ (s' ++ (e ++ (c!"VCALENDAR" ++ tail)))))) := by
    obtain ⟨n1, -, n3⟩ := (bracket_line (br := br) h.2.2.1).1 h.1
    unfold selectBlocks
    have e1 : lead ++ (b ++ (c!"VCALENDAR" ++ (br.text ++ bl ++ (body ++ (e ++ (c!"VCALENDAR" ++ tail)))))) =
        lead ++ (b ++ c!"VCALENDAR" ++ br.text ++ (bl ++ (body ++ (e ++ (c!"VCALENDAR" ++ tail))))) := by
      simp only [List.append_assoc]
    rw [hun, e1, copy_flat (by omega) (flat_blank hl), cutLines_break n1, copyLines, n3]
    simp only [if_true]
    rw [copy_flat (by omega) (flat_blank hb), a10, hlast]
    simp only [List.append_assoc]
  have hpres : Presents br (.comp b e c!"VCALENDAR" l') (selectBlocks keep (unfold file)) ∧ MarkerFree (selectBlocks keep (unfold file)) ∧
      NoIndent (selectBlocks keep (unfold file)) := by
    rw [hres]
    refine presents_plain (by rw [Item.Ok]; exact ⟨h.1, h.2.1, h.2.2.1, a6⟩) (by rw [Item.Unbroken]; exact a7) hl (blank_append hb a8) ht a9 ?_
    intro hbr hm
    rw [← hres] at hm
    rcases copy_mem _ _ _ hm with hm | hm
    · cases hm
    · rw [cutLines_flatten, hun] at hm
      exact hr hbr hm
  have hplain := presents_plain h0 hu0 hl hb ht hbody hr
  refine ⟨blocks, l', a1, ?_, a3, a4, a5, by rw [Item.Ok]; exact ⟨h.1, h.2.1, h.2.2.1, a6⟩, hpres.1, hpres.2.1, ?_, ?_⟩
  · rw [hun]
    have e1 : lead ++ (b ++ (c!"VCALENDAR" ++ (br.text ++ bl ++ (body ++ (e ++ (c!"VCALENDAR" ++ tail)))))) =
        lead ++ b ++ c!"VCALENDAR" ++ br.text ++ bl ++ (body ++ (e ++ (c!"VCALENDAR" ++ tail))) := by
      simp only [List.append_assoc]
    rw [e1]
    exact (a2.trans (List.sublist_append_left _ _)).trans (List.sublist_append_right _ _)
  · rw [hun]; exact hplain.2.2
  · rw [hun]; exact hr

/-- **C148.** Copying, line by line, an unfolded file without some of its components gives a file from which the calendar
without these components is read. What is decided by is, put in a calendar alone, a text from which the component alone
is read. -/
theorem selected_file {br : Break} {b e : Str} {l : List Item} (h : (Item.comp b e c!"VCALENDAR" l).Ok br)
    (hu : (Item.comp b e c!"VCALENDAR" l).Unbroken) {file : Str} (hp : Presents br (.comp b e c!"VCALENDAR" l) file) (keep : Str → Bool) :
    ∃ (c : Calendar) (blocks : List (CalComp × Str)), Calendar.fromStr file = some c ∧ blocks.map Prod.fst = c.comps ∧
      (blocks.map Prod.snd).flatten.Sublist (unfold file) ∧
      (∀ x ∈ blocks, Calendar.fromStr (c!"BEGIN:VCALENDAR" ++ br.text ++ x.2 ++ c!"END:VCALENDAR") = some ⟨[], [x.1]⟩) ∧
      Calendar.fromStr (selectBlocks keep (unfold file)) = some ⟨c.props, (blocks.filter (fun x => keep x.2)).map Prod.fst⟩ := by
  have hread := presents_calendar h hp
  obtain ⟨blocks, l', a1, a2, a3, a4, a5, h', hpres, hm, -, hr⟩ := selected_text h hu hp keep
  have isName_vcal : IsName c!"VCALENDAR" := by simp [IsName, NameChar, isAlnum]
  refine ⟨_, blocks.map (fun x => ((readAs x.1).toCalComp, x.2)), hread, ?_, ?_, ?_, ?_⟩
  · have := itemsComps_all (l := blocks.map Prod.fst) (fun i hi => by
      obtain ⟨x, hx, rfl⟩ := List.mem_map.1 hi
      exact (a3 x hx).1)
    rw [a1] at this
    simp only [this, List.map_map]
    rfl
  · rw [List.map_map]; exact a2
  · intro y hy
    obtain ⟨x, hx, rfl⟩ := List.mem_map.1 hy
    obtain ⟨⟨b1, e1, n1, items1, hx1⟩, x1, x2, x3⟩ := a3 x hx
    have hmem : ∀ c ∈ x.2, c ∈ unfold file := fun c hc => a2.subset (List.mem_flatten.2 ⟨x.2, List.mem_map.2 ⟨x, hx, rfl⟩, hc⟩)
    have hp := presents_plain (b := c!"BEGIN:") (e := c!"END:") (lead := []) (bl := []) (tail := [])
      (by rw [Item.Ok]; exact ⟨by decide, by decide, isName_vcal, x1⟩) (by rw [Item.Unbroken]; exact x2) blank_nil blank_nil blank_nil x3 (by
        intro hbr hm
        refine hr hbr ?_
        subst hbr
        exact hmem _ (by simpa [Break.text] using hm))
    have := presents_calendar (by rw [Item.Ok]; exact ⟨by decide, by decide, isName_vcal, x1⟩) hp.1
    simp only [List.nil_append, List.append_nil, List.append_assoc, List.cons_append] at this ⊢
    rw [this, hx1, itemsProps_comp, itemsComps_comp, itemsProps, itemsComps]
    rfl
  · rw [presents_calendar h' hpres, a4, a5, itemsComps_all (fun i hi => by
      obtain ⟨x, hx, rfl⟩ := List.mem_map.1 hi
      exact (a3 x (List.mem_filter.1 hx).1).1)]
    simp only [List.filter_map, List.map_map]
    rfl

/-- **C148.** So the file need not be unfolded either. -/
theorem selected_folded {br : Break} {b e : Str} {l : List Item} (h : (Item.comp b e c!"VCALENDAR" l).Ok br)
    (hu : (Item.comp b e c!"VCALENDAR" l).Unbroken) {file : Str} (hp : Presents br (.comp b e c!"VCALENDAR" l) file)
    (hw : BracketsWhole (cutLines file)) (keep : Str → Bool) :
    Calendar.fromStr (selectBlocks (fun block => keep (unfold block)) file) = Calendar.fromStr (selectBlocks keep (unfold file)) := by
  obtain ⟨-, -, -, -, -, -, -, -, -, hm, hi, -⟩ := selected_text h hu hp keep
  have hi : NoIndent file := by
    rcases noIndent_cases file with h | ⟨b, r, hb, rfl⟩
    · exact h
    · exfalso
      rw [unfold_eq_spec] at hi
      rcases hb with rfl | rfl
      · rw [unfoldSpec_cons _ _ (no_marker (by decide) (fun h => absurd h (by decide)))] at hi
        exact hi.1 rfl
      · rw [unfoldSpec_cons _ _ (no_marker (by decide) (fun h => absurd h (by decide)))] at hi
        exact hi.2 rfl
  unfold Calendar.fromStr
  rw [selected_unfold keep hi hw, unfold_eq_spec (selectBlocks keep (unfold file)), unfoldSpec_markerFree _ hm]

end Ical
