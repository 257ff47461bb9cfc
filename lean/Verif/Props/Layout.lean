import Verif.Proofs.Fold
import Verif.Props.Folding
import Verif.Spec.Layout

/-!
C96: the text of parsed trees.
-/

namespace Ical

open Spec

/-- the letters of the alphabet and nothing else are put into lower case -/
theorem lowerAscii_table (c : Char) :
    (∀ x ∈ (c!"ABCDEFGHIJKLMNOPQRSTUVWXYZ").zip c!"abcdefghijklmnopqrstuvwxyz", lowerAscii x.1 = x.2) ∧
    (c ∉ c!"ABCDEFGHIJKLMNOPQRSTUVWXYZ" → lowerAscii c = c) := by
  refine ⟨by decide, fun h => ?_⟩
  unfold lowerAscii
  split
  case isFalse => rfl
  case isTrue hc =>
    exfalso
    simp only [Bool.and_eq_true, decide_eq_true_eq] at hc
    have hv : c = Char.ofNat c.toNat := (Char.ofNat_toNat c).symm
    generalize c.toNat = n at *
    have hlt : n < 91 := by omega
    have : ∀ n < 91, 0x41 ≤ n → Char.ofNat n ∈ c!"ABCDEFGHIJKLMNOPQRSTUVWXYZ" := by decide
    exact h (hv ▸ this n hlt hc.1)

/-- a lower-case letter and its upper-case letter -/
theorem lowerAscii_iff {c l : Char} (hl : l ∈ c!"abcdefghijklmnopqrstuvwxyz") :
    lowerAscii c = l ↔ (c, l) ∈ (c!"ABCDEFGHIJKLMNOPQRSTUVWXYZ" ++ c!"abcdefghijklmnopqrstuvwxyz").zip
      (c!"abcdefghijklmnopqrstuvwxyz" ++ c!"abcdefghijklmnopqrstuvwxyz") := by
  constructor
  · intro h
    by_cases hc : c ∈ c!"ABCDEFGHIJKLMNOPQRSTUVWXYZ"
    · subst h
      have : ∀ c ∈ c!"ABCDEFGHIJKLMNOPQRSTUVWXYZ", (c, lowerAscii c) ∈
          (c!"ABCDEFGHIJKLMNOPQRSTUVWXYZ" ++ c!"abcdefghijklmnopqrstuvwxyz").zip
          (c!"abcdefghijklmnopqrstuvwxyz" ++ c!"abcdefghijklmnopqrstuvwxyz") := by decide
      exact this c hc
    · rw [(lowerAscii_table c).2 hc] at h
      subst h
      have : ∀ c ∈ c!"abcdefghijklmnopqrstuvwxyz", (c, c) ∈
          (c!"ABCDEFGHIJKLMNOPQRSTUVWXYZ" ++ c!"abcdefghijklmnopqrstuvwxyz").zip
          (c!"abcdefghijklmnopqrstuvwxyz" ++ c!"abcdefghijklmnopqrstuvwxyz") := by decide
      exact this c hl
  · intro h
    have : ∀ x ∈ (c!"ABCDEFGHIJKLMNOPQRSTUVWXYZ" ++ c!"abcdefghijklmnopqrstuvwxyz").zip
        (c!"abcdefghijklmnopqrstuvwxyz" ++ c!"abcdefghijklmnopqrstuvwxyz"), lowerAscii x.1 = x.2 := by decide
    exact this _ h

theorem anyCase_iff {s t : Str} (ht : ∀ c ∈ t, c ∈ c!"abcdefghijklmnopqrstuvwxyz") :
    AnyCase s t ↔ s.map lowerAscii = t := by
  induction t generalizing s with
  | nil => cases s <;> simp [AnyCase]
  | cons l t ih =>
    cases s with
    | nil => simp [AnyCase]
    | cons c s =>
      simp only [AnyCase, List.map_cons, List.cons.injEq]
      rw [ih (fun c hc => ht c (List.mem_cons_of_mem _ hc)), lowerAscii_iff (ht l List.mem_cons_self)]

/-- every line is written as it is, up to cuts -/
theorem foldedLine_of {line s : Str} (h : foldLine line = .ok s) : FoldedLine line (s ++ crlf) := by
  obtain ⟨qs, v, h1, h2, -⟩ := foldLine_ok h
  rw [folded_joinFold] at h2
  exact ⟨qs ++ [v], by simp, by simp [h1], by rw [h2]⟩

theorem plainLine_eq (p : PProp) : p.line = plainLine p := by
  have e : ∀ q : PParam, q.text = plainParam q := by
    rintro ⟨k, _ | v⟩ <;> simp [PParam.text, plainParam]
  unfold PProp.line plainLine
  rw [List.flatMap_def, List.map_congr_left (fun q _ => e q)]
  simp

theorem propLines_of {l : List PProp} {s : Str} (h : fmtPProps l = .ok s) : PropLines l s := by
  induction l generalizing s with
  | nil => cases h; rfl
  | cons p l ih =>
    unfold fmtPProps PProp.fmtWrite at h
    cases hf : foldLine p.line with
    | error e => simp only [hf] at h; cases h
    | ok a =>
      cases hl : fmtPProps l with
      | error e => simp only [hf, hl] at h; cases h
      | ok b =>
        simp only [hf, hl] at h
        cases h
        exact ⟨_, _, by rw [← plainLine_eq]; exact foldedLine_of hf, ih hl, rfl⟩

theorem addedLines_of (name : Str) (props : List PProp) (w : World) :
    AddedLines name props (calendarStamp name props w) := by
  have hc : AnyCase name c!"calendar" ↔ name.map lowerAscii = c!"calendar" := anyCase_iff (by decide)
  have ha : ∀ k : Str, props.any (fun p => p.name == k) = true ↔ ∃ p ∈ props, p.name = k := by
    intro k; simp
  unfold calendarStamp
  by_cases h : name.map lowerAscii = c!"calendar"
  · rw [if_pos h]
    refine .inr ⟨hc.2 h, _, _, rfl, ?_, ?_⟩
    · split
      · next h => exact .inl ⟨(ha _).1 h, rfl⟩
      · next h => exact .inr ⟨fun he => h ((ha _).2 he), _, rfl⟩
    · split
      · next h => exact .inl ⟨(ha _).1 h, rfl⟩
      · next h => exact .inr ⟨fun he => h ((ha _).2 he), _, rfl⟩
  · rw [if_neg h]
    exact .inl ⟨fun he => h (hc.1 he), rfl⟩

mutual
/-- **C96.** What is written for a parsed component is: its BEGIN line, its properties, its components and its END line,
in this order and as they were read, up to cuts of long lines; a component called `calendar` (in any case) also gets
the missing ones of DTSTAMP and UID. -/
theorem parsed_component_text (c : PComp) (w : World) (out : Str) (h : c.fmtWrite w = .ok out) : CompLines c out := by
  match c with
  | .mk name props comps =>
    unfold PComp.fmtWrite at h
    cases hp : fmtPProps props with
    | error e => simp only [hp] at h; cases h
    | ok ps =>
      cases hcs : fmtPComps comps (w.sub 0) with
      | error e => simp only [hp, hcs] at h; cases h
      | ok cs =>
        simp only [hp, hcs] at h
        cases h
        unfold CompLines
        refine ⟨_, _, _, addedLines_of name props w, propLines_of hp, parsed_components_text comps _ _ hcs, ?_⟩
        simp [crlf]
theorem parsed_components_text (l : List PComp) (w : World) (out : Str) (h : fmtPComps l w = .ok out) :
    CompsLines l out := by
  match l with
  | [] => unfold fmtPComps at h; cases h; unfold CompsLines; rfl
  | c :: l =>
    unfold fmtPComps at h
    cases hc : c.fmtWrite (w.sub 0) with
    | error e => simp only [hc] at h; cases h
    | ok a =>
      cases hl : fmtPComps l (w.sub 1) with
      | error e => simp only [hc, hl] at h; cases h
      | ok b =>
        simp only [hc, hl] at h
        cases h
        unfold CompsLines
        exact ⟨_, _, parsed_component_text c _ _ hc, parsed_components_text l _ _ hl, rfl⟩
end

/-- **C96.** The same for a parsed calendar; it gets no line that was not read. -/
theorem parsed_calendar_text (c : PCal) (w : World) (out : Str) (h : c.fmtWrite w = .ok out) :
    ∃ ps cs, PropLines c.props ps ∧ CompsLines c.comps cs ∧
      out = c!"BEGIN:VCALENDAR\r\n" ++ ps ++ cs ++ c!"END:VCALENDAR\r\n" := by
  have := parsed_component_text _ w out h
  unfold CompLines at this
  obtain ⟨added, ps, cs, ha, hp, hc, rfl⟩ := this
  refine ⟨ps, cs, hp, hc, ?_⟩
  have hn : ¬ AnyCase c!"VCALENDAR" c!"calendar" := by
    rw [anyCase_iff (by decide)]; decide
  rcases ha with ⟨-, rfl⟩ | ⟨ha, -⟩
  · simp
  · exact absurd ha hn

/-- a parsed component called Calendar, without UID -/
example : let w : World := ⟨fun _ => ⟨⟨⟨2026, 1, 1⟩, 0, 0, 0, 0⟩⟩, fun _ => c!"0-f", fun _ l => l⟩
    (PComp.mk c!"CalendAR" [⟨c!"DTSTAMP", c!"x,\\;", [⟨c!"A", some c!"b"⟩, ⟨c!"C", none⟩]⟩] [.mk c!"a" [] []]).fmtWrite w =
      .ok c!"BEGIN:CalendAR\r\nUID:0-f\r\nDTSTAMP;A=b;C:x,\\;\r\nBEGIN:a\r\nEND:a\r\nEND:CalendAR\r\n" := by
  decide +kernel

/-- two texts that a tree does not have -/
example : ¬ CompLines (.mk c!"CALENDAR" [] []) c!"BEGIN:CALENDAR\r\nEND:CALENDAR\r\n" ∧
    ¬ CompLines (.mk c!"A" [] []) c!"BEGIN:A\r\nEND:B\r\n" := by
  have hc : AnyCase c!"CALENDAR" c!"calendar" := by rw [anyCase_iff (by decide)]; decide
  have ha : ¬ AnyCase c!"A" c!"calendar" := by rw [anyCase_iff (by decide)]; decide
  constructor
  · intro h
    unfold CompLines CompsLines PropLines at h
    obtain ⟨added, _, _, h, rfl, rfl, e⟩ := h
    rcases h with ⟨h, -⟩ | ⟨-, a, b, rfl, h, -⟩
    · exact h hc
    · rcases h with ⟨⟨p, hp, -⟩, -⟩ | ⟨-, t, rfl⟩
      · cases hp
      · have := congrArg List.length e
        simp at this
        omega
  · intro h
    unfold CompLines CompsLines PropLines at h
    obtain ⟨added, _, _, h, rfl, rfl, e⟩ := h
    rcases h with ⟨-, rfl⟩ | ⟨h, -⟩
    · revert e; decide
    · exact ha h

end Ical
