import Verif.Proofs.SimpleErrors
import Verif.Props.Report

/-!
The errors of the simple reader (C122).
-/

namespace Ical

open Nom Spec

variable [Uni]

/-- **C122.** The simple reader and the reader with messages read the same texts as the same components. -/
theorem simple_reads (i : Str) (l : List PComp) : readCalendarSimple i = .ok l ↔ readComponents i = some l := by
  unfold readCalendarSimple readComponents
  cases components i <;> simp [finish]

theorem simple_error_payload (i : Str) (e : SErr) : readCalendarSimple i = .error e ↔
    ∃ l, EP.components.payload i = some ((e.input, .nom e.code) :: l) := by
  have hs := sim_components i
  have hr : EP.components.run i = components i := rfl
  unfold readCalendarSimple EP.payload
  rw [hr]
  cases hc : components i with
  | ok r l => simp
  | error =>
    obtain ⟨s, k, t, h1, h2⟩ := hs.2 (by simp [hr, hc])
    rw [h1, h2]
    cases e
    simp
  | failure =>
    obtain ⟨s, k, t, h1, h2⟩ := hs.2 (by simp [hr, hc])
    rw [h1, h2]
    cases e
    simp

/-- **C122.** The simple reader gives an error if and only if reading fails as specified, and the error is the innermost
place of what the other reader says. -/
theorem simple_error_iff (i : Str) (e : SErr) : readCalendarSimple i = .error e ↔
    ∃ lead j l, i = lead ++ j ∧ Blank lead ∧ Reports j ((e.input, .nom e.code) :: l) := by
  rw [simple_error_payload, components_payload]
  constructor
  · rintro ⟨l, h⟩
    cases hc : component i with
    | ok r a => simp [hc] at h
    | error => simp [hc] at h
    | failure =>
      simp only [hc, Option.some.injEq] at h
      obtain ⟨lead, j, rfl, h1, h2⟩ := component_failure_iff.1 hc
      obtain ⟨l', hl⟩ := broken_reports h2
      have hg := begins_begin_head (broken_begins h2)
      rw [component_err_lead h1 hg.2.2, reports_err hl] at h
      exact ⟨lead, j, l, rfl, h1, h ▸ hl⟩
  · rintro ⟨lead, j, l, rfl, h1, h2⟩
    have hb := reports_broken h2
    have hg := begins_begin_head (broken_begins hb)
    rw [fails_reads ⟨lead, j, rfl, h1, hb⟩]
    exact ⟨l, by simp only [component_err_lead h1 hg.2.2, reports_err h2]⟩

/-- **C122.** What an error of the simple reader is about: the text behind an `END:` (of the kind Tag), or a text that starts
with END or BEGIN (of the kind Satisfy). -/
theorem simple_error_place (i : Str) (e : SErr) (h : readCalendarSimple i = .error e) :
    (e.code = c!"Tag" ∧ ∃ before kw, i = before ++ kw ++ e.input ∧ kw.map lowerAscii = c!"end:") ∨
    (e.code = c!"Satisfy" ∧ (c!"END" <+: e.input ∨ c!"BEGIN" <+: e.input) ∧ ∃ before, i = before ++ e.input) := by
  obtain ⟨lead, j, l, rfl, _, h⟩ := (simple_error_iff i e).1 h
  obtain ⟨s, k⟩ := e
  have key : ∀ {j : Str} {l : List Entry}, Reports j l → ∀ s k t, l = (s, .nom k) :: t →
      (k = c!"Tag" ∧ ∃ before kw, j = before ++ kw ++ s ∧ kw.map lowerAscii = c!"end:") ∨
      (k = c!"Satisfy" ∧ (c!"END" <+: s ∨ c!"BEGIN" <+: s) ∧ ∃ before, j = before ++ s) := by
    intro j l h
    induction h with
    | @close n _ _ b gap body e f _ _ _ _ _ _ he _ =>
      intro s k t ht
      cases ht
      exact .inl ⟨rfl, b ++ (n ++ (gap ++ body)), e, by simp, he⟩
    | @word n _ _ b gap body white s' _ _ _ _ _ _ _ hs _ _ =>
      intro s k t ht
      cases ht
      exact .inr ⟨rfl, hs, b ++ (n ++ (gap ++ (body ++ white))), by simp⟩
    | @inner n _ _ b gap body f l _ _ _ _ _ _ hl ih =>
      intro s k t ht
      cases l with
      | nil => cases ht
      | cons x l =>
        simp only [List.cons_append, List.cons.injEq] at ht
        rcases ih s k l (by rw [ht.1]) with ⟨h1, before, kw, h2, h3⟩ | ⟨h1, h2, before, h3⟩
        · exact .inl ⟨h1, b ++ (n ++ (gap ++ (body ++ before))), kw, by rw [h2]; simp, h3⟩
        · exact .inr ⟨h1, h2, b ++ (n ++ (gap ++ (body ++ before))), by rw [h3]; simp⟩
  rcases key h s k l rfl with ⟨h1, before, kw, h2, h3⟩ | ⟨h1, h2, before, h3⟩
  · exact .inl ⟨h1, lead ++ before, kw, by rw [h2]; simp, h3⟩
  · exact .inr ⟨h1, h2, lead ++ before, by rw [h3]; simp⟩

/-- **C122.** The message of the other reader starts with the line and the column of the error of the simple one, and with its
kind. -/
theorem simple_error_message (i m : Str) (h : readCalendarError i = some m) :
    ∃ e n line col, readCalendarSimple i = .error e ∧ IsPlace i e.input n line col ∧
      (c!"error: 0: at line " ++ Nat.toDigits 10 n ++ c!", in " ++ e.code ++ c!":\n" ++ line ++ c!"\n" ++
        List.replicate (col - 1) ' ' ++ c!"^\n\n") <+: m := by
  obtain ⟨lead, j, l, text, h1, h2, h3, h4, rfl⟩ := calendar_report_iff.1 h
  have hf : ∀ {j : Str} {l : List Entry}, Reports j l → ∃ s k t, l = (s, .nom k) :: t := by
    intro j l h
    induction h with
    | close => exact ⟨_, _, _, rfl⟩
    | word => exact ⟨_, _, _, rfl⟩
    | inner _ _ _ _ _ _ _ ih =>
      obtain ⟨s, k, t, rfl⟩ := ih
      exact ⟨s, k, _, rfl⟩
  obtain ⟨s, k, t, rfl⟩ := hf h3
  cases h4 with
  | @cons _ _ _ _ n col line text hp ht =>
    refine ⟨⟨s, k⟩, n, line, col, (simple_error_iff i _).2 ⟨lead, j, t, h1, h2, h3⟩, hp, text, ?_⟩
    simp [EKind.says]

/-- what is said about a wrong END inside another component, and about a property called ENDING; a text that is no calendar
is no error -/
example : (@readCalendarSimple Uni.ascii c!"BEGIN:A\nbegin:B\nEND:C\n").toOption.isNone ∧
    (match @readCalendarSimple Uni.ascii c!"BEGIN:A\nbegin:B\nEND:C\n" with
      | .error e => String.ofList e.show | .ok _ => "") = "error Tag at: C\n" ∧
    (match @readCalendarSimple Uni.ascii c!"BEGIN:A\nX:1\n\tENDING:2\nEND:A\n" with
      | .error e => String.ofList e.show | .ok _ => "") = "error Satisfy at: ENDING:2\nEND:A\n" ∧
    (@readCalendarSimple Uni.ascii c!"nothing").toOption.isSome := by
  decide +kernel

end Ical
