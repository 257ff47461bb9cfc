import Verif.Spec.Spans
import Verif.Props.DateOrder

/-!
C102: events end after they start.
-/

namespace Ical

open Spec

theorem fmt2_last {n : Nat} (h : n < 100) (s : Str) : (s ++ fmt2 n).getLast? ≠ some 'Z' := by
  rw [fmt2_eq h]
  simp only [List.getLast?_append, List.getLast?_cons_cons, List.getLast?_singleton, Option.some_or, ne_eq, Option.some.injEq]
  have : ∀ k : Fin 10, k.val.digitChar ≠ 'Z' := by decide
  exact this ⟨n % 10, by omega⟩

theorem fmtDateTime_last {t : NaiveDateTime} (h : t.Valid) : (fmtDateTime t).getLast? ≠ some 'Z' := by
  obtain ⟨-, -, -, h3, h4⟩ := h
  have e : fmtDateTime t = (fmtDate t.date ++ 'T' :: (fmt2 t.hour ++ fmt2 t.min)) ++ fmt2 (t.sec + t.nano / 1000000000) := by
    simp [fmtDateTime, fmtSec]
  rw [e]
  exact fmt2_last (by omega) _

theorem fmtDate_last {d : NaiveDate} (h : d.Valid) : (fmtDate d).getLast? ≠ some 'Z' :=
  fmt2_last (day_lt h).2 _

theorem fmtUtc_last (t : UtcDateTime) : (fmtUtc t).getLast? = some 'Z' := by
  simp [fmtUtc]

/-! ### C102 -/

/-- The two properties span a time if and only if the first value is before the second. -/
theorem spans_iff (a b : DatePerhapsTime) (ha : DateValid a) (hb : DateValid b) (ya : FourDigitYear (dateOf a))
    (yb : FourDigitYear (dateOf b)) :
    Spans (Call.dateProperty c!"DTSTART" a) (Call.dateProperty c!"DTEND" b) ↔ Before a b := by
  have value : ∀ k t, (Call.dateProperty k (.dateTime t)).params.get c!"VALUE" = none := by
    intro k t
    cases t <;> rfl
  constructor
  · rintro ⟨h1, h2, h3, h4⟩
    cases a with
    | date d =>
      cases b with
      | date d' => exact .date ((compared_date ha hb ya yb).lt.1 h4)
      | dateTime t' => rw [value] at h1; cases h1
    | dateTime t =>
      cases b with
      | date d' => rw [value] at h1; cases h1
      | dateTime t' =>
        cases t with
        | floating t =>
          cases t' with
          | floating t' => exact .floating ((compared_time ha hb ya yb).lt.1 h4)
          | utc t' => exact absurd (h3.2 (fmtUtc_last t')) (fmtDateTime_last ha)
          | zoned t' tz' => cases h2
        | utc t =>
          cases t' with
          | floating t' => exact absurd (h3.1 (fmtUtc_last t)) (fmtDateTime_last hb)
          | utc t' =>
            have h := (((compared_time ha hb ya yb).append (Compared.same ['Z'])).lt.1 h4)
            exact .utc (by simpa using h)
          | zoned t' tz' => cases h2
        | zoned t tz =>
          cases t' with
          | floating t' => cases h2
          | utc t' => cases h2
          | zoned t' tz' =>
            have e : tz = tz' := Option.some.inj h2
            subst e
            exact .zoned ((compared_time ha hb ya yb).lt.1 h4)
  · rintro (h | h | h | h)
    · exact ⟨rfl, rfl, iff_of_false (fmtDate_last ha) (fmtDate_last hb), (compared_date ha hb ya yb).lt.2 h⟩
    · exact ⟨rfl, rfl, iff_of_false (fmtDateTime_last ha) (fmtDateTime_last hb), (compared_time ha hb ya yb).lt.2 h⟩
    · exact ⟨rfl, rfl, iff_of_true (fmtUtc_last _) (fmtUtc_last _),
        ((compared_time ha hb ya yb).append (Compared.same ['Z'])).lt.2 (.inl h)⟩
    · exact ⟨rfl, rfl, iff_of_false (fmtDateTime_last ha) (fmtDateTime_last hb), (compared_time ha hb ya yb).lt.2 h⟩

/-- **C102 (partial).** An event whose start and end are set with `starts` and `ends` says that it ends after it starts if
and only if the two values are of the same form and the first is before the second. Missing: `all_day`, see
`all_day_span_violated`. -/
theorem event_span_partial {C : Type} [Component C] (c : C) (before : List Call) (a b : DatePerhapsTime) (ha : DateValid a)
    (hb : DateValid b) (ya : FourDigitYear (dateOf a)) (yb : FourDigitYear (dateOf b)) :
    ∃ s e, (Component.properties ((before ++ [Call.starts a, .ends b]).foldl Call.run c)).get c!"DTSTART" = some s ∧
      (Component.properties ((before ++ [Call.starts a, .ends b]).foldl Call.run c)).get c!"DTEND" = some e ∧
      (Spans s e ↔ Before a b) := by
  have hkey : ∀ k d, (Call.dateProperty k d).key = k := by
    intro k d
    cases d with
    | date => rfl
    | dateTime x => cases x <;> rfl
  refine ⟨Call.dateProperty c!"DTSTART" a, Call.dateProperty c!"DTEND" b, ?_, ?_, spans_iff a b ha hb ya yb⟩
  · have := (last_set_wins c before [.ends b] (.starts a) (Call.dateProperty c!"DTSTART" a) rfl (by
      intro y hy q hq
      simp at hy
      subst hy
      simp [Call.sets] at hq
      subst hq
      rw [hkey, hkey]
      decide)).2
    rwa [hkey] at this
  · have := (last_set_wins c (before ++ [.starts a]) [] (.ends b) (Call.dateProperty c!"DTEND" b) rfl (by simp)).2
    rw [hkey, List.append_assoc] at this
    exact this

/-- **C102 (violated).** `all_day` never makes an event that ends after it starts: the end is the start. -/
theorem all_day_span_violated {C : Type} [Component C] (c : C) (before : List Call) (d : NaiveDate) :
    ∃ s e, (Component.properties ((before ++ [Call.allDay d]).foldl Call.run c)).get c!"DTSTART" = some s ∧
      (Component.properties ((before ++ [Call.allDay d]).foldl Call.run c)).get c!"DTEND" = some e ∧
      e.val = s.val ∧ ¬ Spans s e := by
  have h : (before ++ [Call.allDay d]).foldl Call.run c =
      (before ++ [Call.starts (.date d), .ends (.date d)]).foldl Call.run c := by
    rw [List.foldl_append, List.foldl_append]
    rfl
  rw [h]
  refine ⟨Call.dateProperty c!"DTSTART" (.date d), Call.dateProperty c!"DTEND" (.date d), ?_, ?_, rfl, ?_⟩
  · exact (last_set_wins c before [.ends (.date d)] (.starts (.date d)) (Call.dateProperty c!"DTSTART" (.date d)) rfl (by
      intro y hy q hq
      simp at hy
      subst hy
      simp [Call.sets] at hq
      subst hq
      show c!"DTEND" ≠ c!"DTSTART"
      decide)).2
  · have := (last_set_wins c (before ++ [.starts (.date d)]) [] (.ends (.date d)) (Call.dateProperty c!"DTEND" (.date d)) rfl
      (by simp)).2
    rw [List.append_assoc] at this
    exact this
  · exact fun h => absurd h.later (List.lt_irrefl _)

/-- A day given by its first instant and that of the next day. -/
example : ∃ s e, (Component.properties ([Call.starts (.date ⟨2026, 12, 31⟩), .ends (.date ⟨2027, 1, 1⟩)].foldl Call.run
      Event.new)).get c!"DTSTART" = some s ∧
    (Component.properties ([Call.starts (.date ⟨2026, 12, 31⟩), .ends (.date ⟨2027, 1, 1⟩)].foldl Call.run
      Event.new)).get c!"DTEND" = some e ∧ Spans s e := by
  obtain ⟨s, e, h1, h2, h3⟩ := event_span_partial Event.new [] (.date ⟨2026, 12, 31⟩) (.date ⟨2027, 1, 1⟩)
    (by show (⟨2026, 12, 31⟩ : NaiveDate).Valid; decide) (by show (⟨2027, 1, 1⟩ : NaiveDate).Valid; decide)
    (by show FourDigitYear ⟨2026, 12, 31⟩; decide) (by show FourDigitYear ⟨2027, 1, 1⟩; decide)
  exact ⟨s, e, h1, h2, h3.2 (.date (by decide))⟩

end Ical
