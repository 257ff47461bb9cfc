import Verif.Props.Values
import Verif.Proofs.Dates
import Verif.Props.PropertyRoundtrip
import Verif.Proofs.ComponentIO

/-!
C46–C52: dates and times in properties.
-/

namespace Ical

open Spec

/-! ### C46, C47 -/

namespace Spec

/-- The value at whole seconds. -/
def wholeSecond : DatePerhapsTime → DatePerhapsTime
  | .date d => .date d
  | .dateTime (.floating t) => .dateTime (.floating t.wholeSecond)
  | .dateTime (.utc t) => .dateTime (.utc ⟨t.naive.wholeSecond⟩)
  | .dateTime (.zoned t z) => .dateTime (.zoned t.wholeSecond z)

/-- The calendar date of a value. -/
def dateOf : DatePerhapsTime → NaiveDate
  | .date d => d
  | .dateTime (.floating t) => t.date
  | .dateTime (.utc t) => t.naive.date
  | .dateTime (.zoned t _) => t.date

/-- A value chrono can hold. -/
def DateValid : DatePerhapsTime → Prop
  | .date d => d.Valid
  | .dateTime (.floating t) => t.Valid
  | .dateTime (.utc t) => t.naive.Valid
  | .dateTime (.zoned t _) => t.Valid

/-- The year has at most four digits. -/
def FourDigitYear (d : NaiveDate) : Prop := 0 ≤ d.year ∧ d.year ≤ 9999

instance (d : NaiveDate) : Decidable (FourDigitYear d) := by unfold FourDigitYear; infer_instance

end Spec

variable [Uni]

/-- the keys of the date setters have no value type DATE of their own -/
def DateKey (key : Str) : Prop := key = c!"DTSTART" ∨ key = c!"DTEND" ∨ key = c!"DUE"

theorem noLower (s : Str) (h : ∀ c ∈ s, c.toNat < 0x61) : s.any isLower = false := by
  rw [List.any_eq_false]
  intro c hc
  have := h c hc
  unfold isLower
  rw [if_pos (by omega)]
  simp only [Bool.and_eq_true, decide_eq_true_eq]
  omega

theorem byName_dateKey {key : Str} (h : DateKey key) : ValueType.byName key = some .dateTime := by
  have : key.any isLower = false := by
    apply noLower
    rcases h with rfl | rfl | rfl <;> decide
  unfold ValueType.byName
  rw [this]
  rcases h with rfl | rfl | rfl <;> rfl

theorem fromProperty_toProperty {key : Str} (hk : DateKey key) (d : DatePerhapsTime) (hv : DateValid d)
    (hy : FourDigitYear (dateOf d)) :
    DatePerhapsTime.fromProperty (Call.dateProperty key d) = some (wholeSecond d) := by
  have hb := byName_dateKey hk
  unfold DatePerhapsTime.fromProperty
  cases d with
  | date d =>
    have : (Call.dateProperty key (.date d)).valueType = some .date := rfl
    rw [if_pos this]
    simp only [Call.dateProperty, parseDate_fmt hv hy.1 hy.2]
    rfl
  | dateTime t =>
    cases t with
    | floating t =>
      have : (Call.dateProperty key (.dateTime (.floating t))).valueType = some .dateTime := hb
      rw [this, if_neg (by decide)]
      simp only [Call.dateProperty, CalDateTime.fromProperty, BMap.get, parseDateTime_fmt hv hy.1 hy.2]
      rfl
    | utc t =>
      have : (Call.dateProperty key (.dateTime (.utc t))).valueType = some .dateTime := hb
      rw [this, if_neg (by decide)]
      simp only [Call.dateProperty, CalDateTime.fromProperty, BMap.get, parseDateTime_fmtUtc hv hy.1 hy.2,
        CalDateTime.fromStr, parseUtc_fmt hv hy.1 hy.2]
      rfl
    | zoned t z =>
      have : (Call.dateProperty key (.dateTime (.zoned t z))).valueType = some .dateTime := hb
      rw [this, if_neg (by decide)]
      simp only [Call.dateProperty, CalDateTime.fromProperty, BMap.get, if_true, parseDateTime_fmt hv hy.1 hy.2]
      rfl

theorem fromProperty_bigYear {key : Str} (d : DatePerhapsTime) (hy : ¬ FourDigitYear (dateOf d)) :
    DatePerhapsTime.fromProperty (Call.dateProperty key d) = none := by
  have dt : ∀ t : NaiveDateTime, ¬ FourDigitYear t.date → parseDateTime (fmtDateTime t) = none ∧
      parseUtc (fmtDateTime t) = none := fun t h => (parse_bigYear h (.inr ⟨_, rfl⟩)).2
  unfold DatePerhapsTime.fromProperty
  cases d with
  | date d =>
    have h := parse_bigYear (d := d) hy (s := []) (.inl rfl)
    rw [List.append_nil] at h
    split
    · simp only [Call.dateProperty, h.1]
    · simp only [Call.dateProperty, CalDateTime.fromProperty, BMap.get, h.2.1, h.2.2, CalDateTime.fromStr]
      rfl
  | dateTime t =>
    have pd : ∀ t : NaiveDateTime, ¬ FourDigitYear t.date → parseDate (fmtDateTime t) = none :=
      fun t h => (parse_bigYear h (.inr ⟨_, rfl⟩)).1
    cases t with
    | floating t =>
      split
      · simp only [Call.dateProperty, pd t hy]
      · simp only [Call.dateProperty, CalDateTime.fromProperty, BMap.get, dt t hy, CalDateTime.fromStr]
    | utc t =>
      have e : fmtUtc t = fmtDate t.naive.date ++ 'T' :: (fmt2 t.naive.hour ++ fmt2 t.naive.min ++ fmtSec t.naive ++ ['Z']) := by
        simp [fmtUtc, fmtDateTime]
      have h := parse_bigYear (d := t.naive.date) hy
        (s := 'T' :: (fmt2 t.naive.hour ++ fmt2 t.naive.min ++ fmtSec t.naive ++ ['Z'])) (.inr ⟨_, rfl⟩)
      rw [← e] at h
      split
      · simp only [Call.dateProperty, h]
      · simp only [Call.dateProperty, CalDateTime.fromProperty, BMap.get, h, CalDateTime.fromStr]
    | zoned t z =>
      split
      · simp only [Call.dateProperty, pd t hy]
      · simp only [Call.dateProperty, CalDateTime.fromProperty, BMap.get, dt t hy, if_true]

/-- **C46** (partial: for years 0 to 9999, exactly). A date or date-time given to `starts`, `ends` or `due`
is read back at whole-second precision; with any other year nothing is read back. -/
theorem date_getters_partial {C : Type} [Component C] (c : C) (before after : List Call) (t : Todo)
    (tb ta : List TodoCall) (d : DatePerhapsTime) (hv : DateValid d) :
    ((∀ y ∈ after, ∀ q ∈ y.sets, q.key ≠ c!"DTSTART") →
      Component.getStart ((before ++ .starts d :: after).foldl Call.run c) =
        if FourDigitYear (dateOf d) then some (wholeSecond d) else none) ∧
    ((∀ y ∈ after, ∀ q ∈ y.sets, q.key ≠ c!"DTEND") →
      Component.getEnd ((before ++ .ends d :: after).foldl Call.run c) =
        if FourDigitYear (dateOf d) then some (wholeSecond d) else none) ∧
    ((∀ y ∈ ta, ∀ q ∈ y.generic.sets, q.key ≠ c!"DUE") →
      ((tb ++ .due d :: ta).foldl TodoCall.run t).getDue =
        if FourDigitYear (dateOf d) then some (wholeSecond d) else none) := by
  have key : ∀ k, DateKey k → DatePerhapsTime.fromProperty (Call.dateProperty k d) =
      if FourDigitYear (dateOf d) then some (wholeSecond d) else none := by
    intro k hk
    split
    · exact fromProperty_toProperty hk d hv ‹_›
    · exact fromProperty_bigYear d ‹_›
  have hkey : ∀ k, (Call.dateProperty k d).key = k := by
    intro k
    cases d with
    | date => rfl
    | dateTime x => cases x <;> rfl
  refine ⟨?_, ?_, ?_⟩
  · intro h
    have := (last_set_wins c before after (.starts d) (Call.dateProperty c!"DTSTART" d) rfl (by rwa [hkey])).2
    rw [hkey] at this
    unfold Component.getStart
    rw [this]
    exact key _ (.inl rfl)
  · intro h
    have := (last_set_wins c before after (.ends d) (Call.dateProperty c!"DTEND" d) rfl (by rwa [hkey])).2
    rw [hkey] at this
    unfold Component.getEnd
    rw [this]
    exact key _ (.inr (.inl rfl))
  · intro h
    have := todo_last (t := t) (before := tb) (x := .due d) (p := Call.dateProperty c!"DUE" d) rfl
      (by rwa [hkey])
    rw [hkey] at this
    unfold Todo.getDue
    rw [this]
    exact key _ (.inr (.inr rfl))

/-- **C46.** `all_day` sets both ends to the date. -/
theorem all_day {C : Type} [Component C] (c : C) (before : List Call) (d : NaiveDate) (hv : d.Valid)
    (hy : FourDigitYear d) :
    Component.getStart ((before ++ [Call.allDay d]).foldl Call.run c) = some (.date d) ∧
    Component.getEnd ((before ++ [Call.allDay d]).foldl Call.run c) = some (.date d) := by
  have e : (before ++ [Call.allDay d]).foldl Call.run c =
      (before ++ [Call.starts (.date d), .ends (.date d)]).foldl Call.run c := by
    rw [List.foldl_append, List.foldl_append]
    rfl
  rw [e]
  constructor
  · have := (date_getters_partial c before [.ends (.date d)] ⟨.empty⟩ [] [] (.date d) hv).1 (by
      intro y hy q hq
      simp at hy
      subst hy
      simp [Call.sets] at hq
      subst hq
      show c!"DTEND" ≠ c!"DTSTART"
      decide)
    rw [this, if_pos (show FourDigitYear (dateOf (.date d)) from hy)]
    rfl
  · have := (date_getters_partial c (before ++ [.starts (.date d)]) [] ⟨.empty⟩ [] [] (.date d) hv).2.1 (by simp)
    rw [List.append_assoc] at this
    rw [if_pos (show FourDigitYear (dateOf (.date d)) from hy)] at this
    exact this

/-- **C46.** Plain chrono values given to `starts` are read back as what they were: a UTC time as a UTC time, a naive
time as a floating one, and dates as dates. -/
theorem chrono_starts {C : Type} [Component C] (c : C) (u : UtcDateTime) (hu : u.naive.Valid)
    (hy : FourDigitYear u.naive.date) :
    Component.getStart (Component.starts c (.ofUtc u)) = some (.dateTime (.utc ⟨u.naive.wholeSecond⟩)) ∧
    Component.getStart (Component.starts c (.ofNaive u.naive)) = some (.dateTime (.floating u.naive.wholeSecond)) ∧
    Component.getStart (Component.starts c (.ofDate u.naive.date)) = some (.date u.naive.date) ∧
    Component.getStart (Component.starts c (.ofUtcDate u.naive.date)) = some (.date u.naive.date) := by
  have key : ∀ d, DateValid d → FourDigitYear (dateOf d) → Component.getStart (Component.starts c d) =
      some (wholeSecond d) := by
    intro d hv hd
    have := (date_getters_partial c [] [] ⟨.empty⟩ [] [] d hv).1 (by simp)
    rwa [if_pos hd] at this
  exact ⟨key (.ofUtc u) hu hy, key (.ofNaive u.naive) hu hy, key (.ofDate u.naive.date) hu.1 hy,
    key (.ofUtcDate u.naive.date) hu.1 hy⟩

omit [Uni] in
/-- the second before the year 2027 -/
example : (⟨⟨2026, 12, 31⟩, 23, 59, 59, 5⟩ : NaiveDateTime).Valid ∧ FourDigitYear ⟨2026, 12, 31⟩ := by decide

/-- **C46 (violated).** A start in the year 10000 is written but not read back. -/
theorem date_getters_violated {C : Type} [Component C] (c : C) :
    let d : DatePerhapsTime := .date ⟨10000, 1, 1⟩
    DateValid d ∧ Component.getStart (Component.starts c d) = none := by
  refine ⟨by show (⟨10000, 1, 1⟩ : NaiveDate).Valid; decide, ?_⟩
  have := (date_getters_partial c [] [] ⟨.empty⟩ [] [] (.date ⟨10000, 1, 1⟩) (by show (⟨10000, 1, 1⟩ : NaiveDate).Valid; decide)).1
    (by simp)
  exact this

omit [Uni] in
/-- **C47.** The UTC timestamps are read back at whole-second precision for the years 0 to 9999; with any
other year nothing is read back. -/
theorem utc_getters {C : Type} [Component C] (c : C) (before after : List Call) (t : Todo)
    (tb ta : List TodoCall) (u : UtcDateTime) (hv : u.naive.Valid) :
    ((∀ y ∈ after, ∀ q ∈ y.sets, q.key ≠ c!"DTSTAMP") →
      Component.getTimestamp ((before ++ .timestamp u :: after).foldl Call.run c) =
        if FourDigitYear u.naive.date then some ⟨u.naive.wholeSecond⟩ else none) ∧
    ((∀ y ∈ after, ∀ q ∈ y.sets, q.key ≠ c!"CREATED") →
      Component.getCreated ((before ++ .created u :: after).foldl Call.run c) =
        if FourDigitYear u.naive.date then some ⟨u.naive.wholeSecond⟩ else none) ∧
    ((∀ y ∈ after, ∀ q ∈ y.sets, q.key ≠ c!"LAST_MODIFIED") →
      Component.getLastModified ((before ++ .lastModified u :: after).foldl Call.run c) =
        if FourDigitYear u.naive.date then some ⟨u.naive.wholeSecond⟩ else none) ∧
    ((∀ y ∈ ta, ∀ q ∈ y.generic.sets, q.key ≠ c!"COMPLETED") →
      ((tb ++ .completed u :: ta).foldl TodoCall.run t).getCompleted =
        if FourDigitYear u.naive.date then some ⟨u.naive.wholeSecond⟩ else none) := by
  have key : parseUtc (fmtUtc u) = if FourDigitYear u.naive.date then some ⟨u.naive.wholeSecond⟩ else none := by
    split
    · rename_i hy
      exact parseUtc_fmt hv hy.1 hy.2
    · rename_i hy
      have e : fmtUtc u = fmtDate u.naive.date ++ 'T' :: (fmt2 u.naive.hour ++ fmt2 u.naive.min ++ fmtSec u.naive ++ ['Z']) := by
        simp [fmtUtc, fmtDateTime]
      rw [e]
      exact (parse_bigYear hy (.inr ⟨_, rfl⟩)).2.2
  refine ⟨?_, ?_, ?_, ?_⟩
  · intro h
    have := (last_set_wins c before after (.timestamp u) ⟨c!"DTSTAMP", fmtUtc u, []⟩ rfl h).1
    unfold Component.getTimestamp
    rw [this]
    exact key
  · intro h
    have := (last_set_wins c before after (.created u) ⟨c!"CREATED", fmtUtc u, []⟩ rfl h).1
    unfold Component.getCreated
    rw [this]
    exact key
  · intro h
    have := (last_set_wins c before after (.lastModified u) ⟨c!"LAST_MODIFIED", fmtUtc u, []⟩ rfl h).1
    unfold Component.getLastModified
    rw [this]
    exact key
  · intro h
    have := todo_last (t := t) (before := tb) (x := .completed u) (p := ⟨c!"COMPLETED", fmtUtc u, []⟩) rfl h
    unfold Todo.getCompleted Component.propertyValue
    rw [this]
    exact key

omit [Uni] in
/-- **C47**, outside its range of years. A timestamp in the year -1 is written but not read back. -/
theorem utc_getters_outside {C : Type} [Component C] (c : C) :
    let u : UtcDateTime := ⟨⟨⟨-1, 12, 31⟩, 23, 59, 59, 0⟩⟩
    u.naive.Valid ∧ Component.getTimestamp (Component.timestamp c u) = none := by
  refine ⟨by decide, ?_⟩
  have := (utc_getters c [] [] ⟨.empty⟩ [] [] ⟨⟨⟨-1, 12, 31⟩, 23, 59, 59, 0⟩⟩ (by decide)).1 (by simp)
  exact this

/-- a leap second with a fraction, in a zone -/
example (c : Event) : Component.getStart (Component.starts c (.dateTime (.zoned ⟨⟨2016, 12, 31⟩, 23, 59, 59, 1500000000⟩ c!"Europe/Berlin"))) =
    some (.dateTime (.zoned ⟨⟨2016, 12, 31⟩, 23, 59, 59, 1000000000⟩ c!"Europe/Berlin")) :=
  (date_getters_partial c [] [] ⟨.empty⟩ [] []
    (.dateTime (.zoned ⟨⟨2016, 12, 31⟩, 23, 59, 59, 1500000000⟩ c!"Europe/Berlin"))
    (by show NaiveDateTime.Valid _; decide)).1 (by simp)

/-! ### C48 -/

omit [Uni] in
/-- **C48.** For years 0 to 9999 the written texts have the fixed form of RFC 5545. -/
theorem date_text_form (d : NaiveDate) (t : NaiveDateTime) (u : UtcDateTime) :
    (d.Valid → FourDigitYear d → (fmtDate d).length = 8 ∧ ∀ c ∈ fmtDate d, IsDigit c) ∧
    (t.Valid → FourDigitYear t.date → ∃ a b, fmtDateTime t = a ++ ['T'] ++ b ∧ a = fmtDate t.date ∧ b.length = 6 ∧
      ∀ c ∈ b, IsDigit c) ∧
    (u.naive.Valid → FourDigitYear u.naive.date → ∃ a b, fmtUtc u = a ++ ['T'] ++ b ++ ['Z'] ∧
      a = fmtDate u.naive.date ∧ b.length = 6 ∧ ∀ c ∈ b, IsDigit c) := by
  have time : ∀ t : NaiveDateTime, t.Valid → (fmt2 t.hour ++ fmt2 t.min ++ fmtSec t).length = 6 ∧
      ∀ c ∈ fmt2 t.hour ++ fmt2 t.min ++ fmtSec t, IsDigit c := by
    intro t hv
    unfold NaiveDateTime.Valid at hv
    constructor
    · unfold fmtSec
      rw [fmt2_eq (by omega), fmt2_eq (by omega), fmt2_eq (by omega)]
      rfl
    · intro c hc
      simp only [List.mem_append] at hc
      rcases hc with (hc | hc) | hc
      · exact fmt2_digits _ c hc
      · exact fmt2_digits _ c hc
      · exact fmt2_digits _ c hc
  refine ⟨?_, ?_, ?_⟩
  · intro hv hy
    have hday := daysInMonth_le d.year d.month
    unfold NaiveDate.Valid at hv
    unfold FourDigitYear at hy
    unfold fmtDate fmtYear
    rw [if_pos hy]
    constructor
    · rw [fmt4_eq (by omega), fmt2_eq (by omega), fmt2_eq (by omega)]
      rfl
    · intro c hc
      simp only [List.mem_append] at hc
      rcases hc with (hc | hc) | hc
      · exact fmt4_digits _ c hc
      · exact fmt2_digits _ c hc
      · exact fmt2_digits _ c hc
  · intro hv hy
    exact ⟨fmtDate t.date, _, by simp [fmtDateTime], rfl, time t hv⟩
  · intro hv hy
    exact ⟨fmtDate u.naive.date, fmt2 u.naive.hour ++ fmt2 u.naive.min ++ fmtSec u.naive,
      by simp [fmtUtc, fmtDateTime], rfl, time u.naive hv⟩

omit [Uni] in
/-- **C48.** The text determines the date, and the date-time at whole seconds. -/
theorem date_text_injective (d d' : NaiveDate) (t t' : NaiveDateTime) :
    (d.Valid → d'.Valid → FourDigitYear d → FourDigitYear d' → fmtDate d = fmtDate d' → d = d') ∧
    (t.Valid → t'.Valid → FourDigitYear t.date → FourDigitYear t'.date → fmtDateTime t = fmtDateTime t' →
      t.wholeSecond = t'.wholeSecond) := by
  constructor
  · intro h h' y y' e
    have h1 := parseDate_fmt h y.1 y.2
    rw [e, parseDate_fmt h' y'.1 y'.2] at h1
    cases h1
    rfl
  · intro h h' y y' e
    have h1 := parseDateTime_fmt h y.1 y.2
    rw [e, parseDateTime_fmt h' y'.1 y'.2] at h1
    exact (Option.some.inj h1).symm

omit [Uni] in
/-- an early year is padded -/
example : fmtDate ⟨33, 4, 3⟩ = c!"00330403" ∧ fmtUtc ⟨⟨⟨2026, 11, 17⟩, 1, 2, 3, 999999999⟩⟩ = c!"20261117T010203Z" := by
  decide +kernel

/-! ### C49 -/

/-- **C49** (partial: exactly for years 0 to 9999 and non-empty zone ids, if the zone id is writable as a parameter
value). A date property written by the crate is read back at whole seconds through the low-level parser; with any other
year and with an empty zone id the date is refused. -/
theorem date_document_partial {key : Str} (hk : DateKey key) (d : DatePerhapsTime) (hv : DateValid d)
    (hz : ∀ t z, d = .dateTime (.zoned t z) → Quotable z ∧ MarkerFree z)
    (w : World) (hw : World.Ok w) (out : Str) (h : (d.toProperty key).fmtWrite w = .ok out) :
    ∃ q, readProperty (unfold out) = some q ∧
      (FourDigitYear (dateOf d) ∧ (∀ t z, d = .dateTime (.zoned t z) → z ≠ []) →
        DatePerhapsTime.tryFromParsed q = some (wholeSecond d)) ∧
      (¬ (FourDigitYear (dateOf d) ∧ ∀ t z, d = .dateTime (.zoned t z) → z ≠ []) →
        DatePerhapsTime.tryFromParsed q = none) := by
  have hp : d.toProperty key = Call.dateProperty key d := by
    cases d with
    | date d => rfl
    | dateTime x => cases x <;> rfl
  rw [hp] at h
  have hkey : (Call.dateProperty key d).key = key := by
    cases d with
    | date => rfl
    | dateTime x => cases x <;> rfl
  have hname : ∀ s : Str, (∀ c ∈ s, 0x41 ≤ c.toNat ∧ c.toNat ≤ 0x5A) → IsName s := by
    intro s hs c hc
    have := hs c hc
    left
    unfold isAlnum
    rw [if_pos (by omega)]
    simp only [Bool.or_eq_true, Bool.and_eq_true, decide_eq_true_eq]
    omega
  have hkn : IsName key := by
    apply hname
    rcases hk with rfl | rfl | rfl <;> decide
  have hnd : ¬ c!"END" <+: key ∧ ¬ c!"BEGIN" <+: key := by rcases hk with rfl | rfl | rfl <;> decide
  have hpo : ParamsOk (Call.dateProperty key d).params := by
    cases d with
    | date d =>
      refine ⟨by simp [Call.dateProperty], ?_, ?_⟩
      · intro x hx
        simp [Call.dateProperty] at hx
        subst hx
        exact hname _ (by decide)
      · intro x hx
        simp [Call.dateProperty] at hx
        subst hx
        decide
    | dateTime x =>
      cases x with
      | floating t => exact ⟨by simp [Call.dateProperty], by simp [Call.dateProperty], by simp [Call.dateProperty]⟩
      | utc t => exact ⟨by simp [Call.dateProperty], by simp [Call.dateProperty], by simp [Call.dateProperty]⟩
      | zoned t z =>
        refine ⟨by simp [Call.dateProperty], ?_, ?_⟩
        · intro x hx
          simp [Call.dateProperty] at hx
          subst hx
          exact hname c!"TZID" (by decide)
        · intro x hx
          simp [Call.dateProperty] at hx
          subst hx
          exact hz t z rfl
  have hval : '\n' ∉ (Call.dateProperty key d).val := by
    have dt : ∀ t : NaiveDateTime, '\n' ∉ fmtDateTime t := fun t hc =>
      fmtUtc_not_mem ⟨t⟩ (x := '\n') (by decide) (by decide) (by unfold fmtUtc; simp [hc])
    cases d with
    | date d => exact fun hc => dt ⟨d, 0, 0, 0, 0⟩ (by unfold fmtDateTime; exact List.mem_append.2 (.inl hc))
    | dateTime x =>
      cases x with
      | floating t => exact dt t
      | utc t => exact fmtUtc_not_mem t (by decide) (by decide)
      | zoned t z => exact dt t
  have hvo : ValueOk (Call.dateProperty key d) := by
    right
    refine ⟨?_, markerFree_of_noLf hval⟩
    intro hi
    exact hval (hi.subset (by simp))
  have hvt : (Call.dateProperty key d).valueType ≠ some .text := by
    have hb := byName_dateKey hk
    cases d with
    | date d => exact fun h => by cases h
    | dateTime x =>
      cases x with
      | floating t => intro h; have h' : ValueType.byName key = some .text := h; rw [hb] at h'; cases h'
      | utc t => intro h; have h' : ValueType.byName key = some .text := h; rw [hb] at h'; cases h'
      | zoned t z => intro h; have h' : ValueType.byName key = some .text := h; rw [hb] at h'; cases h'
  have hu := unfold_property hw (by rw [hkey]; exact hkn) hpo hvo h (t := []) noIndent_nil
  rw [List.append_nil, ← unfold_eq_spec] at hu
  have hnil : unfoldSpec [] = [] := rfl
  rw [hnil] at hu
  have hprop := property_ok (br := .crlf) (r := []) (key := (Call.dateProperty key d).key) (by rw [hkey]; exact hkn)
    (by rw [hkey]; exact hnd.1) (by rw [hkey]; exact hnd.2) (dparams_ok hpo (hw.order [] _)) (valueText_ok hvo).1 (by simp)
  refine ⟨_, by unfold readProperty; rw [hu, hprop]; rfl, ?_⟩
  have hvt' := valueTypeOf_dparams (Call.dateProperty key d) hpo.sorted (hw.order [] _)
  have hmv : (meaningProp (Call.dateProperty key d).key ((w.order [] (Call.dateProperty key d).params).map dparam)
      (Call.dateProperty key d).valueText).val = (Call.dateProperty key d).val := by
    rw [meaningProp_eq]
    dsimp only
    rw [hvt', if_neg hvt, valueText_of_not hvt]
  have hfind : ∀ {ps : List (Str × Str)}, ps.Perm (Call.dateProperty key d).params → ∀ z,
      (Call.dateProperty key d).params = [(c!"TZID", z)] →
      ps = [(c!"TZID", z)] := by
    intro ps hperm z hz'
    rw [hz'] at hperm
    exact List.perm_singleton.1 hperm
  unfold DatePerhapsTime.tryFromParsed
  rw [hmv]
  have big : ∀ t : NaiveDateTime, ¬ FourDigitYear t.date → parseDate (fmtDateTime t) = none ∧
      parseDateTime (fmtDateTime t) = none ∧ parseUtc (fmtDateTime t) = none := fun t h => parse_bigYear h (.inr ⟨_, rfl⟩)
  cases d with
  | date d =>
    refine ⟨?_, ?_⟩
    · rintro ⟨hy, -⟩
      simp only [Call.dateProperty, parseUtc_fmtDate hv hy.1 hy.2, parseDate_fmt hv hy.1 hy.2]
      rfl
    · intro hn
      have hy : ¬ FourDigitYear d := fun hy => hn ⟨hy, fun _ _ h => by cases h⟩
      have h := parse_bigYear (d := d) hy (s := []) (.inl rfl)
      rw [List.append_nil] at h
      simp only [Call.dateProperty, h]
  | dateTime x =>
    cases x with
    | utc t =>
      refine ⟨?_, ?_⟩
      · rintro ⟨hy, -⟩
        simp only [Call.dateProperty, parseUtc_fmt hv hy.1 hy.2]
        rfl
      · intro hn
        have hy : ¬ FourDigitYear t.naive.date := fun hy => hn ⟨hy, fun _ _ h => by cases h⟩
        have e : fmtUtc t = fmtDate t.naive.date ++ 'T' :: (fmt2 t.naive.hour ++ fmt2 t.naive.min ++ fmtSec t.naive ++ ['Z']) := by
          simp [fmtUtc, fmtDateTime]
        have h := parse_bigYear (d := t.naive.date) hy
          (s := 'T' :: (fmt2 t.naive.hour ++ fmt2 t.naive.min ++ fmtSec t.naive ++ ['Z'])) (.inr ⟨_, rfl⟩)
        rw [← e] at h
        simp only [Call.dateProperty, h]
    | floating t =>
      have hnilp : w.order [] (Call.dateProperty key (.dateTime (.floating t))).params = [] :=
        List.perm_nil.1 (hw.order [] _)
      simp only [meaningProp, hnilp]
      refine ⟨?_, ?_⟩
      · rintro ⟨hy, -⟩
        simp only [Call.dateProperty, parseUtc_fmtDateTime hv hy.1 hy.2, parseDate_fmtDateTime hv hy.1 hy.2,
          parseDateTime_fmt hv hy.1 hy.2]
        rfl
      · intro hn
        have hy : ¬ FourDigitYear t.date := fun hy => hn ⟨hy, fun _ _ h => by cases h⟩
        simp only [Call.dateProperty, big t hy]
    | zoned t z =>
      have hone := hfind (hw.order [] _) z rfl
      simp only [meaningProp, hone]
      have hfound : (([(c!"TZID", z)].map dparam).map DParam.meaning).find? (fun q => q.key == c!"TZID") =
          some ⟨c!"TZID", if z = [] then none else some z⟩ := by
        have e : (dparam (c!"TZID", z)).meaning = ⟨c!"TZID", if z = [] then none else some z⟩ := by
          unfold dparam DParam.meaning
          by_cases hne : z = []
          · simp [hne]
          · simp [hne]
        simp [e]
      rw [hfound]
      refine ⟨?_, ?_⟩
      · rintro ⟨hy, hne⟩
        rw [if_neg (hne t z rfl)]
        simp only [Call.dateProperty, parseUtc_fmtDateTime hv hy.1 hy.2, parseDate_fmtDateTime hv hy.1 hy.2,
          parseDateTime_fmt hv hy.1 hy.2]
        rfl
      · intro hn
        by_cases hy : FourDigitYear t.date
        · have hz0 : z = [] := Classical.byContradiction fun hne =>
            hn ⟨hy, fun _ _ h => by cases h; exact hne⟩
          rw [if_pos hz0]
          simp only [Call.dateProperty, parseUtc_fmtDateTime hv hy.1 hy.2, parseDate_fmtDateTime hv hy.1 hy.2,
            parseDateTime_fmt hv hy.1 hy.2]
        · simp only [Call.dateProperty, big t hy]

omit [Uni] in
/-- the hypotheses are satisfiable -/
example : (∀ t z, (DatePerhapsTime.dateTime (.zoned ⟨⟨2026, 1, 2⟩, 3, 4, 5, 0⟩ c!"Europe/Berlin")) = .dateTime (.zoned t z) →
    Quotable z ∧ MarkerFree z ∧ z ≠ []) ∧
    @Property.fmtWrite Uni.ascii ((DatePerhapsTime.dateTime (.zoned ⟨⟨2026, 1, 2⟩, 3, 4, 5, 0⟩ c!"Europe/Berlin")).toProperty
      c!"DTSTART") ⟨fun _ => ⟨⟨⟨2026, 1, 1⟩, 0, 0, 0, 0⟩⟩, fun _ => [], fun _ l => l⟩ =
      .ok c!"DTSTART;TZID=Europe/Berlin:20260102T030405\r\n" := by
  constructor
  · intro t z h
    cases h
    decide
  · decide +kernel

/-- **C49 (violated).** With an empty zone id the written property is read, but the date is refused. -/
theorem date_document_violated :
    let d : DatePerhapsTime := .dateTime (.zoned ⟨⟨2026, 1, 2⟩, 3, 4, 5, 0⟩ [])
    let w : World := ⟨fun _ => ⟨⟨⟨2026, 1, 1⟩, 0, 0, 0, 0⟩⟩, fun _ => [], fun _ l => l⟩
    DateValid d ∧ ∃ out q, (d.toProperty c!"DTSTART").fmtWrite w = .ok out ∧ readProperty (unfold out) = some q ∧
      DatePerhapsTime.tryFromParsed q = none := by
  refine ⟨by show NaiveDateTime.Valid _; decide, c!"DTSTART;TZID=:20260102T030405\r\n",
    ⟨c!"DTSTART", c!"20260102T030405", [⟨c!"TZID", none⟩]⟩, ?_, rfl, ?_⟩
  · have h1 : fmtDateTime ⟨⟨2026, 1, 2⟩, 3, 4, 5, 0⟩ = c!"20260102T030405" := by decide +kernel
    have h2 : Property.valueText ⟨c!"DTSTART", c!"20260102T030405", [(c!"TZID", [])]⟩ = c!"20260102T030405" := by
      unfold Property.valueText Property.valueType
      simp only [show BMap.get c!"VALUE" [(c!"TZID", ([] : Str))] = none from rfl, Option.bind_none,
        byName_dateKey (.inl rfl : DateKey c!"DTSTART")]
    have h3 : foldLine c!"DTSTART;TZID=:20260102T030405" = .ok c!"DTSTART;TZID=:20260102T030405" := by
      decide +kernel
    unfold Property.fmtWrite Property.line
    simp only [DatePerhapsTime.toProperty, CalDateTime.toProperty, h1, Property.new, Property.addParameter,
      BMap.insert, h2]
    show (match foldLine c!"DTSTART;TZID=:20260102T030405" with
      | .ok s => Except.ok (s ++ crlf) | .error e => .error e) = _
    rw [h3]
    rfl
  · decide +kernel

/-! ### C50 -/

/-- **C50 (violated).** The code stores and looks up `LAST_MODIFIED`: a component whose only modification
time is under the standard name LAST-MODIFIED reports none. -/
theorem last_modified_violated :
    let text := c!"BEGIN:VEVENT\r\nLAST-MODIFIED:20260101T000000Z\r\nEND:VEVENT\r\n"
    ∃ c, CalComp.fromStr text = some (.event c) ∧
      Component.propertyValue c c!"LAST-MODIFIED" = some c!"20260101T000000Z" ∧
      Component.getLastModified c = none := by
  exact ⟨_, rfl, rfl, rfl⟩

omit [Uni] in
/-- **C50** (partial: only under the crate's own spelling). What is stored under `LAST_MODIFIED` is what is
read. -/
theorem last_modified_partial {C : Type} [Component C] (c : C) (u : UtcDateTime) (hv : u.naive.Valid)
    (hy : FourDigitYear u.naive.date) (h : Component.propertyValue c c!"LAST_MODIFIED" = some (fmtUtc u)) :
    Component.getLastModified c = some ⟨u.naive.wholeSecond⟩ := by
  unfold Component.getLastModified
  rw [h]
  exact parseUtc_fmt hv hy.1 hy.2

/-! ### C51 -/

omit [Uni] in
/-- **C51.** `date_naive` and `NaiveDate::from` agree, and give the calendar date of the value. -/
theorem date_naive_agrees (d : DatePerhapsTime) : d.dateNaive = d.intoNaiveDate ∧ d.dateNaive = dateOf d := by
  cases d with
  | date => exact ⟨rfl, rfl⟩
  | dateTime t => cases t <;> exact ⟨rfl, rfl⟩

/-- what a parsed value's date was scanned from -/
theorem fromProperty_scan {p : Property} {d : DatePerhapsTime} (h : DatePerhapsTime.fromProperty p = some d) :
    ∃ s, scanDate p.val = some (d.dateNaive, s) := by
  have hd : ∀ {x}, parseDate p.val = some x → ∃ s, scanDate p.val = some (x, s) := by
    intro x h
    unfold parseDate at h
    cases hs : scanDate p.val with
    | none => rw [hs] at h; cases h
    | some y =>
      rw [hs] at h
      simp only [Option.bind_eq_bind, Option.bind_some] at h
      split at h
      · cases h; exact ⟨_, rfl⟩
      · cases h
  have tm : ∀ {x : NaiveDate} {r : Str} {t : NaiveDateTime} {s : Str}, scanTime x r = some (t, s) → t.date = x := by
    intro x r t s h
    unfold scanTime at h
    cases h1 : scan2 r with
    | none => rw [h1] at h; cases h
    | some a =>
      rw [h1] at h
      simp only [Option.bind_eq_bind, Option.bind_some] at h
      cases h2 : scan2 a.2 with
      | none => rw [h2] at h; cases h
      | some b =>
        rw [h2] at h
        simp only [Option.bind_some] at h
        cases h3 : scan2 b.2 with
        | none => rw [h3] at h; cases h
        | some e =>
          rw [h3] at h
          simp only [Option.bind_some] at h
          split at h
          · split at h
            · cases h; rfl
            · cases h; rfl
          · cases h
  have hdt : ∀ {x}, parseDateTime p.val = some x → ∃ s, scanDate p.val = some (x.date, s) := by
    intro x h
    unfold parseDateTime at h
    cases hs : scanDate p.val with
    | none => rw [hs] at h; cases h
    | some y =>
      rw [hs] at h
      simp only [Option.bind_eq_bind, Option.bind_some] at h
      cases h1 : scanLit 'T' y.2 with
      | none => rw [h1] at h; cases h
      | some r =>
        rw [h1] at h
        simp only [Option.bind_some] at h
        cases h2 : scanTime y.1 r with
        | none => rw [h2] at h; cases h
        | some z =>
          rw [h2] at h
          simp only [Option.bind_some] at h
          split at h
          · cases h
            exact ⟨y.2, by rw [tm h2]⟩
          · cases h
  have hut : ∀ {x}, parseUtc p.val = some x → ∃ s, scanDate p.val = some (x.naive.date, s) := by
    intro x h
    unfold parseUtc at h
    cases hs : scanDate p.val with
    | none => rw [hs] at h; cases h
    | some y =>
      rw [hs] at h
      simp only [Option.bind_eq_bind, Option.bind_some] at h
      cases h1 : scanLit 'T' y.2 with
      | none => rw [h1] at h; cases h
      | some r =>
        rw [h1] at h
        simp only [Option.bind_some] at h
        cases h2 : scanTime y.1 r with
        | none => rw [h2] at h; cases h
        | some z =>
          rw [h2] at h
          simp only [Option.bind_some] at h
          cases h3 : scanLit 'Z' z.2 with
          | none => rw [h3] at h; cases h
          | some q =>
            rw [h3] at h
            simp only [Option.bind_some] at h
            split at h
            · cases h
              exact ⟨y.2, by rw [tm h2]⟩
            · cases h
  unfold DatePerhapsTime.fromProperty at h
  split at h
  · cases hp : parseDate p.val with
    | none => rw [hp] at h; cases h
    | some x => rw [hp] at h; cases h; exact hd hp
  · unfold CalDateTime.fromProperty at h
    cases hz : p.params.get c!"TZID" with
    | some z =>
      rw [hz] at h
      cases hp : parseDateTime p.val with
      | none => rw [hp] at h; cases h
      | some x => rw [hp] at h; cases h; exact hdt hp
    | none =>
      rw [hz] at h
      cases hp : parseDateTime p.val with
      | some x => rw [hp] at h; cases h; exact hdt hp
      | none =>
        rw [hp] at h
        unfold CalDateTime.fromStr at h
        rw [hp] at h
        cases hp' : parseUtc p.val with
        | none => rw [hp'] at h; cases h
        | some x => rw [hp'] at h; cases h; exact hut hp'

/-- **C51** (partial: for text that starts with eight digits). The date of a value read from a property
prints as the first eight digits of the property's text. -/
theorem date_naive_text_partial (p : Property) (d : DatePerhapsTime) (h : DatePerhapsTime.fromProperty p = some d)
    (hl : 8 ≤ p.val.length) (hd : ∀ c ∈ p.val.take 8, IsDigit c) : fmtDate d.dateNaive = p.val.take 8 := by
  obtain ⟨s, hs⟩ := fromProperty_scan h
  exact scanDate_take hd hl hs

omit [Uni] in
/-- **C51 (violated).** Text with blanks or missing zeros is accepted as a date and does not start with the
eight digits of that date. -/
theorem date_naive_text_violated :
    let p : Property := ⟨c!"DTSTART", c!" 2026 1 2", [(c!"VALUE", c!"DATE")]⟩
    @DatePerhapsTime.fromProperty Uni.ascii p = some (.date ⟨2026, 1, 2⟩) ∧
      fmtDate ⟨2026, 1, 2⟩ ≠ p.val.take 8 := by
  decide +kernel

/-! ### C52 -/

omit [Uni] in
/-- **C52.** `try_into_utc` returns the instant of a UTC value, nothing for a floating one, and for a local
time in a zone the instant it denotes, if the zone exists and the time is neither skipped nor ambiguous. -/
theorem try_into_utc_spec (db : TzDb) (t : CalDateTime) (u : UtcDateTime) :
    t.tryIntoUtc db = some u ↔
      t = .utc u ∨ ∃ lt z tz, t = .zoned lt z ∧ db.parse z = some tz ∧ db.local_ tz lt = [u] := by
  cases t with
  | floating t => simp [CalDateTime.tryIntoUtc]
  | utc t => simp [CalDateTime.tryIntoUtc]
  | zoned lt z =>
    unfold CalDateTime.tryIntoUtc
    cases hp : db.parse z with
    | none => simp [hp]
    | some tz =>
      simp only [hp]
      cases hl : db.local_ tz lt with
      | nil => simp [hp, hl]
      | cons a l =>
        cases l with
        | nil =>
          constructor
          · intro h
            cases h
            exact .inr ⟨lt, z, tz, rfl, hp, hl⟩
          · rintro (h | ⟨lt', z', tz', h, h1, h2⟩)
            · cases h
            · cases h
              rw [hp] at h1
              cases h1
              rw [hl] at h2
              cases h2
              rfl
        | cons b l =>
          constructor
          · intro h; cases h
          · rintro (h | ⟨lt', z', tz', h, h1, h2⟩)
            · cases h
            · cases h
              rw [hp] at h1
              cases h1
              rw [hl] at h2
              cases h2

omit [Uni] in
/-- a zone with an ambiguous hour -/
example : let a : UtcDateTime := ⟨⟨⟨2026, 10, 25⟩, 0, 30, 0, 0⟩⟩
    let b : UtcDateTime := ⟨⟨⟨2026, 10, 25⟩, 1, 30, 0, 0⟩⟩
    let db : TzDb := ⟨Unit, fun s => if s = c!"Europe/Berlin" then some () else none,
      fun _ t => if t.hour = 2 then [a, b] else [⟨t⟩]⟩
    (CalDateTime.zoned ⟨⟨2026, 10, 25⟩, 2, 30, 0, 0⟩ c!"Europe/Berlin").tryIntoUtc db = none ∧
    (CalDateTime.zoned ⟨⟨2026, 10, 25⟩, 4, 30, 0, 0⟩ c!"Europe/Berlin").tryIntoUtc db =
      some ⟨⟨⟨2026, 10, 25⟩, 4, 30, 0, 0⟩⟩ ∧
    (CalDateTime.zoned ⟨⟨2026, 10, 25⟩, 4, 30, 0, 0⟩ c!"Nowhere").tryIntoUtc db = none := ⟨rfl, rfl, rfl⟩

end Ical
