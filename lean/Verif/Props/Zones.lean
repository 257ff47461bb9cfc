import Verif.Props.Dates

/-!
The constructors of values with a time zone: when they succeed, and which instant the value denotes, also after
it was put into a component and read from it.
-/

namespace Ical

open Spec

/-- **C65.** `from_ymd_hm_tzid` succeeds exactly for dates of the calendar and times of the day, and the value is
that local time at second zero in the zone. -/
theorem from_ymd_hm_tzid_spec {db : TzDb} (names : TzNames db) (y : Int) (m d h mi : Nat) (tz : db.Tz) (t : CalDateTime) :
    CalDateTime.fromYmdHmTzid names y m d h mi tz = some t ↔
      (⟨y, m, d⟩ : NaiveDate).Valid ∧ h < 24 ∧ mi < 60 ∧ t = .zoned ⟨⟨y, m, d⟩, h, mi, 0, 0⟩ (names.name tz) := by
  unfold CalDateTime.fromYmdHmTzid fromYmd CalDateTime.withTimezone
  by_cases hv : (⟨y, m, d⟩ : NaiveDate).Valid
  · simp only [hv, if_true, true_and]
    by_cases ht : h < 24 ∧ mi < 60
    · simp only [ht, and_self, if_true, true_and, Option.some.injEq]
      exact eq_comm
    · rw [if_neg ht]
      constructor
      · intro h; cases h
      · rintro ⟨a, b, _⟩; exact absurd ⟨a, b⟩ ht
  · simp only [hv, if_false, false_and, iff_false]
    intro h; cases h

/-- **C65.** A local time is accepted with the id of a zone exactly if the zone exists; the value denotes the
instant the local time has in that zone, if there is exactly one. -/
theorem try_from_pair_spec {db : TzDb} (names : TzNames db) (t : NaiveDateTime) (id : Str) :
    (CalDateTime.tryFromPair names t id = none ↔ db.parse id = none) ∧
    ∀ tz, db.parse id = some tz → ∃ v, CalDateTime.tryFromPair names t id = some v ∧
      ∀ u, v.tryIntoUtc db = some u ↔ db.local_ tz t = [u] := by
  unfold CalDateTime.tryFromPair
  constructor
  · cases db.parse id <;> simp
  · intro tz h
    rw [h]
    refine ⟨_, rfl, fun u => ?_⟩
    rw [try_into_utc_spec]
    unfold CalDateTime.withTimezone
    constructor
    · rintro (h | ⟨lt, z, tz', h, h1, h2⟩)
      · cases h
      · cases h
        rw [names.parse_name] at h1
        cases h1
        exact h2
    · intro h
      exact .inr ⟨_, _, _, rfl, names.parse_name tz, h⟩

/-- **C65.** A value made from a date-time with zone never denotes another instant than that date-time, and denotes
it unless the local time is ambiguous. -/
theorem from_date_time_instant {db : TzDb} (names : TzNames db) (t : ZonedDateTime db) :
    (∀ u, (CalDateTime.fromDateTime names t).tryIntoUtc db = some u → u = t.instant) ∧
    ((CalDateTime.fromDateTime names t).tryIntoUtc db = some t.instant ↔ db.local_ t.tz t.localTime = [t.instant]) := by
  have key : ∀ u, (CalDateTime.fromDateTime names t).tryIntoUtc db = some u ↔ db.local_ t.tz t.localTime = [u] := by
    intro u
    rw [try_into_utc_spec]
    unfold CalDateTime.fromDateTime
    constructor
    · rintro (h | ⟨lt, z, tz', h, h1, h2⟩)
      · cases h
      · cases h
        rw [names.parse_name] at h1
        cases h1
        exact h2
    · intro h
      exact .inr ⟨_, _, _, rfl, names.parse_name t.tz, h⟩
  refine ⟨fun u hu => ?_, key _⟩
  have h := t.denotes
  rw [(key u).1 hu, List.mem_singleton] at h
  exact h.symm

/-- **C65.** Put into a component with `starts` and read with `get_start`, a whole-second date-time with zone still
denotes its instant, if its local time is not ambiguous and its year has four digits. -/
theorem zoned_start_instant [Uni] {C : Type} [Component C] (c : C) (before after : List Call) {db : TzDb}
    (names : TzNames db) (t : ZonedDateTime db) (hv : t.localTime.Valid) (hy : FourDigitYear t.localTime.date)
    (hn : t.localTime.nano = 0) (hu : db.local_ t.tz t.localTime = [t.instant])
    (ha : ∀ y ∈ after, ∀ q ∈ y.sets, q.key ≠ c!"DTSTART") :
    ∃ v, Component.getStart ((before ++ .starts (.ofZoned names t) :: after).foldl Call.run c) = some (.dateTime v) ∧
      v.tryIntoUtc db = some t.instant := by
  have h := (date_getters_partial c before after ⟨Component.inner c⟩ [] [] (.ofZoned names t) hv).1 ha
  rw [if_pos (show FourDigitYear (dateOf (.ofZoned names t)) from hy)] at h
  refine ⟨_, h, ?_⟩
  have : t.localTime.wholeSecond = t.localTime := by
    unfold NaiveDateTime.wholeSecond
    rw [hn, Nat.zero_div, Nat.zero_mul, ← hn]
  rw [show (CalDateTime.zoned t.localTime.wholeSecond (names.name t.tz)) = CalDateTime.fromDateTime names t by
    unfold CalDateTime.fromDateTime; rw [this]]
  exact (from_date_time_instant names t).2.2 hu

/-- a zone with an ambiguous hour: constructed values, one unambiguous and one not -/
example : let a : UtcDateTime := ⟨⟨⟨2026, 10, 25⟩, 0, 30, 0, 0⟩⟩
    let b : UtcDateTime := ⟨⟨⟨2026, 10, 25⟩, 1, 30, 0, 0⟩⟩
    let db : TzDb := ⟨Unit, fun s => if s = c!"Europe/Berlin" then some () else none,
      fun _ t => if t.hour = 2 then [a, b] else [⟨t⟩]⟩
    ∃ names : TzNames db,
      CalDateTime.fromYmdHmTzid names 2026 10 25 4 30 () = some (.zoned ⟨⟨2026, 10, 25⟩, 4, 30, 0, 0⟩ c!"Europe/Berlin") ∧
      CalDateTime.fromYmdHmTzid names 2026 2 29 4 30 () = none ∧
      CalDateTime.fromYmdHmTzid names 2026 10 25 24 0 () = none ∧
      CalDateTime.tryFromPair names ⟨⟨2026, 10, 25⟩, 4, 30, 0, 0⟩ c!"Mars" = none ∧
      (∃ t : ZonedDateTime db, t.instant = b ∧ (CalDateTime.fromDateTime names t).tryIntoUtc db = none) ∧
      (∃ t : ZonedDateTime db, (CalDateTime.fromDateTime names t).tryIntoUtc db = some t.instant) :=
  ⟨⟨fun _ => c!"Europe/Berlin", fun _ => rfl⟩, rfl, rfl, rfl, rfl,
    ⟨⟨⟨⟨⟨2026, 10, 25⟩, 1, 30, 0, 0⟩⟩, (), ⟨⟨2026, 10, 25⟩, 2, 30, 0, 0⟩, .tail _ (.head _)⟩, rfl, rfl⟩,
    ⟨⟨⟨⟨⟨2026, 10, 25⟩, 4, 30, 0, 0⟩⟩, (), ⟨⟨2026, 10, 25⟩, 4, 30, 0, 0⟩, .head _⟩, rfl⟩⟩

end Ical
