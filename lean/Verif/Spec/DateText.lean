import Verif.Model.DateTime

/-!
Specification of the texts for dates and times (RFC 5545, 3.3.4 and 3.3.5) and of the days of the calendar.
Shared with the model: the data types.
-/

namespace Ical.Spec

open Ical

/-- A text of `k` decimal digits, and the number it stands for. -/
def Number (k : Nat) (s : Str) (n : Nat) : Prop :=
  s.length = k ∧ (∀ c ∈ s, '0' ≤ c ∧ c ≤ '9') ∧ s.foldl (fun n c => 10 * n + (c.toNat - '0'.toNat)) 0 = n

/-- `YYYYMMDD` -/
def DateText (s : Str) (y m d : Nat) : Prop :=
  ∃ a b c, s = a ++ b ++ c ∧ Number 4 a y ∧ Number 2 b m ∧ Number 2 c d

/-- `HHMMSS` -/
def TimeText (s : Str) (h m sec : Nat) : Prop :=
  ∃ a b c, s = a ++ b ++ c ∧ Number 2 a h ∧ Number 2 b m ∧ Number 2 c sec

/-- The days of the Gregorian calendar. -/
def DayExists (y : Int) (m d : Nat) : Prop :=
  1 ≤ m ∧ m ≤ 12 ∧ 1 ≤ d ∧
    (d ≤ 28 ∨ m ≠ 2 ∧ d ≤ 30 ∨ m ∈ [1, 3, 5, 7, 8, 10, 12] ∧ d = 31 ∨
      m = 2 ∧ d = 29 ∧ 4 ∣ y ∧ (100 ∣ y → 400 ∣ y))

/-- The times of day, with leap seconds. -/
def TimeExists (h m s : Nat) : Prop := h ≤ 23 ∧ m ≤ 59 ∧ s ≤ 60

/-- The value of a time of day on a date; a leap second is second 59 and a whole second in nanoseconds. -/
def timeOn (date : NaiveDate) (h m s : Nat) : NaiveDateTime :=
  if s = 60 then ⟨date, h, m, 59, 1000000000⟩ else ⟨date, h, m, s, 0⟩

end Ical.Spec
