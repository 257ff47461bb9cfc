import Verif.Spec.DateText

/-!
Specification of all the texts that are read as dates and times: those of `DateText` and `TimeText`, but with blanks
before each number, with fewer digits where no digit follows, and with a signed year of any length.
-/

namespace Ical.Spec

open Ical

/-- The longest run of digits at the beginning of the text, but at most `k` of them. -/
def DigitRun (k : Nat) (s : Str) (n : Nat) (rest : Str) : Prop :=
  ∃ ds, s = ds ++ rest ∧ 1 ≤ ds.length ∧ ds.length ≤ k ∧ Number ds.length ds n ∧
    (ds.length = k ∨ ∀ c ∈ rest.head?, ¬ ('0' ≤ c ∧ c ≤ '9'))

/-- Blanks and one or two digits. -/
def Field (s : Str) (n : Nat) (rest : Str) : Prop :=
  ∃ b t, s = b ++ t ∧ (∀ c ∈ b, isWhitespace c = true) ∧ DigitRun 2 t n rest

/-- Blanks and up to four digits, or blanks, a sign and any number of digits. -/
def YearField (s : Str) (y : Int) (rest : Str) : Prop :=
  ∃ b t, s = b ++ t ∧ (∀ c ∈ b, isWhitespace c = true) ∧
    ((∃ n : Nat, y = n ∧ DigitRun 4 t n rest) ∨
     ∃ (n : Nat) (u : Str), DigitRun u.length u n rest ∧ (t = '+' :: u ∧ y = n ∨ t = '-' :: u ∧ y = -n))

/-- Year, month and day of an existing day in the range of chrono. -/
def LooseDate (s : Str) (d : NaiveDate) (rest : Str) : Prop :=
  ∃ s1 s2, YearField s d.year s1 ∧ Field s1 d.month s2 ∧ Field s2 d.day rest ∧
    -262143 ≤ d.year ∧ d.year ≤ 262142 ∧ DayExists d.year d.month d.day

/-- A date, `T` and hour, minute and second of an existing time of day. -/
def LooseDateTime (s : Str) (t : NaiveDateTime) (rest : Str) : Prop :=
  ∃ r s1 s2 h m sec, LooseDate s t.date ('T' :: r) ∧ Field r h s1 ∧ Field s1 m s2 ∧ Field s2 sec rest ∧
    TimeExists h m sec ∧ t = timeOn t.date h m sec

end Ical.Spec
