import Verif.Model.DateTime

/-!
Specification of the order of dates and times. Shared with the model: the data types.
-/

namespace Ical.Spec

open Ical

/-- The parts of a date, the most significant first. -/
def dateParts (d : NaiveDate) : List Int := [d.year, d.month, d.day]

/-- The parts of a time to the second (a leap second is second 60), the most significant first. -/
def timeParts (t : NaiveDateTime) : List Int :=
  dateParts t.date ++ [(t.hour : Int), (t.min : Int), ((t.sec + t.nano / 1000000000 : Nat) : Int)]

end Ical.Spec
