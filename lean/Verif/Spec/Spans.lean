import Verif.Spec.DateOrder
import Verif.Model.Property

/-!
Specification of the time an event takes: RFC 5545, 3.8.2.2 asks that DTEND be of the type of DTSTART and later.
Shared with the model: the data types.
-/

namespace Ical.Spec

open Ical

/-- Two dates or times of the same form, the first before the second. Times with different zones are not compared. -/
inductive Before : DatePerhapsTime → DatePerhapsTime → Prop
  | date {a b} : dateParts a < dateParts b → Before (.date a) (.date b)
  | floating {a b} : timeParts a < timeParts b → Before (.dateTime (.floating a)) (.dateTime (.floating b))
  | utc {a b} : timeParts a < timeParts b → Before (.dateTime (.utc ⟨a⟩)) (.dateTime (.utc ⟨b⟩))
  | zoned {a b tz} : timeParts a < timeParts b → Before (.dateTime (.zoned a tz)) (.dateTime (.zoned b tz))

/-- The two properties have the same type, both are in UTC or none is, their zones are the same, and the text of the
second comes after that of the first. -/
structure Spans (s e : Property) : Prop where
  type : s.params.get c!"VALUE" = e.params.get c!"VALUE"
  zone : s.params.get c!"TZID" = e.params.get c!"TZID"
  utc : s.val.getLast? = some 'Z' ↔ e.val.getLast? = some 'Z'
  later : s.val < e.val

end Ical.Spec
