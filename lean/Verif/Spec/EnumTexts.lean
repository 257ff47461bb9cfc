import Verif.Model.Alarm
import Verif.Model.Component

/-!
Specification of the texts of the enumerations, as in RFC 5545.
-/

namespace Ical.Spec

open Ical

/-- the texts of the enumerations, as in RFC 5545 -/
def eventStatusText : EventStatus → Str
  | .tentative => c!"TENTATIVE"
  | .confirmed => c!"CONFIRMED"
  | .cancelled => c!"CANCELLED"

/-- see `eventStatusText` -/
def todoStatusText : TodoStatus → Str
  | .needsAction => c!"NEEDS-ACTION"
  | .completed => c!"COMPLETED"
  | .inProcess => c!"IN-PROCESS"
  | .cancelled => c!"CANCELLED"

/-- see `eventStatusText` -/
def relatedText : Related → Str
  | .start => c!"START"
  | .end_ => c!"END"

end Ical.Spec
