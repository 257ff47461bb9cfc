import Verif.Model.Errors
import Verif.Model.Calendar

/-!
Parameters read on their own.
-/

namespace Ical

variable [Uni]

/-- `TryFrom<&str> for parser::Parameter`: /repo/src/parser/parameters.rs:34-43. -/
def readParameter (i : Str) : Option PParam := finish (parameter i)

/-- The error text of `parser::Parameter::try_from`: /repo/src/parser/parameters.rs:37-42. -/
def readParameterError (i : Str) : Option Str :=
  (EP.parameter.payload i).map (fun l => c!"error: " ++ convertError i l)

end Ical
