import Verif.Spec.Document

/-!
Specification of the place of a component in a document.
-/

namespace Ical.Spec

open Ical

/-- The number of components among some elements. -/
def compCount : List Item → Nat
  | [] => 0
  | .prop _ _ _ :: l => compCount l
  | .comp _ _ _ _ :: l => compCount l + 1

end Ical.Spec
