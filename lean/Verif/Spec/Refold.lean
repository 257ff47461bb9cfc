import Verif.Spec.Lines

/-!
Texts in which removing the fold markers leaves new ones.
-/

namespace Ical.Spec

/-- Somewhere a line feed is followed by one or more fold markers and a blank: without the markers the line feed and the
blank are a marker again. -/
def Refolds (t : Str) : Prop :=
  ∃ (ms : List Marker) (x : Char), ms ≠ [] ∧ (x = ' ' ∨ x = '\t') ∧ ('\n' :: (ms.flatMap Marker.text ++ [x])) <:+: t

end Ical.Spec
