import Verif.Spec.DateText

/-!
Specification of the texts that stand for a number in a property.
-/

namespace Ical.Spec

open Ical

/-- A text that stands for the number `n`: one or more decimal digits, a plus sign may precede them. -/
def Numeral (s : Str) (n : Nat) : Prop :=
  ∃ ds, (s = ds ∨ s = '+' :: ds) ∧ ds ≠ [] ∧ Number ds.length ds n

end Ical.Spec
