import Verif.Spec.Blocks

/-!
Specification of files in which the lines that begin and end components can be recognised without unfolding.
-/

namespace Ical.Spec

open Ical

/-- No line that begins or ends a component is continued on the next line, and a line that is continued has at least as
many characters as are needed to tell that it is none of them. -/
def BracketsWhole : List Str → Prop
  | [] => True
  | [_] => True
  | a :: b :: l => (Continues b → Continues a ∨ (bracketOf a = none ∧ 6 ≤ (lineContent a).length)) ∧ BracketsWhole (b :: l)

def decBracketsWhole : (l : List Str) → Decidable (BracketsWhole l)
  | [] => .isTrue trivial
  | [_] => .isTrue trivial
  | a :: b :: l =>
    have : Decidable (BracketsWhole (b :: l)) := decBracketsWhole (b :: l)
    inferInstanceAs (Decidable ((Continues b → Continues a ∨ (bracketOf a = none ∧ 6 ≤ (lineContent a).length)) ∧ BracketsWhole (b :: l)))

instance (l : List Str) : Decidable (BracketsWhole l) := decBracketsWhole l

end Ical.Spec
