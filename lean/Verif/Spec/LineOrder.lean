import Verif.Spec.Foreign
import Verif.Spec.WellFormed

/-!
Specification of documents that differ in the order of lines.
-/

namespace Ical.Spec

open Ical

/-- The lines of a name that count: all of them, in order, if the name is repeatable, otherwise the last one. -/
def counting (k : Str) (items : List Item) : List (List DParam × Str) :=
  if k ∈ repeatable then linesNamed k items else (linesNamed k items).getLast?.toList

mutual
/-- Two components with the same name, of which the lines that count are the same for every name, and with the same
sub-components in the same order, in this sense. How the lines of different names and the sub-components are mixed does
not matter. -/
inductive SameLines : Item → Item → Prop
  | comp {b e b' e' n l l'} (own : ∀ k, counting k l = counting k l') (subs : SameSubs l l') :
    SameLines (.comp b e n l) (.comp b' e' n l')
/-- The sub-components are the same in the sense of `SameLines`, one by one. -/
inductive SameSubs : List Item → List Item → Prop
  | nil : SameSubs [] []
  | left {k ps v l l'} : SameSubs l l' → SameSubs (.prop k ps v :: l) l'
  | right {k ps v l l'} : SameSubs l l' → SameSubs l (.prop k ps v :: l')
  | comp {i i' l l'} : SameLines i i' → SameSubs l l' → SameSubs (i :: l) (i' :: l')
end

end Ical.Spec
