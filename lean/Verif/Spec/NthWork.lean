import Verif.Model.Basic

/-!
Looking up a character of a text by its position, one character after the other.
-/

namespace Ical.Spec

/-- `text.chars().nth(n)`: the character found, and the characters the iterator was moved over. -/
def nthWalk : Str → Nat → Option Char × Nat
  | [], _ => (none, 0)
  | c :: _, 0 => (some c, 1)
  | _ :: s, n + 1 => ((nthWalk s n).1, (nthWalk s n).2 + 1)

end Ical.Spec
