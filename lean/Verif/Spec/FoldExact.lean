import Verif.Spec.Lines

/-!
Specification of what folding does with an arbitrary line, and of the lines it cannot cope with. Positions are counted in
octets, except that the search for whitespace takes them for numbers of characters.
-/

namespace Ical.Spec

open Ical

/-- Position `p` lies between two characters of the text, or at one of its ends. -/
def Between (line : Str) (p : Nat) : Prop := ∃ a b, line = a ++ b ∧ blen a = p

/-- The text has a character number `n`, counted from 0, and it is white. -/
def WhiteAt (line : Str) (n : Nat) : Prop := ∃ a c b, line = a ++ c :: b ∧ a.length = n ∧ White c

/-- Going left from a position until a position between characters is met, where a step to the number of a white character
goes one further: where this ends. -/
inductive Lands (line : Str) : Nat → Nat → Prop
  | here (n : Nat) : Between line n → Lands line n n
  | left (n m : Nat) : ¬ Between line (n + 1) → ¬ WhiteAt line n → Lands line n m → Lands line (n + 1) m
  | jump (n m : Nat) : ¬ Between line (n + 2) → WhiteAt line (n + 1) → Lands line n m → Lands line (n + 2) m

/-- The cut sought from position `n` on is made at `q`. -/
def CutFrom (line : Str) (n q : Nat) : Prop :=
  (¬ WhiteAt line n ∧ Lands line n q) ∨ ∃ m, n = m + 1 ∧ WhiteAt line n ∧ Lands line m q

/-- The positions where cuts are made, with the width allowed for the piece after them. -/
inductive Reaches (line : Str) : Nat → Nat → Prop
  | start : Reaches line 0 75
  | next (p w q : Nat) : Reaches line p w → p + 75 < blen line → CutFrom line (p + w) q → p ≤ q → Reaches line q 74

/-- The pieces into which the rest of the line from position `p` on is cut, of which the first may have `w` octets. -/
inductive Pieces (line : Str) : Nat → Nat → List Str → Prop
  | last (w : Nat) (a b : Str) : line = a ++ b → blen b ≤ 75 → Pieces line (blen a) w [b]
  | cut (w : Nat) (a u b : Str) (ps : List Str) : line = a ++ (u ++ b) → 75 < blen (u ++ b) →
      CutFrom line (blen a + w) (blen a + blen u) → Pieces line (blen a + blen u) 74 ps → Pieces line (blen a) w (u :: ps)

end Ical.Spec
