import Verif.Model.Basic

/-!
Specification of where lines are cut when they are folded.
-/

namespace Ical.Spec

open Ical

/-- The pieces of a text cut greedily: the first piece takes as many characters as fit into `w` octets, the others
into 74 (and the space before them), until at most 75 octets are left. A cut is moved one character to the left if
the character after it is whitespace. -/
inductive Cuts : Nat → Str → List Str → Prop
  | last (w : Nat) (s : Str) : blen s ≤ 75 → Cuts w s [s]
  | cut (w : Nat) (a : Str) (c : Char) (b : Str) (ps : List Str) : 75 < blen (a ++ c :: b) → blen a ≤ w →
      w < blen a + c.utf8Size → isWhitespace c = false → Cuts 74 (c :: b) ps → Cuts w (a ++ c :: b) (a :: ps)
  | back (w : Nat) (a : Str) (d c : Char) (b : Str) (ps : List Str) : 75 < blen (a ++ d :: c :: b) →
      blen a + d.utf8Size = w → isWhitespace c = true → Cuts 74 (d :: c :: b) ps →
      Cuts w (a ++ d :: c :: b) (a :: ps)

end Ical.Spec
