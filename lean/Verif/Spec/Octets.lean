import Verif.Spec.Lines
import Verif.Spec.Document

/-!
Specification of texts as octets (RFC 3629) and of programs that work on octets.
-/

namespace Ical.Spec

open Ical

/-- The octets of a character in UTF-8 (RFC 3629, section 3). -/
def charOctets (c : Char) : List Nat :=
  let n := c.toNat
  if n < 0x80 then [n]
  else if n < 0x800 then [0xC0 + n / 64, 0x80 + n % 64]
  else if n < 0x10000 then [0xE0 + n / 4096, 0x80 + n / 64 % 64, 0x80 + n % 64]
  else [0xF0 + n / 262144, 0x80 + n / 4096 % 64, 0x80 + n / 64 % 64, 0x80 + n % 64]

/-- The octets of a text. -/
def octets (s : Str) : List Nat := s.flatMap charOctets

/-- Unfolding octets: at each position, if a line break and a space or tab start there drop them, else keep the octet. -/
def octetUnfold : List Nat → List Nat
  | [] => []
  | 13 :: 10 :: 32 :: s => octetUnfold s
  | 13 :: 10 :: 9 :: s => octetUnfold s
  | 10 :: 32 :: s => octetUnfold s
  | 10 :: 9 :: s => octetUnfold s
  | x :: s => x :: octetUnfold s

/-- The physical lines of octets: cut at every CRLF. -/
def octetLines : List Nat → List (List Nat)
  | [] => [[]]
  | 13 :: 10 :: s => [] :: octetLines s
  | x :: s =>
    match octetLines s with
    | [] => [[x]]
    | l :: ls => (x :: l) :: ls

/-- A line break in octets. -/
def breakOctets : Break → List Nat
  | .crlf => [13, 10]
  | .lf => [10]

/-- Octets folded at any places, also inside of characters. -/
inductive OctetFolded (br : Break) : List Nat → List Nat → Prop
  | nil : OctetFolded br [] []
  | keep {x o f} : OctetFolded br o f → OctetFolded br (x :: o) (x :: f)
  | fold {x o f} : (x = 32 ∨ x = 9) → OctetFolded br o f → OctetFolded br o (breakOctets br ++ x :: f)

end Ical.Spec
