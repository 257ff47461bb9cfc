import Verif.Spec.Octets
import Verif.Spec.SameBut

/-!
Specification of lossy decoding of octets, and of what is left of a text whose octets were folded inside of characters
and then decoded.
-/

namespace Ical.Spec

open Ical

/-- The replacement character U+FFFD. -/
def lostChar : Char := '�'

/-- Lossy decoding (`String::from_utf8_lossy`; the Unicode Standard, section 3.9, "U+FFFD Substitution of Maximal
Subparts"): characters are decoded; where no character starts, one octet, or as many as can be the start of a character,
become one U+FFFD. -/
inductive LossyDecoded : List Nat → Str → Prop
  | nil : LossyDecoded [] []
  | char {c o t} : LossyDecoded o t → LossyDecoded (charOctets c ++ o) (c :: t)
  | lost {p o t} (noChar : ∀ c r, p ++ o ≠ charOctets c ++ r) (part : p.length = 1 ∨ (p ≠ [] ∧ ∃ c v, charOctets c = p ++ v))
    (longest : ∀ x r, o = x :: r → ∀ c v, charOctets c ≠ p ++ x :: v) :
    LossyDecoded o t → LossyDecoded (p ++ o) (lostChar :: t)

/-- `t` is the text `s` of which `n` characters, all of them not in ASCII, are replaced by two or more U+FFFD each, not more
than the character has octets. -/
inductive Damaged : Str → Str → Nat → Prop
  | nil : Damaged [] [] 0
  | keep {c s t n} : Damaged s t n → Damaged (c :: s) (c :: t) n
  | lost {c s t n k} : 128 ≤ c.toNat → 2 ≤ k → k ≤ (charOctets c).length → Damaged s t n →
    Damaged (c :: s) (List.replicate k lostChar ++ t) (n + 1)

/-- `t` is the text `s` with any number of characters damaged. -/
def DamagedText (s t : Str) : Prop := ∃ n, Damaged s t n

end Ical.Spec
