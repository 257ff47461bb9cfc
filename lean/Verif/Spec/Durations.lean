import Verif.Spec.Rfc

/-!
Specification of the texts of durations.
-/

namespace Ical.Spec

open Ical

/-- The text of a positive number of nanoseconds, without sign: whole seconds and, unless they are all, a decimal
fraction of one to nine digits that does not end in zero. -/
def SecondsText (a : Nat) (t : Str) : Prop :=
  ∃ ds frac, Digits ds (a / 1000000000) ∧ (ds.head? = some '0' → ds = ['0']) ∧
    t = c!"PT" ++ ds ++ frac ++ ['S'] ∧
    (a % 1000000000 = 0 ∧ frac = [] ∨
      ∃ fs k m, frac = '.' :: fs ∧ 1 ≤ k ∧ k ≤ 9 ∧ Number k fs m ∧ m * 10 ^ (9 - k) = a % 1000000000 ∧ m % 10 ≠ 0)

/-- The text of a number of nanoseconds: a minus sign if it is negative, and the text of its size. -/
def DurationText (n : Int) (t : Str) : Prop :=
  (n = 0 ∧ t = c!"P0D") ∨ (0 < n ∧ SecondsText n.toNat t) ∨ (n < 0 ∧ ∃ u, t = '-' :: u ∧ SecondsText (-n).toNat u)

end Ical.Spec
