import Verif.Model.FoldWork
import Verif.Spec.NthWork

/-!
C86: what is counted for looking up a character is what walking to it takes.
-/

namespace Ical

open Spec

/-- Looking up a character of the line is counted with exactly the characters that are walked over, and finds the
character that is tested for white space. -/
theorem nth_counted (line : Str) (n : Nat) :
    nthCost line n = (nthWalk line n).2 ∧ wsAt line n = ((nthWalk line n).1.map isWhitespace).getD false := by
  induction line generalizing n with
  | nil => exact ⟨by simp [nthCost, nthWalk], by simp [wsAt, nthWalk]⟩
  | cons c s ih =>
    cases n with
    | zero => exact ⟨by simp [nthCost, nthWalk], by simp [wsAt, nthWalk]⟩
    | succ n =>
      obtain ⟨h1, h2⟩ := ih n
      refine ⟨?_, by simpa [wsAt, nthWalk] using h2⟩
      simp only [nthWalk, ← h1, nthCost, List.length_cons]
      omega

/-- the eighth of six characters is not there, the third is white space -/
example : nthWalk c!"ab cde" 7 = (none, 6) ∧ nthWalk c!"ab cde" 2 = (some ' ', 3) := by decide +kernel

end Ical
