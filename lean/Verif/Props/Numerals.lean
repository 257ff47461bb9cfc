import Verif.Spec.Numerals
import Verif.Props.Values
import Verif.Props.DateText

/-!
C106: exactly which texts are read as numbers.
-/

namespace Ical

open Spec

theorem digitVal_eq {c : Char} : digitVal c = if '0' ≤ c ∧ c ≤ '9' then some (c.toNat - '0'.toNat) else none := by
  by_cases h : IsDigit c
  · obtain ⟨d, hd, rfl⟩ := digit_exists h
    rw [if_pos (show _ ∧ _ from h), digitVal_digitChar hd, digitChar_val hd]
  · rw [if_neg (show ¬ (_ ∧ _) from h)]
    cases hv : digitVal c with
    | none => rfl
    | some d => exact absurd (isDigit_iff.2 (by rw [hv]; rfl)) h

theorem digitsVal_iff (s : Str) (a n : Nat) :
    digitsVal a s = some n ↔
      (∀ c ∈ s, '0' ≤ c ∧ c ≤ '9') ∧ s.foldl (fun n c => 10 * n + (c.toNat - '0'.toNat)) a = n := by
  induction s generalizing a with
  | nil => simp [digitsVal]
  | cons c s ih =>
    rw [digitsVal, digitVal_eq]
    by_cases h : '0' ≤ c ∧ c ≤ '9'
    · rw [if_pos h]
      simp only [List.forall_mem_cons, List.foldl_cons, h, and_self, true_and]
      rw [ih, Nat.mul_comm a 10]
    · rw [if_neg h]
      simp only [List.forall_mem_cons, h, false_and, iff_false]
      exact fun h => nomatch h

/-- **C106.** A text is read as a number exactly if it consists of decimal digits, at least one, after an
optional plus sign, and the number they stand for is at most the largest one of the type. -/
theorem parseUnsigned_iff (max : Nat) (s : Str) (n : Nat) :
    parseUnsigned max s = some n ↔ Numeral s n ∧ n ≤ max := by
  have key : ∀ body : Str, body ≠ [] →
      ((match digitsVal 0 body with
        | some n => if n ≤ max then some n else none
        | none => none) = some n ↔ Number body.length body n ∧ n ≤ max) := by
    intro body _
    constructor
    · intro h
      split at h
      · rename_i m hm
        split at h
        · cases h
          exact ⟨⟨rfl, (digitsVal_iff _ _ _).1 hm⟩, by assumption⟩
        · cases h
      · cases h
    · rintro ⟨⟨_, h1⟩, h2⟩
      rw [(digitsVal_iff _ _ _).2 h1]
      exact if_pos h2
  unfold parseUnsigned
  cases s with
  | nil =>
    constructor
    · intro h; cases h
    · rintro ⟨⟨ds, h1, h2, _⟩, _⟩
      rcases h1 with h1 | h1
      · exact absurd h1.symm h2
      · cases h1
  | cons c t =>
    by_cases hc : c = '+'
    · subst hc
      cases t with
      | nil =>
        constructor
        · intro h; cases h
        · rintro ⟨⟨ds, h1, h2, _, h3, _⟩, _⟩
          rcases h1 with rfl | h1
          · exact absurd (h3 '+' (by simp)) (by decide)
          · injection h1 with _ h1
            exact absurd h1.symm h2
      | cons d t =>
        refine (key (d :: t) (by simp)).trans ⟨?_, ?_⟩
        · rintro ⟨h1, h2⟩
          exact ⟨⟨d :: t, .inr rfl, by simp, h1⟩, h2⟩
        · rintro ⟨⟨ds, h1, h2, h3⟩, h4⟩
          rcases h1 with rfl | h1
          · exact absurd (h3.2.1 '+' (by simp)) (by decide)
          · injection h1 with _ h1
            exact ⟨h1 ▸ h3, h4⟩
    · have hb : parseUnsigned max (c :: t) = (match digitsVal 0 (c :: t) with
          | some n => if n ≤ max then some n else none
          | none => none) := by
        unfold parseUnsigned
        split
        · rename_i h
          injection h with h
          exact absurd h hc
        · rfl
      unfold parseUnsigned at hb
      rw [hb]
      refine (key (c :: t) (by simp)).trans ⟨?_, ?_⟩
      · rintro ⟨h1, h2⟩
        exact ⟨⟨c :: t, .inl rfl, by simp, h1⟩, h2⟩
      · rintro ⟨⟨ds, h1, h2, h3⟩, h4⟩
        rcases h1 with rfl | h1
        · exact ⟨h3, h4⟩
        · injection h1 with h1 _
          exact absurd h1 hc

/-- **C106.** A priority is read exactly from a numeral of at most ten. -/
theorem priority_read {C : Type} [Component C] (c : C) (n : Nat) :
    Component.getPriority c = some n ↔
      ∃ v, Component.propertyValue c c!"PRIORITY" = some v ∧ Numeral v n ∧ n ≤ 10 := by
  unfold Component.getPriority
  cases Component.propertyValue c c!"PRIORITY" with
  | none => simp
  | some v =>
    simp only [Option.bind_some, Option.some.injEq, exists_eq_left']
    constructor
    · intro h
      split at h
      · rename_i m hm
        split at h
        · cases h
          exact ⟨((parseUnsigned_iff _ _ _).1 hm).1, by assumption⟩
        · cases h
      · cases h
    · rintro ⟨h1, h2⟩
      rw [(parseUnsigned_iff _ _ _).2 ⟨h1, by unfold u32Max; omega⟩]
      exact if_pos h2

/-- **C106.** A sequence number is read exactly from a numeral of a 32-bit number. -/
theorem sequence_read {C : Type} [Component C] (c : C) (n : Nat) :
    Component.getSequence c = some n ↔
      ∃ v, Component.propertyValue c c!"SEQUENCE" = some v ∧ Numeral v n ∧ n < 2 ^ 32 := by
  unfold Component.getSequence
  cases Component.propertyValue c c!"SEQUENCE" with
  | none => simp
  | some v =>
    simp only [Option.bind_some, Option.some.injEq, exists_eq_left', parseUnsigned_iff]
    exact and_congr_right fun _ => by unfold u32Max; omega

/-- **C106.** A percentage is read exactly from a numeral of an 8-bit number. -/
theorem percent_read (t : Todo) (n : Nat) :
    t.getPercentComplete = some n ↔
      ∃ v, Component.propertyValue t c!"PERCENT-COMPLETE" = some v ∧ Numeral v n ∧ n < 2 ^ 8 := by
  unfold Todo.getPercentComplete
  cases Component.propertyValue t c!"PERCENT-COMPLETE" with
  | none => simp
  | some v =>
    simp only [Option.bind_some, Option.some.injEq, exists_eq_left', parseUnsigned_iff]
    exact and_congr_right fun _ => by unfold u8Max; omega

/-- **C106.** A text stands for at most one number, so the readers are determined by the above. -/
theorem numeral_unique {s : Str} {m n : Nat} (h1 : Numeral s m) (h2 : Numeral s n) : m = n := by
  have a := (parseUnsigned_iff (m + n) s m).2 ⟨h1, by omega⟩
  have b := (parseUnsigned_iff (m + n) s n).2 ⟨h2, by omega⟩
  rw [a] at b
  injection b

/-- leading zeros and a plus sign are accepted; nothing, a sign alone, a minus sign, blanks and fractions are not -/
example : Component.getSequence (Component.addProperty Event.new c!"SEQUENCE" c!"+007") = some 7 ∧
    ∀ v ∈ [c!"", c!"+", c!"-0", c!" 7", c!"7 ", c!"7.0", c!"++7", c!"4294967296"],
      Component.getSequence (Component.addProperty Event.new c!"SEQUENCE" v) = none := by decide +kernel

/-- a numeral in the sense of the specification -/
example : Numeral c!"+007" 7 := ⟨c!"007", .inr rfl, by simp, rfl, by decide, by decide⟩

end Ical
