import Verif.Model.Chrono

/-!
Decimal digits: printing and reading back.
-/

namespace Ical

theorem digitVal_digitChar {d : Nat} (h : d < 10) : digitVal d.digitChar = some d := by
  have := Nat.toNat_digitChar_of_lt_ten h
  unfold digitVal
  rw [this]
  have h1 : (decide (0x30 ≤ 48 + d) && decide (48 + d ≤ 0x39)) = true := by
    simp only [Bool.and_eq_true, decide_eq_true_eq]
    omega
  rw [if_pos h1]
  congr 1
  omega

theorem natToStr_small {n : Nat} (h : n < 10) : natToStr n = [n.digitChar] := Nat.toDigits_of_lt_base h

theorem natToStr_big {n : Nat} (h : 10 ≤ n) : natToStr n = natToStr (n / 10) ++ [(n % 10).digitChar] :=
  Nat.toDigits_of_base_le (by decide) h

theorem natToStr_ne_nil (n : Nat) : natToStr n ≠ [] := Nat.toDigits_ne_nil

/-- a decimal digit -/
def IsDigit (c : Char) : Prop := '0' ≤ c ∧ c ≤ '9'

instance (c : Char) : Decidable (IsDigit c) := by unfold IsDigit; infer_instance

theorem isDigit_iff {c : Char} : IsDigit c ↔ (digitVal c).isSome = true := by
  unfold IsDigit digitVal
  rw [Char.le_def, Char.le_def, UInt32.le_iff_toNat_le, UInt32.le_iff_toNat_le]
  have e1 : '0'.val.toNat = 48 := rfl
  have e2 : '9'.val.toNat = 57 := rfl
  have e3 : c.val.toNat = c.toNat := rfl
  rw [e1, e2, e3]
  by_cases h : 48 ≤ c.toNat ∧ c.toNat ≤ 57
  · simp [h]
  · simp only [h, false_iff]
    rw [if_neg]
    · simp
    · simpa using h

theorem isDigit_digitChar {d : Nat} (h : d < 10) : IsDigit d.digitChar := by
  rw [isDigit_iff, digitVal_digitChar h]
  rfl

theorem isDigit_natToStr (n : Nat) : ∀ c ∈ natToStr n, IsDigit c := by
  induction n using Nat.strongRecOn with
  | ind n ih =>
    by_cases h : n < 10
    · rw [natToStr_small h]
      intro c hc
      rw [List.mem_singleton] at hc
      subst hc
      exact isDigit_digitChar h
    · rw [natToStr_big (by omega)]
      intro c hc
      rw [List.mem_append, List.mem_singleton] at hc
      rcases hc with hc | hc
      · exact ih _ (by omega) c hc
      · subst hc
        exact isDigit_digitChar (by omega)

theorem digitsVal_append (a : Nat) (s t : Str) : digitsVal a (s ++ t) = (digitsVal a s).bind (fun b => digitsVal b t) := by
  induction s generalizing a with
  | nil => rfl
  | cons c s ih =>
    simp only [List.cons_append, digitsVal]
    cases digitVal c with
    | none => rfl
    | some d => exact ih _

theorem digitsVal_natToStr (n : Nat) : digitsVal 0 (natToStr n) = some n := by
  induction n using Nat.strongRecOn with
  | ind n ih =>
    by_cases h : n < 10
    · rw [natToStr_small h]
      simp only [digitsVal, digitVal_digitChar h]
      congr 1
      omega
    · rw [natToStr_big (by omega), digitsVal_append, ih _ (by omega)]
      simp only [Option.bind_some, digitsVal, digitVal_digitChar (show n % 10 < 10 by omega)]
      congr 1
      omega

theorem parseUnsigned_natToStr {max n : Nat} (h : n ≤ max) : parseUnsigned max (natToStr n) = some n := by
  have hd := isDigit_natToStr n
  have hv := digitsVal_natToStr n
  unfold parseUnsigned
  cases hs : natToStr n with
  | nil => exact absurd hs (natToStr_ne_nil n)
  | cons c s =>
    rw [hs] at hd hv
    have hc : c ≠ '+' := by
      intro hc
      have := hd c (by simp)
      rw [hc] at this
      exact absurd this (by decide)
    split
    · rename_i h'
      injection h' with h'
      exact absurd h' hc
    · simp [hv, h]

/-- whatever is parsed is at most the maximum -/
theorem parseUnsigned_le {max n : Nat} {s : Str} (h : parseUnsigned max s = some n) : n ≤ max := by
  unfold parseUnsigned at h
  have key : ∀ body : Str, (match body with
      | [] => none
      | _ => match digitsVal 0 body with
        | some n => if n ≤ max then some n else none
        | none => none) = some n → n ≤ max := by
    intro body h
    split at h
    · cases h
    · split at h
      · split at h
        · cases h
          assumption
        · cases h
      · cases h
  split at h
  · exact key _ h
  · exact key _ h

/-! ### Fixed-width numbers -/

theorem fmt2_eq {n : Nat} (h : n < 100) : fmt2 n = [(n / 10).digitChar, (n % 10).digitChar] := by
  unfold fmt2
  split
  · rename_i h1
    rw [natToStr_small h1]
    have e1 : n / 10 = 0 := by omega
    have e2 : n % 10 = n := by omega
    rw [e1, e2]
    rfl
  · rename_i h1
    rw [natToStr_big (by omega), natToStr_small (by omega)]
    rfl

theorem fmt4_eq {n : Nat} (h : n < 10000) :
    fmt4 n = [(n / 1000).digitChar, (n / 100 % 10).digitChar, (n / 10 % 10).digitChar, (n % 10).digitChar] := by
  unfold fmt4
  by_cases h1 : n < 10
  · rw [natToStr_small h1]
    rw [show n / 1000 = 0 by omega, show n / 100 % 10 = 0 by omega, show n / 10 % 10 = 0 by omega,
      show n % 10 = n by omega]
    rfl
  · by_cases h2 : n < 100
    · rw [natToStr_big (by omega), natToStr_small (by omega)]
      rw [show n / 1000 = 0 by omega, show n / 100 % 10 = 0 by omega, show n / 10 % 10 = n / 10 by omega]
      rfl
    · by_cases h3 : n < 1000
      · rw [natToStr_big (by omega), natToStr_big (by omega), natToStr_small (by omega)]
        rw [show n / 1000 = 0 by omega, show n / 10 / 10 = n / 100 by omega,
          show n / 100 % 10 = n / 100 by omega]
        rfl
      · rw [natToStr_big (by omega), natToStr_big (by omega), natToStr_big (by omega), natToStr_small (by omega)]
        rw [show n / 10 / 10 / 10 = n / 1000 by omega, show n / 10 / 10 = n / 100 by omega]
        rfl

theorem digit_not_ws {c : Char} (h : IsDigit c) : isWhitespace c = false := by
  unfold IsDigit at h
  rw [Char.le_def, Char.le_def, UInt32.le_iff_toNat_le, UInt32.le_iff_toNat_le] at h
  have e1 : '0'.val.toNat = 48 := rfl
  have e2 : '9'.val.toNat = 57 := rfl
  have e3 : c.val.toNat = c.toNat := rfl
  rw [e1, e2, e3] at h
  unfold isWhitespace
  simp only [Bool.or_eq_false_iff, Bool.and_eq_false_iff, decide_eq_false_iff_not, beq_eq_false_iff_ne]
  omega

theorem trimStart_digit {c : Char} (h : IsDigit c) (s : Str) : trimStart (c :: s) = c :: s := by
  unfold trimStart
  rw [List.dropWhile_cons, digit_not_ws h]
  rfl

theorem digitVal_lt {c : Char} {d : Nat} (h : digitVal c = some d) : d < 10 ∧ c = d.digitChar := by
  unfold digitVal at h
  split at h
  · rename_i h'
    simp only [Bool.and_eq_true, decide_eq_true_eq] at h'
    simp only [Option.some.injEq] at h
    have hd : d < 10 := by omega
    refine ⟨hd, ?_⟩
    apply Char.ext
    apply UInt32.toNat_inj.1
    have := Nat.toNat_digitChar_of_lt_ten hd
    show c.toNat = d.digitChar.toNat
    omega
  · cases h

theorem scan2_digits {a b : Nat} (ha : a < 10) (hb : b < 10) (s : Str) :
    scan2 (a.digitChar :: b.digitChar :: s) = some (a * 10 + b, s) := by
  unfold scan2
  rw [trimStart_digit (isDigit_digitChar ha)]
  unfold scanNumber
  simp only [digitVal_digitChar ha, Option.isSome_some, if_true]
  unfold scanNumberGo
  simp only [digitVal_digitChar ha]
  rw [if_pos (by omega)]
  unfold scanNumberGo
  simp only [digitVal_digitChar hb]
  rw [if_pos (by omega)]
  unfold scanNumberGo
  simp

theorem scanYear_digits {a b c d : Nat} (ha : a < 10) (hb : b < 10) (hc : c < 10) (hd : d < 10) (s : Str) :
    scanYear (a.digitChar :: b.digitChar :: c.digitChar :: d.digitChar :: s) =
      some (((a * 1000 + b * 100 + c * 10 + d : Nat) : Int), s) := by
  unfold scanYear
  simp only [trimStart_digit (isDigit_digitChar ha)]
  have h1 : a.digitChar ≠ '-' := fun h => absurd (h ▸ isDigit_digitChar ha) (by decide)
  have h2 : a.digitChar ≠ '+' := fun h => absurd (h ▸ isDigit_digitChar ha) (by decide)
  have key : scanNumber 4 (a.digitChar :: b.digitChar :: c.digitChar :: d.digitChar :: s) =
      some (a * 1000 + b * 100 + c * 10 + d, s) := by
    unfold scanNumber
    simp only [digitVal_digitChar ha, Option.isSome_some, if_true]
    unfold scanNumberGo
    simp only [digitVal_digitChar ha]
    rw [if_pos (by omega)]
    unfold scanNumberGo
    simp only [digitVal_digitChar hb]
    rw [if_pos (by omega)]
    unfold scanNumberGo
    simp only [digitVal_digitChar hc]
    rw [if_pos (by omega)]
    unfold scanNumberGo
    simp only [digitVal_digitChar hd]
    rw [if_pos (by omega)]
    unfold scanNumberGo
    simp only [Option.some.injEq, Prod.mk.injEq, and_true]
    omega
  split
  · rename_i h
    injection h with h
    exact absurd h h1
  · rename_i h
    injection h with h
    exact absurd h h2
  · rw [key]
    rfl

theorem scan2_fmt2 {n : Nat} (h : n < 100) (s : Str) : scan2 (fmt2 n ++ s) = some (n, s) := by
  rw [fmt2_eq h]
  have := scan2_digits (show n / 10 < 10 by omega) (show n % 10 < 10 by omega) s
  simp only [List.cons_append, List.nil_append]
  rw [this]
  congr 2
  omega

theorem scanYear_fmt4 {n : Nat} (h : n < 10000) (s : Str) : scanYear (fmt4 n ++ s) = some ((n : Int), s) := by
  rw [fmt4_eq h]
  have := scanYear_digits (show n / 1000 < 10 by omega) (show n / 100 % 10 < 10 by omega)
    (show n / 10 % 10 < 10 by omega) (show n % 10 < 10 by omega) s
  simp only [List.cons_append, List.nil_append]
  rw [this]
  congr 3
  omega

end Ical
