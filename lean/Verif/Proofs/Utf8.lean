import Verif.Proofs.Map

/-!
The order of map keys is the order of their UTF-8 bytes.
-/

namespace Ical

/-- The UTF-8 encoding of a text (Lean's own encoder). -/
def Spec.utf8 (s : Str) : List UInt8 := s.flatMap String.utf8EncodeChar

open Spec

theorem char_bound (c : Char) : c.val.toNat < 0x110000 := by
  rcases c.valid with h | h
  · have : c.val.toNat < 0xd800 := h
    omega
  · exact h.2

theorem encode_lt {c d : Char} (h : c.toNat < d.toNat) (s t : List UInt8) :
    String.utf8EncodeChar c ++ s < String.utf8EncodeChar d ++ t := by
  have hc := char_bound c
  have hd := char_bound d
  unfold Char.toNat at h
  unfold String.utf8EncodeChar
  generalize c.val.toNat = v at *
  generalize d.val.toNat = u at *
  simp only
  split <;> split <;> (try split) <;> (try split) <;> (try split) <;> (try split) <;>
    simp only [List.cons_append, List.nil_append, List.cons_lt_cons_iff, UInt8.lt_iff_toNat_lt, ← UInt8.toNat_inj,
      UInt8.toNat_ofNat'] <;> first | omega | skip
  have e : ∀ x : Nat, x < 0x110000 → ∃ a0 a1 a2 a3, x % 64 = a0 ∧ x / 64 % 64 = a1 ∧ x / 4096 % 64 = a2 ∧
      x / 262144 % 8 = a3 ∧ x = a0 + 64 * a1 + 4096 * a2 + 262144 * a3 ∧ a0 < 64 ∧ a1 < 64 ∧ a2 < 64 ∧ a3 < 8 := by
    intro x hx
    exact ⟨_, _, _, _, rfl, rfl, rfl, rfl, by omega, by omega, by omega, by omega, by omega⟩
  obtain ⟨a0, a1, a2, a3, h0, h1, h2, h3, hv, b0, b1, b2, b3⟩ := e v hc
  obtain ⟨c0, c1, c2, c3, i0, i1, i2, i3, hu, d0, d1, d2, d3⟩ := e u hd
  rw [h0, h1, h2, h3, i0, i1, i2, i3]
  generalize (s < t) = P
  clear h0 h1 h2 h3 i0 i1 i2 i3 hc hd
  subst hv hu
  have m : ∀ x, x < 256 → x % 2 ^ 8 = x := fun x hx => Nat.mod_eq_of_lt hx
  rw [m _ (by omega), m _ (by omega), m _ (by omega), m _ (by omega), m _ (by omega), m _ (by omega), m _ (by omega), m _ (by omega)]
  omega

/-- Comparing keys is comparing their UTF-8 bytes. -/
theorem strCmp_utf8 (a b : Str) : strCmp a b = .lt ↔ utf8 a < utf8 b := by
  have h : ∀ a b : Str, strCmp a b = .lt → utf8 a < utf8 b := by
    intro a
    induction a with
    | nil =>
      intro b h
      cases b with
      | nil => cases h
      | cons d t =>
        unfold utf8
        rw [List.flatMap_nil, List.flatMap_cons]
        cases he : String.utf8EncodeChar d with
        | nil =>
          unfold String.utf8EncodeChar at he
          simp only at he
          split at he <;> (try split at he) <;> (try split at he) <;> cases he
        | cons x l => exact List.nil_lt_cons _ _
    | cons c s ih =>
      intro b h
      cases b with
      | nil => cases h
      | cons d t =>
        unfold utf8
        rw [List.flatMap_cons, List.flatMap_cons]
        unfold strCmp at h
        by_cases h1 : c.toNat < d.toNat
        · exact encode_lt h1 _ _
        · rw [if_neg h1] at h
          by_cases h2 : d.toNat < c.toNat
          · rw [if_pos h2] at h; cases h
          · rw [if_neg h2] at h
            have : c = d := char_eq_of_toNat (by omega)
            subst this
            exact List.append_left_lt (ih t h)
  refine ⟨h a b, fun hlt => ?_⟩
  cases hc : strCmp a b with
  | lt => rfl
  | eq =>
    rw [strCmp_eq.1 hc] at hlt
    exact absurd hlt (List.lt_irrefl _)
  | gt => exact absurd (h b a (strCmp_gt.1 hc)) (List.lt_asymm hlt)

end Ical
