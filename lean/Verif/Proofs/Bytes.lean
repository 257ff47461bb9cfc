import Verif.Model.Basic

/-!
Byte offsets, character boundaries and slices.
-/

namespace Ical

theorem utf8Size_pos (c : Char) : 1 ≤ c.utf8Size := by
  have := c.utf8Size_pos
  omega

theorem blen_append (a b : Str) : blen (a ++ b) = blen a + blen b := by
  induction a with
  | nil => simp [blen]
  | cons c a ih => simp [blen, ih]; omega

theorem blen_eq_zero {a : Str} : blen a = 0 ↔ a = [] := by
  cases a with
  | nil => simp [blen]
  | cons c a => have := utf8Size_pos c; simp [blen]; omega

theorem length_le_blen (a : Str) : a.length ≤ blen a := by
  induction a with
  | nil => simp
  | cons c a ih => have := utf8Size_pos c; simp [blen]; omega

theorem splitAtByte_append (a b : Str) : splitAtByte (a ++ b) (blen a) = some (a, b) := by
  induction a with
  | nil => simp [blen, splitAtByte]
  | cons c a ih =>
    have hc := utf8Size_pos c
    have : blen (c :: a) = (c.utf8Size + blen a - 1) + 1 := by simp [blen]; omega
    rw [this, List.cons_append, splitAtByte, if_pos (by omega)]
    have : c.utf8Size + blen a - 1 + 1 - c.utf8Size = blen a := by omega
    rw [this, ih]

theorem splitAtByte_some {s : Str} {i : Nat} {a b : Str} (h : splitAtByte s i = some (a, b)) :
    s = a ++ b ∧ blen a = i := by
  fun_induction splitAtByte s i generalizing a b with
  | case1 s => simp at h; simp [h.1, h.2, blen]
  | case2 => simp at h
  | case3 c s i hc x y hxy ih =>
    simp at h
    have := ih hxy
    rw [← h.1, ← h.2]
    refine ⟨by simp [this.1], ?_⟩
    simp only [blen, this.2]; omega
  | case4 => simp at h
  | case5 => simp at h

theorem isBoundary_iff {s : Str} {i : Nat} :
    isBoundary s i = true ↔ ∃ a b, s = a ++ b ∧ blen a = i := by
  have h1 : ∀ s i, isBoundary s i = (splitAtByte s i).isSome := by
    intro s i
    fun_induction splitAtByte s i with
    | case1 s => cases s <;> rfl
    | case2 => rfl
    | case3 c s i hc x y hxy ih => rw [isBoundary, if_pos hc, ih, hxy]; rfl
    | case4 c s i hc hxy ih => rw [isBoundary, if_pos hc, ih, hxy]
    | case5 c s i hc => rw [isBoundary, if_neg hc]; rfl
  rw [h1]
  constructor
  · intro h
    obtain ⟨⟨a, b⟩, hab⟩ := Option.isSome_iff_exists.1 h
    exact ⟨a, b, splitAtByte_some hab⟩
  · rintro ⟨a, b, rfl, rfl⟩
    rw [splitAtByte_append]; rfl

theorem isBoundary_le {s : Str} {i : Nat} (h : isBoundary s i = true) : i ≤ blen s := by
  obtain ⟨a, b, rfl, rfl⟩ := isBoundary_iff.1 h
  rw [blen_append]; omega

/-- cutting the remainder of a string at a later boundary -/
theorem slice_of_boundary {a b : Str} {n : Nat} (hn : isBoundary (a ++ b) n = true)
    (h : blen a ≤ n) : ∃ u v, b = u ++ v ∧ blen u = n - blen a ∧ slice (a ++ b) (blen a) n = some u := by
  obtain ⟨x, y, hxy, hx⟩ := isBoundary_iff.1 hn
  have hux : ∃ u, x = a ++ u := by
    rcases List.append_eq_append_iff.1 hxy with ⟨t, h1, h2⟩ | ⟨t, h1, h2⟩
    · exact ⟨t, h1⟩
    · have := congrArg blen h1
      rw [blen_append] at this
      have : t = [] := blen_eq_zero.1 (by omega)
      exact ⟨[], by simp [h1, this]⟩
  obtain ⟨u, rfl⟩ := hux
  rw [blen_append] at hx
  have hb : b = u ++ y := by simpa using hxy
  refine ⟨u, y, hb, by omega, ?_⟩
  unfold slice
  rw [if_pos h, splitAtByte_append]
  have : n - blen a = blen u := by omega
  simp only [this]
  rw [hb, splitAtByte_append]

theorem slice_some {a b : Str} {n : Nat} {u : Str} (h : slice (a ++ b) (blen a) n = some u) :
    blen a ≤ n ∧ ∃ v, b = u ++ v ∧ blen u = n - blen a := by
  unfold slice at h
  split at h
  · rename_i hle
    refine ⟨hle, ?_⟩
    rw [splitAtByte_append] at h
    simp only at h
    split at h
    · rename_i x y hxy
      have := splitAtByte_some hxy
      cases h
      exact ⟨y, this⟩
    · cases h
  · cases h

theorem sliceFrom_append (a b : Str) : sliceFrom (a ++ b) (blen a) = some b := by
  simp [sliceFrom, splitAtByte_append]

theorem utf8Size_le (c : Char) : c.utf8Size ≤ 4 := by
  have := c.utf8Size_le_four
  omega

/-- every four consecutive positions inside a string contain a boundary -/
theorem boundary_near (s : Str) : ∀ (n : Nat), n ≤ blen s →
    ∃ b, b ≤ n ∧ n < b + 4 ∧ isBoundary s b = true := by
  induction s with
  | nil => intro n hn; exact ⟨0, by simp, by simp [blen] at hn; omega, by simp [isBoundary]⟩
  | cons c s ih =>
    intro n hn
    have hc := utf8Size_pos c
    have hc4 := utf8Size_le c
    by_cases h : n < c.utf8Size
    · exact ⟨0, by omega, by omega, by simp [isBoundary]⟩
    · simp only [blen] at hn
      obtain ⟨b, h1, h2, h3⟩ := ih (n - c.utf8Size) (by omega)
      refine ⟨b + c.utf8Size, by omega, by omega, ?_⟩
      obtain ⟨x, y, rfl, rfl⟩ := isBoundary_iff.1 h3
      exact isBoundary_iff.2 ⟨c :: x, y, by simp, by simp [blen]; omega⟩

end Ical
