import Verif.Proofs.Fold

/-!
Conditions under which the folding loop finishes.
-/

namespace Ical

open Spec

/-- every iteration from a boundary makes progress -/
def FoldProgress (line : Str) : Prop :=
  ∀ p n, isBoundary line p = true → p + 75 < blen line → (n = p + 74 ∨ (p = 0 ∧ n = 75)) →
    ∃ m, backoff line (if wsAt line n then n - 1 else n) = some m ∧ p < m

theorem foldRun_finishes {line : Str} (H : FoldProgress line) :
    ∀ (k : Nat) (st : FoldSt) (ps : List Str) (b : Str), st.rem ≤ k → FoldInv line st ps b →
      ∃ n out, foldRun line n st = some (.ok out) := by
  intro k
  induction k with
  | zero =>
    intro st ps b hk hi
    exact ⟨1, _, by rw [foldRun, foldStep_rem_le hi (by omega)]⟩
  | succ k ih =>
    intro st ps b hk hi
    by_cases hr : st.rem ≤ 75
    · exact ⟨1, _, by rw [foldRun, foldStep_rem_le hi hr]⟩
    · have hb : isBoundary line st.pos = true :=
        isBoundary_iff.2 ⟨_, _, hi.line_eq, hi.pos_eq⟩
      have hlen : blen line = st.pos + st.rem := by
        rw [hi.line_eq, blen_append, hi.pos_eq, hi.rem_eq]
      have hn : st.next = st.pos + 74 ∨ (st.pos = 0 ∧ st.next = 75) := by
        by_cases hps : ps = []
        · right
          refine ⟨?_, hi.first hps⟩
          rw [← hi.pos_eq, hps]; rfl
        · left; exact hi.later hps
      obtain ⟨m, hm, hpm⟩ := H st.pos st.next hb (by omega) hn
      have hmb := backoff_boundary hm
      rw [hi.line_eq] at hmb
      obtain ⟨u, v, huv, hu, hs⟩ := slice_of_boundary hmb (by rw [hi.pos_eq]; omega)
      rw [← hi.line_eq, hi.pos_eq] at hs
      have hstep : foldStep line st =
          .more { out := st.out ++ u ++ ['\r', '\n', ' '], rem := st.rem - (m - st.pos), pos := m,
                  next := m + (foldLimit - 1) } := by
        unfold foldStep
        rw [if_pos (by simp [foldLimit]; omega)]
        simp [hm, hs]
      obtain ⟨u', v', _, hi', _⟩ := foldInv_step hi hstep
      obtain ⟨n, out, hn⟩ := ih _ _ _ (by simp only; omega) hi'
      exact ⟨n + 1, out, by rw [foldRun, hstep]; exact hn⟩

theorem foldLine_finishes {line : Str} (H : FoldProgress line) : ∃ out, foldLine line = .ok out := by
  obtain ⟨n, out, h⟩ := foldRun_finishes H _ _ _ _ (Nat.le_refl _) (foldInv_init line)
  exact ⟨out, foldLine_of_run h⟩

/-- landing on a boundary that is not skipped -/
theorem foldProgress_of_landing {line : Str}
    (H : ∀ p, p + 75 < blen line → ∃ b, p < b ∧ b ≤ p + 74 ∧ isBoundary line b = true ∧ wsAt line b = false) :
    FoldProgress line := by
  intro p n hp hl hn
  obtain ⟨b, h1, h2, h3, h4⟩ := H p hl
  have : b ≤ if wsAt line n then n - 1 else n := by
    split
    · rename_i hw
      have : b ≠ n := by rintro rfl; simp_all
      omega
    · omega
  obtain ⟨m, hm, hbm⟩ := backoff_ge h3 h4 this
  exact ⟨m, hm, by omega⟩

theorem isBoundary_ascii {line : Str} (h : ∀ c ∈ line, c.utf8Size = 1) {n : Nat} (hn : n ≤ blen line) :
    isBoundary line n = true := by
  induction line generalizing n with
  | nil => simp [blen] at hn; subst hn; rfl
  | cons c s ih =>
    have hc := h c (by simp)
    cases n with
    | zero => rfl
    | succ n =>
      simp only [blen, hc] at hn
      rw [isBoundary, if_pos (by omega), hc]
      exact ih (fun c hc => h c (by simp [hc])) (by omega)

theorem foldProgress_ascii {line : Str} (h : ∀ c ∈ line, c.utf8Size = 1) : FoldProgress line := by
  intro p n hp hl hn
  refine ⟨if wsAt line n then n - 1 else n, backoff_self (isBoundary_ascii h ?_), ?_⟩ <;> split <;> omega

theorem wsAt_eq {line : Str} {n : Nat} : wsAt line n = (line[n]?.map isWhitespace).getD false := by
  induction line generalizing n with
  | nil => simp [wsAt]
  | cons c s ih => cases n <;> simp [wsAt, ih]

/-- a boundary within the width of a character -/
theorem boundary_near_width {w : Nat} (s : Str) (hw : ∀ c ∈ s, c.utf8Size ≤ w) (h0 : 0 < w) :
    ∀ (n : Nat), n ≤ blen s → ∃ b, b ≤ n ∧ n < b + w ∧ isBoundary s b = true := by
  induction s with
  | nil => intro n hn; exact ⟨0, by simp, by simp [blen] at hn; omega, by simp [isBoundary]⟩
  | cons c s ih =>
    intro n hn
    have hc4 := hw c (by simp)
    by_cases h : n < c.utf8Size
    · exact ⟨0, by omega, by omega, by simp [isBoundary]⟩
    · simp only [blen] at hn
      obtain ⟨b, h1, h2, h3⟩ := ih (fun c hc => hw c (by simp [hc])) (n - c.utf8Size) (by omega)
      refine ⟨b + c.utf8Size, by omega, by omega, ?_⟩
      obtain ⟨x, y, rfl, rfl⟩ := isBoundary_iff.1 h3
      exact isBoundary_iff.2 ⟨c :: x, y, by simp, by simp [blen]; omega⟩

/-- the boundaries among the positions `p+1 .. p+w*k` number at least `k` -/
theorem boundaries_many {w : Nat} (line : Str) (hw : ∀ c ∈ line, c.utf8Size ≤ w) (h0 : 0 < w) (k : Nat) :
    ∀ p, p + w * k ≤ blen line →
    k ≤ ((List.range' (p + 1) (w * k)).filter (fun i => isBoundary line i)).length := by
  induction k with
  | zero => simp
  | succ k ih =>
    intro p hp
    rw [Nat.mul_succ] at hp
    have h1 := ih p (by omega)
    have e : List.range' (p + 1) (w * (k + 1)) = List.range' (p + 1) (w * k) ++ List.range' (p + 1 + w * k) w := by
      rw [List.range'_append_1]
      congr 1
    rw [e, List.filter_append, List.length_append]
    obtain ⟨b, hb1, hb2, hb3⟩ := boundary_near_width line hw h0 (p + w * k + w) (by omega)
    have : b ∈ (List.range' (p + 1 + w * k) w).filter (fun i => isBoundary line i) := by
      rw [List.mem_filter, List.mem_range'_1]
      exact ⟨by omega, hb3⟩
    have := List.length_pos_of_mem this
    omega

/-- number of whitespace characters among `k` characters starting at index `i` -/
def wsCount (line : Str) (i k : Nat) : Nat := ((line.drop i).take k).countP isWhitespace

theorem wsCount_range (line : Str) (k : Nat) : ∀ i,
    ((List.range' i k).filter (fun j => wsAt line j)).length = wsCount line i k := by
  induction k with
  | zero => simp [wsCount]
  | succ k ih =>
    intro i
    rw [List.range'_succ, List.filter_cons]
    have h : wsCount line i (k + 1) = (if wsAt line i then 1 else 0) + wsCount line (i + 1) k := by
      unfold wsCount
      rcases hd : line.drop i with _ | ⟨c, t⟩
      · have : line.drop (i + 1) = [] := by rw [← List.drop_drop, hd]; rfl
        have hi : line.length ≤ i := List.drop_eq_nil_iff.1 hd
        rw [this, wsAt_eq, List.getElem?_eq_none hi]; simp
      · have h2 : line.drop (i + 1) = t := by rw [← List.drop_drop, hd]; rfl
        have h3 : line[i]? = some c := by
          have := List.getElem?_drop (xs := line) (i := i) (j := 0)
          rw [hd] at this
          simpa using this.symm
        rw [h2, wsAt_eq, h3]
        simp [List.countP_cons]
        omega
    rw [h, ← ih]
    split <;> simp_all
    omega

/-- fewer whitespace characters in every window of 74 characters than characters fit into 74 octets -/
theorem foldProgress_window {w : Nat} {line : Str} (hl : ∀ c ∈ line, c.utf8Size ≤ w) (h0 : 0 < w)
    (h : ∀ i, wsCount line i 74 < 74 / w) : FoldProgress line := by
  apply foldProgress_of_landing
  intro p hp
  apply Classical.byContradiction
  intro hno
  have hk : w * (74 / w) ≤ 74 := Nat.mul_div_le 74 w
  have hb := boundaries_many line hl h0 (74 / w) p (by omega)
  have hw := h (p + 1)
  rw [← wsCount_range] at hw
  have hsub : List.Sublist ((List.range' (p + 1) (w * (74 / w))).filter (fun i => isBoundary line i))
      ((List.range' (p + 1) 74).filter (fun j => wsAt line j)) := by
    have e : List.range' (p + 1) 74 = List.range' (p + 1) (w * (74 / w)) ++
        List.range' (p + 1 + w * (74 / w)) (74 - w * (74 / w)) := by
      rw [List.range'_append_1]
      congr 1
      omega
    rw [e, List.filter_append]
    refine List.Sublist.trans ?_ (List.sublist_append_left _ _)
    have : (List.range' (p + 1) (w * (74 / w))).filter (fun i => isBoundary line i) =
        ((List.range' (p + 1) (w * (74 / w))).filter (fun i => wsAt line i)).filter (fun i => isBoundary line i) := by
      rw [List.filter_filter]
      apply List.filter_congr
      intro x hx
      rw [List.mem_range'_1] at hx
      by_cases hx2 : isBoundary line x = true
      · by_cases hx3 : wsAt line x = true
        · simp [hx2, hx3]
        · exact absurd ⟨x, by omega, by omega, hx2, by simpa using hx3⟩ hno
      · simp [hx2]
    rw [this]
    exact List.filter_sublist
  have := hsub.length_le
  omega

end Ical
