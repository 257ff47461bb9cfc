import Verif.Model.Fold
import Verif.Proofs.Bytes
import Verif.Proofs.Unfold

/-!
The folding loop: invariant, divergence, and conditions under which it finishes.
-/

namespace Ical

open Spec

theorem backoff_le {line : Str} {n m : Nat} (h : backoff line n = some m) : m ≤ n := by
  fun_induction backoff line n <;> simp_all <;> omega

theorem backoff_boundary {line : Str} {n m : Nat} (h : backoff line n = some m) :
    isBoundary line m = true := by
  fun_induction backoff line n <;> simp_all
  all_goals (try subst h)
  all_goals simp_all [isBoundary]

/-- a boundary whose index is not the index of a whitespace character is never passed -/
theorem backoff_ge {line : Str} {n b : Nat} (hb : isBoundary line b = true) (hw : wsAt line b = false)
    (hn : b ≤ n) : ∃ m, backoff line n = some m ∧ b ≤ m := by
  fun_induction backoff line n with
  | case1 => exact ⟨0, rfl, hn⟩
  | case2 h => exact ⟨1, rfl, hn⟩
  | case3 h h2 =>
    have : b ≠ 1 := by rintro rfl; simp_all
    have : b ≠ 0 := by rintro rfl; simp_all
    omega
  | case4 h h2 =>
    have : b ≠ 1 := by rintro rfl; simp_all
    exact ⟨0, rfl, by omega⟩
  | case5 m h => exact ⟨m + 2, rfl, hn⟩
  | case6 m h h2 ih =>
    have : b ≠ m + 2 := by rintro rfl; simp_all
    have : b ≠ m + 1 := by rintro rfl; simp_all
    exact ih (by omega)
  | case7 m h h2 ih =>
    have : b ≠ m + 2 := by rintro rfl; simp_all
    exact ih (by omega)

theorem backoff_self {line : Str} {n : Nat} (hb : isBoundary line n = true) :
    backoff line n = some n := by
  unfold backoff
  split <;> simp_all

/-- joined pieces, each followed by a fold -/
def folded (ps : List Str) : Str := (ps.map (· ++ ['\r', '\n', ' '])).flatten

/-- What holds at the head of the outer loop. -/
structure FoldInv (line : Str) (st : FoldSt) (ps : List Str) (b : Str) : Prop where
  line_eq : line = ps.flatten ++ b
  pos_eq : blen ps.flatten = st.pos
  rem_eq : blen b = st.rem
  out_eq : st.out = folded ps
  first : ps = [] → st.next = 75
  later : ps ≠ [] → st.next = st.pos + 74
  len_first : ∀ x ∈ ps.head?, blen x ≤ 75
  len_rest : ∀ x ∈ ps.tail, blen x ≤ 74

theorem foldInv_init (line : Str) : FoldInv line (foldInit line) [] line := by
  constructor <;> simp [foldInit, blen, folded, foldLimit]

theorem folded_append (ps qs : List Str) : folded (ps ++ qs) = folded ps ++ folded qs := by
  simp [folded]

/-- the state-independent part of one iteration that goes on -/
theorem foldStep_more {line : Str} {st st' : FoldSt} (h : foldStep line st = .more st') :
    foldLimit < st.rem ∧ ∃ m, backoff line (if wsAt line st.next then st.next - 1 else st.next) = some m ∧
      ∃ u, slice line st.pos m = some u ∧
        st' = { out := st.out ++ u ++ ['\r', '\n', ' '], rem := st.rem - (m - st.pos), pos := m,
                next := m + (foldLimit - 1) } := by
  unfold foldStep at h
  split at h
  · refine ⟨by assumption, ?_⟩
    simp only at h
    split at h
    · cases h
    · rename_i m hm
      split at h
      · cases h
      · rename_i u hu
        cases h
        exact ⟨m, hm, u, hu, rfl⟩
  · split at h <;> cases h

theorem foldInv_step {line : Str} {st st' : FoldSt} {ps : List Str} {b : Str}
    (hi : FoldInv line st ps b) (h : foldStep line st = .more st') :
    ∃ u v, b = u ++ v ∧ FoldInv line st' (ps ++ [u]) v ∧ st'.pos = st.pos + blen u := by
  obtain ⟨_, m, hm, u, hu, rfl⟩ := foldStep_more h
  have hle := backoff_le hm
  have hmn : m ≤ st.next := by split at hle <;> omega
  rw [← hi.pos_eq, hi.line_eq] at hu
  obtain ⟨h1, v, rfl, h2⟩ := slice_some hu
  have hpos := hi.pos_eq
  refine ⟨u, v, rfl, ?_, by simp only; omega⟩
  have hrem := hi.rem_eq
  rw [blen_append] at hrem
  constructor
  · rw [hi.line_eq]; simp
  · simp only [List.flatten_append, List.flatten_cons, List.flatten_nil, List.append_nil, blen_append]
    omega
  · simp only; omega
  · simp [hi.out_eq, folded]
  · simp
  · intro _; simp [foldLimit]
  · intro x hx
    cases ps with
    | nil =>
      simp at hx
      subst hx
      have := hi.first rfl
      simp at h2
      omega
    | cons p ps => exact hi.len_first x (by simpa using hx)
  · intro x hx
    cases ps with
    | nil => simp at hx
    | cons p ps =>
      simp only [List.cons_append, List.tail_cons, List.mem_append, List.mem_singleton] at hx
      rcases hx with hx | rfl
      · exact hi.len_rest x (by simpa using hx)
      · have := hi.later (by simp)
        omega

theorem foldInv_done {line : Str} {st : FoldSt} {ps : List Str} {b out : Str}
    (hi : FoldInv line st ps b) (h : foldStep line st = .done out) :
    out = folded ps ++ b ∧ blen b ≤ 75 := by
  unfold foldStep at h
  split at h
  · simp only at h
    split at h
    · cases h
    · split at h <;> cases h
  · rename_i hr
    have : blen line - st.rem = blen ps.flatten := by
      rw [hi.line_eq, blen_append, hi.rem_eq]; omega
    rw [this, hi.line_eq, sliceFrom_append] at h
    simp only at h
    cases h
    rw [hi.out_eq, hi.rem_eq]
    simp [foldLimit] at hr
    exact ⟨rfl, hr⟩

/-- the tail of the loop never panics: the remaining text is always a valid slice -/
theorem foldStep_rem_le {line : Str} {st : FoldSt} {ps : List Str} {b : Str}
    (hi : FoldInv line st ps b) (h : st.rem ≤ 75) : foldStep line st = .done (folded ps ++ b) := by
  unfold foldStep
  rw [if_neg (by simp [foldLimit]; omega)]
  have : blen line - st.rem = blen ps.flatten := by
    rw [hi.line_eq, blen_append, hi.rem_eq]; omega
  rw [this, hi.line_eq, sliceFrom_append, hi.out_eq]

/-! ### divergence -/

theorem foldStep_out {line : Str} {st st' : FoldSt} (o : Str) (h : foldStep line st = .more st') :
    ∃ o', foldStep line { st with out := o } = .more { st' with out := o' } := by
  obtain ⟨h0, m, hm, u, hu, rfl⟩ := foldStep_more h
  refine ⟨o ++ u ++ ['\r', '\n', ' '], ?_⟩
  unfold foldStep
  simp [h0, hm, hu]

/-- an iteration that leaves position, remainder and next position unchanged repeats forever -/
theorem foldRun_stuck {line : Str} {st st' : FoldSt} (h : foldStep line st = .more st')
    (h1 : st'.rem = st.rem) (h2 : st'.pos = st.pos) (h3 : st'.next = st.next) (n : Nat) (o : Str) :
    foldRun line n { st with out := o } = none := by
  induction n generalizing o with
  | zero => rfl
  | succ n ih =>
    obtain ⟨o', ho⟩ := foldStep_out o h
    unfold foldRun
    rw [ho]
    simp only
    have : ({ st' with out := o' } : FoldSt) = { st with out := o' } := by
      cases st; cases st'; simp_all
    rw [this]
    exact ih o'

/-- a boundary near the start of the line at which the first cut cannot be missed -/
def FirstCut (line : Str) : Prop :=
  ∃ b, 0 < b ∧ b ≤ 75 ∧ isBoundary line b = true ∧ wsAt line b = false

theorem foldRun_ok {line : Str} {n : Nat} {st : FoldSt} {ps : List Str} {b out : Str}
    (hi : FoldInv line st ps b) (h : foldRun line n st = some (.ok out)) :
    ∃ qs v, b = qs.flatten ++ v ∧ out = folded (ps ++ qs) ++ v ∧ blen v ≤ 75 ∧
      (∀ x ∈ (ps ++ qs).head?, blen x ≤ 75) ∧ (∀ x ∈ (ps ++ qs).tail, blen x ≤ 74) ∧
      (75 < st.rem → qs ≠ []) ∧ (qs ≠ [] → v ≠ []) ∧
      (∀ x ∈ if ps = [] then qs.tail else qs, x ≠ []) ∧
      (ps = [] → FirstCut line → ∀ x ∈ qs.head?, x ≠ []) := by
  induction n generalizing st ps b with
  | zero => simp [foldRun] at h
  | succ n ih =>
    have hrun := h
    unfold foldRun at h
    split at h
    · rename_i out' hd
      simp only [Option.some.injEq, Except.ok.injEq] at h
      subst h
      obtain ⟨h1, h2⟩ := foldInv_done hi hd
      refine ⟨[], b, by simp, by simp [h1], h2, by simpa using hi.len_first, by simpa using hi.len_rest, ?_,
        by simp, by simp, by simp⟩
      have := hi.rem_eq
      omega
    · simp at h
    · rename_i st' hm
      obtain ⟨u, v, rfl, hi', hpos⟩ := foldInv_step hi hm
      obtain ⟨qs, w, h1, h2, h3, h4, h5, h6, h7, h8, _⟩ := ih hi' h
      obtain ⟨hrem, m, hb, u', hu', hst'⟩ := foldStep_more hm
      have hne : ps ≠ [] → u ≠ [] := by
        intro hps hu
        subst hu
        have e1 : st'.pos = st.pos := by simpa [blen] using hpos
        have e2 : st'.rem = st.rem := by
          rw [← hi'.rem_eq, ← hi.rem_eq]; simp
        have e3 : st'.next = st.next := by
          rw [hi'.later (by simp), hi.later hps, e1]
        have := foldRun_stuck hm e2 e1 e3 (n + 1) st.out
        rw [hrun] at this
        cases this
      have hvw : w ≠ [] := by
        intro hw
        by_cases hq : qs = []
        · have : v = [] := by rw [h1, hq, hw]; rfl
          have hlen := hi'.rem_eq
          have hr := hi.rem_eq
          rw [blen_append, this] at hr
          simp only [blen, foldLimit] at hr hrem
          have hu75 : blen u ≤ 75 := by
            cases ps with
            | nil => exact hi'.len_first u (by simp)
            | cons p ps =>
              have := hi'.len_rest u (by simp)
              omega
          omega
        · exact h7 hq hw
      refine ⟨u :: qs, w, by simp [h1], by simpa using h2, h3, by simpa using h4, by simpa using h5, by simp,
        fun _ => hvw, ?_, ?_⟩
      · rw [if_neg (by simp)] at h8
        split
        · simpa using h8
        · rename_i hps
          intro x hx
          rcases List.mem_cons.1 hx with rfl | hx
          · exact hne hps
          · exact h8 x hx
      · rintro hps ⟨c, hc0, hc75, hcb, hcw⟩ x hx hx0
        simp only [List.head?_cons, Option.mem_def, Option.some.injEq] at hx
        have hxu : u = [] := hx.trans hx0
        have hst0 : st.pos = 0 := by rw [← hi.pos_eq, hps]; rfl
        have hpos0 : st'.pos = 0 := by rw [hpos, hst0, hxu]; rfl
        have hn : st.next = 75 := hi.first hps
        have : c ≤ if wsAt line st.next then st.next - 1 else st.next := by
          split
          · rename_i hw
            have : c ≠ st.next := by rintro rfl; simp_all
            omega
          · omega
        obtain ⟨m', hm', hcm⟩ := backoff_ge hcb hcw this
        rw [hb] at hm'
        cases hm'
        rw [hst'] at hpos0
        simp only at hpos0
        omega

/-- shape of a finished run -/
theorem foldLine_ok {line out : Str} (h : foldLine line = .ok out) :
    ∃ qs v, line = qs.flatten ++ v ∧ out = folded qs ++ v ∧ blen v ≤ 75 ∧
      (∀ x ∈ qs.head?, blen x ≤ 75) ∧ (∀ x ∈ qs.tail, blen x ≤ 74) ∧ (75 < blen line → qs ≠ []) ∧
      (qs ≠ [] → v ≠ []) ∧ (∀ x ∈ qs.tail, x ≠ []) ∧ (FirstCut line → ∀ x ∈ qs.head?, x ≠ []) := by
  unfold foldLine at h
  split at h
  · rename_i r hr
    subst h
    obtain ⟨qs, v, h1, h2, h3, h4, h5, h6, h7, h8, h9⟩ := foldRun_ok (foldInv_init line) hr
    exact ⟨qs, v, h1, by simpa using h2, h3, by simpa using h4, by simpa using h5,
      by simpa [foldInit] using h6, h7, by simpa using h8, h9 rfl⟩
  · cases h

theorem foldRun_mono {line : Str} {n k : Nat} {st : FoldSt} {r : Except Crash Str}
    (h : foldRun line n st = some r) : foldRun line (n + k) st = some r := by
  induction n generalizing st with
  | zero => simp [foldRun] at h
  | succ n ih =>
    rw [Nat.add_right_comm]
    unfold foldRun at h ⊢
    split at h <;> simp_all

/-- a bound on the number of iterations of a run that finishes -/
def foldFuel (st : FoldSt) : Nat := st.rem + (if st.next = st.pos + 74 then 0 else 1) + 1

theorem foldRun_none {line : Str} (k : Nat) {st : FoldSt} (hk : foldFuel st ≤ k)
    (h : foldRun line k st = none) (n : Nat) : foldRun line n st = none := by
  induction k generalizing st n with
  | zero => simp [foldFuel] at hk
  | succ k ih =>
    cases n with
    | zero => rfl
    | succ n =>
      unfold foldRun at h ⊢
      split at h
      · cases h
      · cases h
      · rename_i st' hm
        obtain ⟨h0, m, hb, u, hu, hst'⟩ := foldStep_more hm
        have hpm : st.pos ≤ m := by
          unfold slice at hu
          split at hu
          · assumption
          · cases hu
        have hn' : st'.next = st'.pos + 74 := by simp [hst', foldLimit]
        by_cases hp : m = st.pos
        · by_cases hq : st.next = st.pos + 74
          · have hr : st'.rem = st.rem := by simp [hst', hp]
            have hs : st'.pos = st.pos := by simp [hst', hp]
            have ht : st'.next = st.next := by simp [hst', hp, hq, foldLimit]
            have := foldRun_stuck hm hr hs ht n st'.out
            have e : ({ st with out := st'.out } : FoldSt) = st' := by
              cases st; cases st'; simp_all
            rw [e] at this
            exact this
          · refine ih ?_ h n
            simp only [foldFuel, hn', hq, if_true, if_false] at hk ⊢
            simp [hst', hp]
            omega
        · refine ih ?_ h n
          simp only [foldFuel, hn', if_true] at hk ⊢
          simp only [foldLimit] at h0
          have : st'.rem = st.rem - (m - st.pos) := by simp [hst']
          omega

/-- `foldLine` reports `hang` exactly when no number of iterations ends the loop -/
theorem foldLine_hang_iff (line : Str) :
    foldLine line = .error .hang ↔ ∀ n, foldRun line n (foldInit line) = none := by
  constructor
  · intro h
    unfold foldLine at h
    split at h
    · rename_i r hr
      subst h
      exfalso
      have : ∀ n st, foldRun line n st ≠ some (.error .hang) := by
        intro n
        induction n with
        | zero => intro st; simp [foldRun]
        | succ n ih =>
          intro st h
          unfold foldRun at h
          split at h
          · cases h
          · cases h
          · exact ih _ h
      exact this _ _ hr
    · rename_i hr
      apply foldRun_none _ _ hr
      simp [foldFuel, foldInit, foldLimit]
  · intro h
    simp [foldLine, h]

/-- `foldLine` gives the result of the loop whenever the loop ends -/
theorem foldLine_of_run {line : Str} {n : Nat} {r : Except Crash Str}
    (h : foldRun line n (foldInit line) = some r) : foldLine line = r := by
  unfold foldLine
  split
  · rename_i r' hr
    have h1 := foldRun_mono (k := blen line + 2) h
    have h2 := foldRun_mono (k := n) hr
    rw [Nat.add_comm] at h1
    rw [h1] at h2
    exact (Option.some.inj h2).symm
  · rename_i hr
    have : foldRun line n (foldInit line) = none := by
      apply foldRun_none _ _ hr
      simp [foldFuel, foldInit, foldLimit]
    rw [this] at h
    cases h

end Ical
