import Verif.Spec.FoldExact
import Verif.Props.Folding

/-!
C02, C03 and C79 for all lines: what folding does, when it goes on forever and when it panics.
-/

namespace Ical

open Spec

theorem between_iff {line : Str} {p : Nat} : Between line p ↔ isBoundary line p = true := isBoundary_iff.symm

theorem whiteAt_iff {line : Str} {n : Nat} : WhiteAt line n ↔ wsAt line n = true := by
  induction line generalizing n with
  | nil => simp [WhiteAt, wsAt]
  | cons c s ih =>
    constructor
    · rintro ⟨a, d, b, h1, h2, h3⟩
      cases a with
      | nil =>
        simp at h1 h2
        obtain ⟨rfl, rfl⟩ := h1
        subst h2
        simp [wsAt, (whitespace_table c).2 h3]
      | cons x a =>
        simp at h1 h2
        obtain ⟨rfl, rfl⟩ := h1
        subst h2
        rw [wsAt]
        exact ih.1 ⟨a, d, b, rfl, rfl, h3⟩
    · intro h
      cases n with
      | zero => exact ⟨[], c, s, rfl, rfl, (whitespace_table c).1 (by simpa [wsAt] using h)⟩
      | succ n =>
        rw [wsAt] at h
        obtain ⟨a, d, b, rfl, rfl, h3⟩ := ih.2 h
        exact ⟨c :: a, d, b, rfl, rfl, h3⟩

theorem lands_iff {line : Str} {n m : Nat} : Lands line n m ↔ backoff line n = some m := by
  constructor
  · intro h
    induction h with
    | here n h => exact backoff_self (between_iff.1 h)
    | left n m h1 h2 _ ih =>
      rw [between_iff] at h1
      rw [whiteAt_iff] at h2
      cases n with
      | zero =>
        simp only [backoff, Option.some.injEq] at ih
        subst ih
        rw [backoff, if_neg h1, if_neg h2]
      | succ n => rw [backoff, if_neg h1, if_neg h2, ih]
    | jump n m h1 h2 _ ih =>
      rw [between_iff] at h1
      rw [whiteAt_iff] at h2
      rw [backoff, if_neg h1, if_pos h2, ih]
  · intro h
    fun_induction backoff line n with
    | case1 => cases h; exact .here 0 (between_iff.2 (by simp [isBoundary]))
    | case2 h1 => cases h; exact .here 1 (between_iff.2 h1)
    | case3 => cases h
    | case4 h1 h2 =>
      cases h
      exact .left 0 0 (by rwa [between_iff]) (by rwa [whiteAt_iff]) (.here 0 (between_iff.2 (by simp [isBoundary])))
    | case5 m' h1 => cases h; exact .here _ (between_iff.2 h1)
    | case6 m' h1 h2 ih => exact .jump _ _ (by rwa [between_iff]) (by rwa [whiteAt_iff]) (ih h)
    | case7 m' h1 h2 ih => exact .left _ _ (by rwa [between_iff]) (by rwa [whiteAt_iff]) (ih h)

theorem cutFrom_iff {line : Str} {n q : Nat} (hn : 0 < n) :
    CutFrom line n q ↔ backoff line (if wsAt line n then n - 1 else n) = some q := by
  unfold CutFrom
  simp only [whiteAt_iff, lands_iff]
  by_cases h : wsAt line n = true
  · rw [if_pos h]
    constructor
    · rintro (⟨h1, -⟩ | ⟨m, rfl, -, h2⟩)
      · exact absurd h h1
      · simpa using h2
    · intro h'
      exact .inr ⟨n - 1, by omega, h, h'⟩
  · rw [if_neg h]
    constructor
    · rintro (⟨-, h1⟩ | ⟨m, rfl, h1, -⟩)
      · exact h1
      · exact absurd h1 h
    · intro h'
      exact .inl ⟨h, h'⟩

theorem cutFrom_unique {line : Str} {n q r : Nat} (hn : 0 < n) (h : CutFrom line n q) (h' : CutFrom line n r) : q = r := by
  rw [cutFrom_iff hn] at h h'
  rw [h] at h'
  exact Option.some.inj h'

/-- one iteration that goes on -/
theorem foldStep_cut {line : Str} {st : FoldSt} {ps : List Str} {b : Str} (hi : FoldInv line st ps b) (hr : 75 < st.rem)
    {q : Nat} (hn : 0 < st.next) (hq : CutFrom line st.next q) (hp : st.pos ≤ q) :
    ∃ u v, b = u ++ v ∧ q = st.pos + blen u ∧ ∃ st', foldStep line st = .more st' ∧ FoldInv line st' (ps ++ [u]) v ∧
      st'.pos = q ∧ st'.next = q + 74 ∧ st'.rem = st.rem - (q - st.pos) := by
  rw [cutFrom_iff hn] at hq
  have hb := backoff_boundary hq
  rw [hi.line_eq] at hb
  obtain ⟨u, v, huv, hu, hs⟩ := slice_of_boundary hb (by rw [hi.pos_eq]; omega)
  rw [← hi.line_eq, hi.pos_eq] at hs
  have hstep : foldStep line st =
      .more { out := st.out ++ u ++ ['\r', '\n', ' '], rem := st.rem - (q - st.pos), pos := q,
              next := q + (foldLimit - 1) } := by
    unfold foldStep
    rw [if_pos (by simp [foldLimit]; omega)]
    simp [hq, hs]
  obtain ⟨u', v', h1, h2, h3⟩ := foldInv_step hi hstep
  have hu' : u' = u := by
    have e : blen u' = blen u := by simp only at h3; rw [hi.pos_eq] at hu; omega
    have := huv ▸ h1
    rcases List.append_eq_append_iff.1 this with ⟨t, h4, h5⟩ | ⟨t, h4, h5⟩
    · rw [h4, blen_append] at e
      have : t = [] := blen_eq_zero.1 (by omega)
      simp [h4, this]
    · rw [h4, blen_append] at e
      have : t = [] := blen_eq_zero.1 (by omega)
      simp [h4, this]
  subst hu'
  exact ⟨u', v', h1, by simpa using h3, _, hstep, h2, rfl, by simp [foldLimit], rfl⟩

/-- one iteration that panics -/
theorem foldStep_nocut {line : Str} {st : FoldSt} (hr : 75 < st.rem) (hn : 0 < st.next)
    (h : ∀ q, CutFrom line st.next q → q < st.pos) : foldStep line st = .panic := by
  unfold foldStep
  rw [if_pos (by simp [foldLimit]; omega)]
  simp only
  cases hb : backoff line (if wsAt line st.next then st.next - 1 else st.next) with
  | none => rfl
  | some q =>
    have := h q ((cutFrom_iff hn).2 hb)
    simp only
    rw [slice, if_neg (by omega)]

theorem inv_len {line : Str} {st : FoldSt} {ps : List Str} {b : Str} (hi : FoldInv line st ps b) :
    blen line = st.pos + st.rem := by
  rw [hi.line_eq, blen_append, hi.pos_eq, hi.rem_eq]

/-- the state reached at a cut -/
theorem reaches_run {line : Str} {p w : Nat} (h : Reaches line p w) :
    ∃ k st ps b, FoldInv line st ps b ∧ st.pos = p ∧ st.next = p + w ∧ 74 ≤ w ∧
      ∀ n, foldRun line (k + n) (foldInit line) = foldRun line n st := by
  induction h with
  | start => exact ⟨0, foldInit line, [], line, foldInv_init line, rfl, rfl, by omega, fun n => by rw [Nat.zero_add]⟩
  | next p w q _ h1 h2 h3 ih =>
    obtain ⟨k, st, ps, b, hi, e1, e2, hw, hrun⟩ := ih
    have := inv_len hi
    rw [← e2] at h2
    obtain ⟨u, v, hb, hq, st', hs, hi', e3, e4, -⟩ := foldStep_cut hi (by omega) (by omega) h2 (by omega)
    refine ⟨k + 1, st', _, _, hi', e3, e4, by omega, ?_⟩
    intro n
    rw [Nat.add_assoc, Nat.add_comm 1 n, hrun, foldRun, hs]

theorem pieces_ne_nil {line : Str} {p w : Nat} {ps : List Str} (h : Pieces line p w ps) : ps ≠ [] := by
  generalize hp : p = p' at h
  cases h <;> simp

/-- how a run that has come to some position goes on -/
theorem foldRun_outcome {line : Str} : ∀ (k : Nat) (st : FoldSt) (ps : List Str) (b : Str) (w : Nat), foldFuel st ≤ k →
    FoldInv line st ps b → st.next = st.pos + w → (w = 74 ∨ w = 75) → Reaches line st.pos w →
    (∃ n qs, foldRun line n st = some (.ok (folded ps ++ joinFold qs)) ∧ Pieces line st.pos w qs) ∨
    (∃ p w, Reaches line p w ∧ p + 75 < blen line ∧ ∀ q, CutFrom line (p + w) q → q < p) ∨
    ∃ p, Reaches line p 74 ∧ p + 75 < blen line ∧ CutFrom line (p + 74) p := by
  intro k
  induction k with
  | zero => intro st ps b w hk; simp [foldFuel] at hk
  | succ k ih =>
    intro st ps b w hk hi hn hw hre
    have hlen := inv_len hi
    by_cases hr : st.rem ≤ 75
    · left
      refine ⟨1, [b], ?_, ?_⟩
      · rw [foldRun, foldStep_rem_le hi hr]
        simp [joinFold]
      · rw [← hi.pos_eq]
        exact .last w _ b hi.line_eq (by rw [hi.rem_eq]; exact hr)
    · by_cases hc : ∃ q, CutFrom line st.next q ∧ st.pos ≤ q
      · obtain ⟨q, hq, hpq⟩ := hc
        by_cases hst : q = st.pos ∧ w = 74
        · right; right
          obtain ⟨h1, rfl⟩ := hst
          rw [hn, h1] at hq
          exact ⟨st.pos, hre, by omega, hq⟩
        · obtain ⟨u, v, hb, hqu, st', hs, hi', e3, e4, e5⟩ := foldStep_cut hi (by omega) (by omega) hq hpq
          have hre' : Reaches line st'.pos 74 := by
            rw [e3]; exact .next st.pos w q hre (by omega) (hn ▸ hq) hpq
          have hf : foldFuel st' ≤ k := by
            simp only [foldFuel] at hk ⊢
            rw [e3, e4, e5, if_pos rfl]
            split at hk
            · have : w = 74 := by omega
              have : q ≠ st.pos := fun h => hst ⟨h, this⟩
              omega
            · omega
          rcases ih st' _ _ 74 hf hi' (by rw [e3, e4]) (.inl rfl) hre' with ⟨n, qs, h1, h2⟩ | h | h
          · left
            refine ⟨n + 1, u :: qs, ?_, ?_⟩
            · rw [foldRun, hs]
              simp only
              rw [h1]
              have hne : qs ≠ [] := pieces_ne_nil h2
              cases qs with
              | nil => exact absurd rfl hne
              | cons x qs => simp [folded, joinFold]
            · rw [e3, hqu, ← hi.pos_eq] at h2
              rw [hqu, hn, ← hi.pos_eq] at hq
              rw [← hi.pos_eq]
              exact .cut w _ u v qs (by rw [← hb]; exact hi.line_eq) (by rw [← hb, hi.rem_eq]; omega) hq h2
          · exact .inr (.inl h)
          · exact .inr (.inr h)
      · right; left
        refine ⟨st.pos, w, hre, by omega, ?_⟩
        intro q hq
        rw [← hn] at hq
        exact Nat.lt_of_not_le fun h => hc ⟨q, hq, h⟩

theorem foldLine_hangs {line : Str} {p : Nat} (h : Reaches line p 74) (hl : p + 75 < blen line)
    (hc : CutFrom line (p + 74) p) : foldLine line = .error .hang := by
  obtain ⟨k, st, ps, b, hi, e1, e2, -, hrun⟩ := reaches_run h
  have := inv_len hi
  rw [← e2] at hc
  obtain ⟨u, v, hb, hq, st', hs, hi', e3, e4, e5⟩ := foldStep_cut hi (by omega) (by omega) hc (by omega)
  rw [foldLine_hang_iff]
  intro n
  have h1 : ∀ n, foldRun line n st = none := by
    intro n
    have := foldRun_stuck hs (by omega) (by omega) (by omega) n st.out
    simpa using this
  cases hr : foldRun line n (foldInit line) with
  | none => rfl
  | some r =>
    have h2 := foldRun_mono (k := k) hr
    rw [Nat.add_comm, hrun, h1] at h2
    cases h2

theorem foldLine_panics {line : Str} {p w : Nat} (h : Reaches line p w) (hl : p + 75 < blen line)
    (hc : ∀ q, CutFrom line (p + w) q → q < p) : foldLine line = .error .panic := by
  obtain ⟨k, st, ps, b, hi, e1, e2, hw, hrun⟩ := reaches_run h
  have := inv_len hi
  rw [← e2, ← e1] at hc
  have hs := foldStep_nocut (by omega) (by omega) hc
  refine foldLine_of_run (n := k + 1) ?_
  rw [hrun, foldRun, hs]

theorem foldLine_outcome (line : Str) :
    (∃ ps, foldLine line = .ok (joinFold ps) ∧ Pieces line 0 75 ps) ∨
    (∃ p w, Reaches line p w ∧ p + 75 < blen line ∧ ∀ q, CutFrom line (p + w) q → q < p) ∨
    ∃ p, Reaches line p 74 ∧ p + 75 < blen line ∧ CutFrom line (p + 74) p := by
  rcases foldRun_outcome _ (foldInit line) [] line 75 (Nat.le_refl _) (foldInv_init line) rfl (.inr rfl) .start with
    ⟨n, qs, h1, h2⟩ | h | h
  · exact .inl ⟨qs, by simpa [folded] using foldLine_of_run h1, h2⟩
  · exact .inr (.inl h)
  · exact .inr (.inr h)

theorem append_unique {a b c d : Str} (h : a ++ b = c ++ d) (hl : blen a = blen c) : a = c ∧ b = d := by
  rcases List.append_eq_append_iff.1 h with ⟨t, h4, h5⟩ | ⟨t, h4, h5⟩
  · rw [h4, blen_append] at hl
    have : t = [] := blen_eq_zero.1 (by omega)
    subst this
    exact ⟨by simpa using h4.symm, by simpa using h5⟩
  · rw [h4, blen_append] at hl
    have : t = [] := blen_eq_zero.1 (by omega)
    subst this
    exact ⟨by simpa using h4, by simpa using h5.symm⟩

theorem pieces_run {line : Str} {p w : Nat} {qs : List Str} (h : Pieces line p w qs) :
    ∀ (st : FoldSt) (ps : List Str) (b : Str), FoldInv line st ps b → st.pos = p → st.next = p + w → 0 < w →
      ∃ n, foldRun line n st = some (.ok (folded ps ++ joinFold qs)) := by
  induction h with
  | last w a b h1 h2 =>
    intro st ps b' hi e1 e2 hw
    obtain ⟨-, rfl⟩ := append_unique (hi.line_eq.symm.trans h1) (by rw [hi.pos_eq, e1])
    refine ⟨1, ?_⟩
    rw [foldRun, foldStep_rem_le hi (by rw [← hi.rem_eq]; exact h2)]
    simp [joinFold]
  | cut w a u b qs h1 h2 h3 h4 ih =>
    intro st ps b' hi e1 e2 hw
    obtain ⟨-, rfl⟩ := append_unique (hi.line_eq.symm.trans h1) (by rw [hi.pos_eq, e1])
    rw [← e2] at h3
    obtain ⟨u', v, hb, hqu, st', hs, hi', e3, e4, e5⟩ :=
      foldStep_cut hi (by rw [← hi.rem_eq]; exact h2) (by omega) h3 (by omega)
    obtain ⟨rfl, rfl⟩ := append_unique hb (by omega)
    obtain ⟨n, hn⟩ := ih st' _ _ hi' e3 e4 (by omega)
    refine ⟨n + 1, ?_⟩
    rw [foldRun, hs]
    simp only
    rw [hn]
    cases qs with
    | nil => exact absurd rfl (pieces_ne_nil h4)
    | cons x qs => simp [folded, joinFold]

/-- **C79, C02, C03 (for all lines).** Folding finishes exactly when there is a way to cut the line into pieces, each cut made
where the search for it ends; the pieces are then joined by CR LF SPACE. -/
theorem fold_exact (line out : Str) : foldLine line = .ok out ↔ ∃ ps, Pieces line 0 75 ps ∧ out = joinFold ps := by
  constructor
  · intro h
    rcases foldLine_outcome line with ⟨ps, h1, h2⟩ | ⟨p, w, h1, h2, h3⟩ | ⟨p, h1, h2, h3⟩
    · rw [h] at h1
      exact ⟨ps, h2, Except.ok.inj h1⟩
    · have := foldLine_panics h1 h2 h3
      rw [h] at this
      cases this
    · have := foldLine_hangs h1 h2 h3
      rw [h] at this
      cases this
  · rintro ⟨ps, h1, rfl⟩
    obtain ⟨n, hn⟩ := pieces_run h1 (foldInit line) [] line (foldInv_init line) rfl rfl (by omega)
    simpa [folded] using foldLine_of_run hn

/-- **C03 (for all lines).** Folding finishes exactly when each search for a cut ends to the right of the last cut; the first
may end at the start of the line. -/
theorem fold_finishes_iff (line : Str) : (∃ out, foldLine line = .ok out) ↔
    ∀ p w, Reaches line p w → p + 75 < blen line → ∃ q, CutFrom line (p + w) q ∧ (p < q ∨ p = q ∧ w = 75) := by
  constructor
  · rintro ⟨out, h⟩ p w h1 h2
    apply Classical.byContradiction
    intro h3
    by_cases h4 : ∀ q, CutFrom line (p + w) q → q < p
    · have := foldLine_panics h1 h2 h4
      rw [h] at this
      cases this
    · simp only [Classical.not_forall, Nat.not_lt] at h4
      obtain ⟨q, hq, hpq⟩ := h4
      have h5 : q = p ∧ w ≠ 75 := by
        refine ⟨Classical.byContradiction fun hne => h3 ⟨q, hq, .inl (by omega)⟩, ?_⟩
        rintro rfl
        exact h3 ⟨q, hq, by omega⟩
      obtain ⟨rfl, h6⟩ := h5
      have hw : w = 74 := by cases h1 <;> simp_all
      subst hw
      have := foldLine_hangs h1 h2 hq
      rw [h] at this
      cases this
  · intro H
    rcases foldLine_outcome line with ⟨ps, h1, -⟩ | ⟨p, w, h1, h2, h3⟩ | ⟨p, h1, h2, h3⟩
    · exact ⟨_, h1⟩
    · obtain ⟨q, h4, h5⟩ := H p w h1 h2
      have := h3 q h4
      omega
    · obtain ⟨q, h4, h5⟩ := H p 74 h1 h2
      have := cutFrom_unique (by omega) h3 h4
      omega

/-- **C03 (for all lines).** Folding goes on forever exactly when, after some cut, the search for the next ends at that same
cut. -/
theorem fold_hangs_iff (line : Str) : (∀ n, foldRun line n (foldInit line) = none) ↔
    ∃ p, Reaches line p 74 ∧ p + 75 < blen line ∧ CutFrom line (p + 74) p := by
  rw [← foldLine_hang_iff]
  constructor
  · intro h
    rcases foldLine_outcome line with ⟨ps, h1, -⟩ | ⟨p, w, h1, h2, h3⟩ | h1
    · rw [h] at h1; cases h1
    · have := foldLine_panics h1 h2 h3
      rw [h] at this
      cases this
    · exact h1
  · rintro ⟨p, h1, h2, h3⟩
    exact foldLine_hangs h1 h2 h3

/-- **C03 (for all lines).** Folding panics exactly when, after some cut, the search for the next ends before that cut, or at
no place at all. -/
theorem fold_panics_iff (line : Str) : foldLine line = .error .panic ↔
    ∃ p w, Reaches line p w ∧ p + 75 < blen line ∧ ∀ q, CutFrom line (p + w) q → q < p := by
  constructor
  · intro h
    rcases foldLine_outcome line with ⟨ps, h1, -⟩ | h1 | ⟨p, h1, h2, h3⟩
    · rw [h] at h1; cases h1
    · exact h1
    · have := foldLine_hangs h1 h2 h3
      rw [h] at this
      cases this
  · rintro ⟨p, w, h1, h2, h3⟩
    exact foldLine_panics h1 h2 h3

theorem pieces_text {line : Str} {p w : Nat} {ps : List Str} (h : Pieces line p w ps) :
    ∃ a, line = a ++ ps.flatten ∧ blen a = p ∧ ∀ qs v, ps = qs ++ [v] → blen v ≤ 75 := by
  induction h with
  | last w a b h1 h2 =>
    refine ⟨a, by simpa using h1, rfl, ?_⟩
    intro qs v he
    cases qs with
    | nil => obtain rfl : b = v := by simpa using he
             exact h2
    | cons q qs => simp at he
  | cut w a u b ps h1 h2 h3 h4 ih =>
    obtain ⟨a', h5, h6, h7⟩ := ih
    refine ⟨a, ?_, rfl, ?_⟩
    · obtain ⟨rfl, -⟩ := append_unique (a := a ++ u) (b := b) ((by rw [List.append_assoc, ← h1] : a ++ u ++ b = line).trans h5)
        (by rw [blen_append, h6])
      rw [h5]; simp
    · intro qs v he
      cases qs with
      | nil => exact absurd (by simpa using (List.cons.inj he).2) (pieces_ne_nil h4)
      | cons q qs => exact h7 qs v (List.cons.inj he).2

/-- **C02 (for all lines).** A physical line is too long exactly if the line is cut and exactly 75 octets are left after the
last cut. -/
theorem fold_too_long_iff (line out : Str) (hl : '\n' ∉ line) (h : foldLine line = .ok out) :
    (∃ l ∈ physicalLines out, 75 < blen l) ↔ ∃ qs v, qs ≠ [] ∧ Pieces line 0 75 (qs ++ [v]) ∧ blen v = 75 := by
  obtain ⟨ps, hp, rfl⟩ := (fold_exact line out).1 h
  obtain ⟨h1, -, -⟩ := fold_octets_partial line _ hl h
  obtain ⟨a, hf, ha, hle⟩ := pieces_text hp
  obtain rfl : a = [] := blen_eq_zero.1 ha
  rw [List.nil_append] at hf
  have huniq : ∀ ps', Pieces line 0 75 ps' → ps' = ps := by
    intro ps' hp'
    have h2 := (fold_exact line _).2 ⟨ps', hp', rfl⟩
    rw [h] at h2
    have he := Except.ok.inj h2
    obtain ⟨a', hf', ha', -⟩ := pieces_text hp'
    obtain rfl : a' = [] := blen_eq_zero.1 ha'
    rw [List.nil_append] at hf'
    have lf : ∀ x ∈ ps, '\n' ∉ x := fun x hx hn => hl (by rw [hf]; exact List.mem_flatten.2 ⟨x, hx, hn⟩)
    have lf' : ∀ x ∈ ps', '\n' ∉ x := fun x hx hn => hl (by rw [hf']; exact List.mem_flatten.2 ⟨x, hx, hn⟩)
    cases ps with
    | nil => exact absurd rfl (pieces_ne_nil hp)
    | cons x xs =>
      cases ps' with
      | nil => exact absurd rfl (pieces_ne_nil hp')
      | cons y ys =>
        have e := congrArg physicalLines he
        rw [physicalLines_joinFold x xs lf, physicalLines_joinFold y ys lf'] at e
        obtain ⟨rfl, e2⟩ := List.cons.inj e
        rw [List.map_inj_right (fun _ _ h => (List.cons.inj h).2)] at e2
        rw [e2]
  rcases List.eq_nil_or_concat ps with rfl | ⟨qs, v, rfl⟩
  · exact absurd rfl (pieces_ne_nil hp)
  · rw [List.concat_eq_append] at *
    have hle := hle qs v rfl
    cases qs with
    | nil =>
      have hv : '\n' ∉ v := fun hn => hl (by rw [hf]; simpa using hn)
      rw [show joinFold ([] ++ [v]) = v from rfl, physicalLines_noLf hv]
      constructor
      · rintro ⟨l, hm, hlt⟩
        rw [List.mem_singleton.1 hm] at hlt
        omega
      · rintro ⟨qs, u, hq, he, -⟩
        have := congrArg List.length (huniq _ he)
        cases qs with
        | nil => exact absurd rfl hq
        | cons => simp at this
    | cons q qs =>
      have hlf : ∀ x ∈ q :: (qs ++ [v]), '\n' ∉ x := fun x hx hn =>
        hl (by rw [hf]; exact List.mem_flatten.2 ⟨x, hx, hn⟩)
      have hpl := physicalLines_joinFold q (qs ++ [v]) hlf
      rw [List.cons_append, hpl]
      rw [List.cons_append, hpl, List.map_append, List.map_singleton, ← List.cons_append, List.dropLast_concat] at h1
      have hsp : (' ').utf8Size = 1 := by decide
      have hv : blen (' ' :: v) = blen v + 1 := by rw [blen]; omega
      constructor
      · rintro ⟨l, hm, hlt⟩
        rw [List.map_append, List.map_singleton, ← List.cons_append] at hm
        rcases List.mem_append.1 hm with hm | hm
        · have := h1 l hm
          omega
        · rw [List.mem_singleton.1 hm] at hlt
          exact ⟨q :: qs, v, by simp, hp, by omega⟩
      · rintro ⟨qs', u, -, he, hu⟩
        obtain ⟨-, e⟩ := List.append_inj' (huniq _ he) rfl
        simp only [List.cons.injEq, and_true] at e
        subst e
        exact ⟨' ' :: u, by simp, by omega⟩

/-- the witness of `fold_diverges`: the search for the second cut ends at the first -/
example : let line := c!"SUMMARY:" ++ (List.replicate 60 [Char.ofNat 0xA0, 'é']).flatten
    ∃ p, Reaches line p 74 ∧ p + 75 < blen line ∧ CutFrom line (p + 74) p := by
  refine ⟨7, .next 0 75 7 .start (by decide +kernel) ?_ (by omega), by decide +kernel, ?_⟩ <;>
  · rw [cutFrom_iff (by omega)]
    decide +kernel

/-- the witness of `fold_panics`: the search for the second cut ends before the first -/
example : let line := c!"SUMMARY:" ++ (List.replicate 22 'a' ++ List.replicate 120 (Char.ofNat 0xA0))
    ∃ p w, Reaches line p w ∧ p + 75 < blen line ∧ (∀ q, CutFrom line (p + w) q → q < p) ∧ ∃ q, CutFrom line (p + w) q := by
  refine ⟨74, 74, .next 0 75 74 .start (by decide +kernel) ?_ (by omega), by decide +kernel, ?_, 29, ?_⟩
  · rw [cutFrom_iff (by omega)]
    decide +kernel
  · intro q hq
    rw [cutFrom_iff (by omega)] at hq
    have : ∀ q ∈ backoff (c!"SUMMARY:" ++ (List.replicate 22 'a' ++ List.replicate 120 (Char.ofNat 0xA0)))
        (if wsAt (c!"SUMMARY:" ++ (List.replicate 22 'a' ++ List.replicate 120 (Char.ofNat 0xA0))) (74 + 74)
          then 74 + 74 - 1 else 74 + 74), q < 74 := by decide +kernel
    exact this q hq
  · rw [cutFrom_iff (by omega)]
    decide +kernel

/-- a line of two-octet characters and spaces, neither ASCII nor without whitespace -/
example : let line := 'a' :: List.replicate 60 'é' ++ List.replicate 20 ' '
    Pieces line 0 75 ['a' :: List.replicate 29 'é', List.replicate 31 'é' ++ List.replicate 12 ' ', List.replicate 8 ' '] := by
  refine .cut 75 [] ('a' :: List.replicate 29 'é') (List.replicate 31 'é' ++ List.replicate 20 ' ') _ (by decide +kernel)
    (by decide +kernel) ?_ (.cut 74 ('a' :: List.replicate 29 'é') (List.replicate 31 'é' ++ List.replicate 12 ' ')
      (List.replicate 8 ' ') _ (by decide +kernel) (by decide +kernel) ?_
      (.last 74 ('a' :: List.replicate 60 'é' ++ List.replicate 12 ' ') (List.replicate 8 ' ') (by decide +kernel)
        (by decide +kernel))) <;>
  · rw [cutFrom_iff (by decide +kernel)]
    decide +kernel

end Ical
