import Verif.Proofs.WorkLoop

/-!
The steps taken by reading any text: cubic in its length, and doubling at most with every place at which `BEGIN:`
stands.
-/

namespace Ical
open Spec (opens opensCount NameChar IsName Blank PropReads CompReads BodyReads Break closes)
open Nom (shrinks_many0 shrinks_lineEnding shrinks_tag)

/-- a text that is left after something of a text that opens a component has `BEGIN:` at fewer places -/
theorem opensCount_tail {i r : Str} (ho : opens i = true) (h : r <:+ i) (hl : r.length < i.length) :
    opensCount r + 1 ≤ opensCount i := by
  cases i with
  | nil => simp at hl
  | cons c s =>
    have h1 : r <:+ s := by
      obtain ⟨a, ha⟩ := h
      cases a with
      | nil => simp at ha; subst ha; simp at hl
      | cons d a => simp at ha; exact ⟨a, ha.2⟩
    have := opensCount_suffix h1
    simp only [opensCount, ho, if_true]
    omega

variable [Uni]

/-- a property parser at a place that opens a component consumes something -/
theorem property_opens {i r : Str} {p : PProp} (ho : opens i = true) (h : property i = .ok r p) :
    r.length < i.length := by
  obtain ⟨t, rfl, hn, -, -, ht⟩ := reads_property _ _ _ h
  have : t ≠ [] := by
    rintro rfl
    rcases ht with ⟨white, params, raw, br, -, -, -, -, -, ht⟩ | ⟨-, -, br, -, ht, hf⟩
    · simp at ht
    · have hbr : br = [] := by
        have := (List.append_eq_nil_iff.1 ht.symm).2
        exact this
      subst hbr
      have := (no_keyword (f := r) (fun c hc => (hf c (by simpa using hc)).1)).1
      simp [this] at ho
  have := List.length_pos_iff.2 this
  simp
  omega

namespace MP

/-- what is known about the parser for inner components, for any text shorter than `N` -/
structure RecAny (N : Nat) (rec : MP PComp) : Prop where
  reads : Reads rec.run CompReads
  any : ∀ j, j.length < N → ∀ k, opensCount j ≤ k + 1 → rec.cost j ≤ 150 * (N * N) * j.length * 2 ^ k + 20 * N
  quick : ∀ j, j.length < N → Nom.lineEnding j = .error → opens j = false →
    (∀ r x, rec.run j ≠ .ok r x) ∧ rec.cost j ≤ 20 * N

theorem RecAny.shrinks {N : Nat} {rec : MP PComp} (h : RecAny N rec) : Shrinks rec.run := by
  intro i r x hr
  obtain ⟨t, rfl, -⟩ := h.reads _ _ _ hr
  exact List.suffix_append _ _

theorem RecAny.shorter {N : Nat} {rec : MP PComp} (h : RecAny N rec) {i r : Str} {x : PComp}
    (hr : rec.run i = .ok r x) : r.length < i.length := by
  obtain ⟨t, rfl, ht⟩ := h.reads _ _ _ hr
  cases ht with
  | mk h1 h2 h3 h4 h5 h6 h7 h8 h9 =>
    have := congrArg List.length h2
    simp at this
    simp
    omega

omit [Uni] in
theorem any_step {P Q i r : Nat} (h : r < i) (hQ : 1 ≤ Q) : P + P * (r + 1) * Q ≤ P * (i + 1) * Q := by
  have h1 : P * (r + 1) * Q + P * Q = P * (r + 1 + 1) * Q := by
    rw [Nat.mul_add P (r + 1) 1, Nat.add_mul, Nat.mul_one]
  have h2 : P ≤ P * Q := Nat.le_mul_of_pos_right _ hQ
  have h3 : P * (r + 1 + 1) * Q ≤ P * (i + 1) * Q := Nat.mul_le_mul_right _ (Nat.mul_le_mul_left _ (by omega))
  omega

omit [Uni] in
theorem any_stop {P Q i a : Nat} (h : a ≤ i) (hQ : 1 ≤ Q) : P + P * a * Q ≤ P * (i + 1) * (Q * 2) := by
  have h2 : P ≤ P * Q := Nat.le_mul_of_pos_right _ hQ
  have h3 : P * a * Q ≤ P * i * Q := Nat.mul_le_mul_right _ (Nat.mul_le_mul_left _ h)
  have h4 : P * (i + 1) * Q = P * i * Q + P * Q := by rw [Nat.mul_add, Nat.add_mul, Nat.mul_one]
  have h5 : P * (i + 1) * (Q * 2) = P * (i + 1) * Q * 2 := by rw [Nat.mul_assoc (P * (i + 1))]
  omega

omit [Uni] in
theorem any_open {P Q i a r : Nat} (h : a ≤ i) (h' : r < i) (hQ : 1 ≤ Q) :
    P + P * a * Q + P * (r + 1) * Q ≤ P * (i + 1) * (Q * 2) := by
  have h2 : P ≤ P * Q := Nat.le_mul_of_pos_right _ hQ
  have h3 : P * a * Q ≤ P * i * Q := Nat.mul_le_mul_right _ (Nat.mul_le_mul_left _ h)
  have h6 : P * (r + 1) * Q ≤ P * i * Q := Nat.mul_le_mul_right _ (Nat.mul_le_mul_left _ h')
  have h4 : P * (i + 1) * Q = P * i * Q + P * Q := by rw [Nat.mul_add, Nat.add_mul, Nat.mul_one]
  have h5 : P * (i + 1) * (Q * 2) = P * (i + 1) * Q * 2 := by rw [Nat.mul_assoc (P * (i + 1))]
  omega

theorem loop_any {N : Nat} {rec : MP PComp} (H : RecAny N rec) {name : Str} (hn : name.length < N) (n : Nat) :
    ∀ i : Str, i.length < N → ∀ k, opensCount i ≤ k →
      manyTillCost .steps (componentChild .steps rec) (componentEnd .steps name) n i ≤
        150 * (N * N) * (i.length + 1) * 2 ^ k := by
  induction n with
  | zero => intro i _ _ _; exact Nat.zero_le _
  | succ n ih =>
    intro i hi k hk
    have hend := componentEnd_cost (i := i) hn hi
    have hQ : 1 ≤ 2 ^ k := Nat.one_le_two_pow
    have hNN : N ≤ N * N := Nat.le_mul_of_pos_left _ (by omega)
    generalize hP : 150 * (N * N) = P at *
    have hbase : P ≤ P * (i.length + 1) * 2 ^ k :=
      Nat.le_trans (Nat.le_mul_of_pos_right _ (by omega)) (Nat.le_mul_of_pos_right _ hQ)
    by_cases hg : Ical.componentEnd name i = .error
    · obtain ⟨i', l, hb⟩ := many0_breaks_ok i
      have hle := breaks_rest hb
      have hsi := shrinks_many0 shrinks_lineEnding _ _ _ hb
      have hli := hsi.length_le
      have hki := opensCount_suffix hsi
      have pc := property_cost (N := N) (i := i') (by omega)
      have pm : 36 * N * i'.length ≤ 36 * N * N := Nat.mul_le_mul_left _ (by omega)
      rw [Nat.mul_assoc 36 N N] at pm
      by_cases ho : opens i' = true
      · have hpos := opensCount_tail ho (List.nil_suffix) (by
          cases i' with
          | nil => exact absurd ho (by decide)
          | cons c s => simp)
        obtain ⟨m, rfl⟩ : ∃ m, k = m + 1 := ⟨k - 1, by omega⟩
        have hQ' : 1 ≤ 2 ^ m := Nat.one_le_two_pow
        have c2 := H.any i' (by omega) m (by omega)
        rw [hP] at c2
        have hstop := any_stop (P := P) (Q := 2 ^ m) hli hQ'
        rw [Nat.pow_succ]
        cases hr : rec.run i' with
        | failure =>
          have hs : Ical.lineSeparated rec.run i = .failure := by rw [sep_eq hb]; exact lineSeparated_failure hle hr
          obtain ⟨h1, h2⟩ := child_cost_failure hs
          obtain ⟨d1, d2⟩ := till_cost_stop (f := componentChild .steps rec) (g := componentEnd .steps name) (n := n)
            hg (by intro r a h; rw [show (componentChild .steps rec).run i = .failure from h1] at h; cases h)
          have c1 := sep_cost_stop hi hb (p := rec) (by rw [hr]; simp)
          omega
        | ok r1 x =>
          obtain ⟨r2, k, hk2⟩ := many0_breaks_ok r1
          have hs : Ical.lineSeparated rec.run i = .ok r2 x := by rw [sep_eq hb]; exact lineSeparated_ok hle hr hk2
          obtain ⟨h1, h2⟩ := child_cost_ok hs
          have c1 := sep_cost_ok H.shrinks hi hb hr
          have s1 := shrinks_many0 shrinks_lineEnding _ _ _ hk2
          have s2 := H.shorter hr
          have s3 := opensCount_tail ho (s1.trans (H.shrinks _ _ _ hr)) (by have := s1.length_le; omega)
          have s4 := s1.length_le
          rw [till_cost_ok (f := componentChild .steps rec) (g := componentEnd .steps name) hg h1 (by omega)]
          have j := ih r2 (by omega) m (by omega)
          have := any_open (P := P) (Q := 2 ^ m) hli (show r2.length < i.length by omega) hQ'
          omega
        | error =>
          have hs : Ical.lineSeparated rec.run i = .error := by rw [sep_eq hb]; exact lineSeparated_error hle hr
          obtain ⟨h1, h2⟩ := child_cost_error hs
          have c1 := sep_cost_stop hi hb (p := rec) (by rw [hr]; simp)
          have e := sep_eq (p := Ical.property) hb
          cases hp : Ical.property i' with
          | error => exact absurd hp (property_never_error _)
          | failure =>
            rw [lineSeparated_failure hle hp] at e
            rw [show Nom.cut (Nom.map Child.prop (Ical.lineSeparated Ical.property)) i = .failure by
              simp [Nom.cut, Nom.map, e]] at h1
            obtain ⟨d1, d2⟩ := till_cost_stop (f := componentChild .steps rec) (g := componentEnd .steps name) (n := n)
              hg (by intro r a h; rw [show (componentChild .steps rec).run i = .failure from h1] at h; cases h)
            have c3 := sep_cost_stop hi hb (p := property .steps) (by
              show ∀ r a, Ical.property i' ≠ _
              rw [hp]; simp)
            omega
          | ok r1 p =>
            obtain ⟨r2, k, hk2⟩ := many0_breaks_ok r1
            rw [lineSeparated_ok hle hp hk2] at e
            rw [show Nom.cut (Nom.map Child.prop (Ical.lineSeparated Ical.property)) i = .ok r2 (.prop p) by
              simp [Nom.cut, Nom.map, e]] at h1
            have c3 := sep_cost_ok (p := property .steps) shrinks_property hi hb hp
            have s1 := shrinks_many0 shrinks_lineEnding _ _ _ hk2
            have s2 := property_opens ho hp
            have s3 := opensCount_tail ho (s1.trans (shrinks_property _ _ _ hp)) (by have := s1.length_le; omega)
            have s4 := s1.length_le
            rw [till_cost_ok (f := componentChild .steps rec) (g := componentEnd .steps name) hg h1 (by omega)]
            have j := ih r2 (by omega) m (by omega)
            have := any_open (P := P) (Q := 2 ^ m) hli (show r2.length < i.length by omega) hQ'
            omega
      · have ho : opens i' = false := by simpa using ho
        obtain ⟨c1, c2⟩ := child_quick H.quick hi hb ho
        by_cases hmove : ∃ r a, Ical.componentChild rec.run i = .ok r a ∧ r.length ≠ i.length
        · obtain ⟨r2, a, h1, hlen⟩ := hmove
          obtain ⟨r1, p, k', hp, hk2⟩ := c2 r2 a h1
          have s1 := (shrinks_many0 shrinks_lineEnding _ _ _ hk2).trans ((shrinks_property _ _ _ hp).trans hsi)
          have s2 := s1.length_le
          have s3 := opensCount_suffix s1
          rw [till_cost_ok (f := componentChild .steps rec) (g := componentEnd .steps name) hg h1 hlen]
          have j := ih r2 (by omega) k (by omega)
          have := any_step (P := P) (Q := 2 ^ k) (show r2.length < i.length by omega) hQ
          omega
        · obtain ⟨d1, d2⟩ := till_cost_stop (f := componentChild .steps rec) (g := componentEnd .steps name) (n := n)
            hg (by
              intro r a h
              apply Classical.byContradiction
              intro hne
              exact hmove ⟨r, a, h, hne⟩)
          omega
    · rw [till_cost_end (f := componentChild .steps rec) (g := componentEnd .steps name) (i := i) (n := n) hg]
      omega

theorem recAny_body {N : Nat} {rec : MP PComp} (H : RecAny N rec) : RecAny N (componentBody .steps rec) := by
  have key : ∀ j, j.length < N → (∀ r x, Ical.line c!"BEGIN:" Ical.validKeySequence j ≠ .ok r x) →
      (componentBody .steps rec).cost j ≤ 16 * N ∧ ∀ r x, (componentBody .steps rec).run j ≠ .ok r x := by
    intro j hj h
    have hb := lin_begin N j hj
    constructor
    · show (line .steps c!"BEGIN:" (validKeySequence .steps)).cost j + _ + 1 ≤ _
      cases hl : Ical.line c!"BEGIN:" Ical.validKeySequence j with
      | ok r x => exact absurd hl (h r x)
      | error => simp only; omega
      | failure => simp only; omega
    · intro r x hx
      have hx : Ical.componentBody rec.run j = .ok r x := hx
      unfold Ical.componentBody at hx
      cases hl : Ical.line c!"BEGIN:" Ical.validKeySequence j with
      | ok r x => exact absurd hl (h r x)
      | error => simp [hl] at hx
      | failure => simp [hl] at hx
  refine ⟨reads_componentBody H.reads, ?_, ?_⟩
  · intro j hj k hk
    by_cases hl : ∃ i1 name, Ical.line c!"BEGIN:" Ical.validKeySequence j = .ok i1 name
    · obtain ⟨i1, name, hl⟩ := hl
      have hb := lin_begin N j hj
      have hcnt := opensCount_line shrinks_validKeySequence hl
      obtain ⟨t, ht, a, kw, b, c, ha, hkw, hbn, hc, rfl⟩ := reads_line reads_validKeySequence _ _ _ hl
      have hlen : i1.length + 6 + name.length ≤ j.length := by
        have h6 : kw.length = 6 := by simpa using congrArg List.length hkw
        have := congrArg List.length ht
        obtain ⟨rfl, -⟩ := hbn
        simp at this
        omega
      have l1 := loop_any H (name := name) (by omega) (i1.length + 1) i1 (by omega) k (by omega)
      have hcost : (componentBody .steps rec).cost j = (line .steps c!"BEGIN:" (validKeySequence .steps)).cost j +
          (manyTillCost .steps (componentChild .steps rec) (componentEnd .steps name) (i1.length + 1) i1 +
            (match Nom.manyTillF (Ical.componentChild rec.run) (Ical.componentEnd name) (i1.length + 1) i1 with
            | .ok i _ => (many0 .steps (tag .steps ['\n'])).cost i
            | _ => 0)) + 1 := by
        show (line .steps c!"BEGIN:" (validKeySequence .steps)).cost j + _ + 1 = _
        rw [hl]
        rfl
      have l2 : 150 * (N * N) * (i1.length + 1) * 2 ^ k ≤ 150 * (N * N) * j.length * 2 ^ k :=
        Nat.mul_le_mul_right _ (Nat.mul_le_mul_left _ (by omega))
      rw [hcost]
      cases hm : Nom.manyTillF (Ical.componentChild rec.run) (Ical.componentEnd name) (i1.length + 1) i1 with
      | ok r2 y =>
        have hs : r2.length ≤ i1.length :=
          (Nom.shrinks_manyTill (shrinks_componentChild H.shrinks) (shrinks_componentEnd name) _ _ _ hm).length_le
        have hlf : (many0 .steps (tag .steps ['\n'])).cost r2 ≤ 2 * N :=
          lin_many0_const (shrinks_tag _) (fun _ => rfl) N r2 (by omega)
        simp only
        omega
      | error => simp only; omega
      | failure => simp only; omega
    · have := (key j hj (fun r x h => hl ⟨r, x, h⟩)).1
      omega
  · intro j hj hle ho
    have := key j hj (by rw [line_error hle ho]; simp)
    exact ⟨this.2, by omega⟩

theorem recAny_componentF {N : Nat} (n : Nat) : RecAny N (componentF .steps n) := by
  induction n with
  | zero =>
    exact ⟨fun _ _ _ h => (nomatch h), fun _ _ _ _ => Nat.zero_le _,
      fun _ _ _ _ => ⟨fun _ _ h => (nomatch h), Nat.zero_le _⟩⟩
  | succ n ih => exact recAny_body ih

theorem steps_components_any (text : Str) :
    (components .steps).cost text ≤ 150 * (text.length + 1) ^ 3 * 2 ^ opensCount text := by
  have H := fun n => recAny_componentF (N := text.length + 1) n
  have h1 : (component .steps).cost text ≤ _ :=
    (H (text.length + 1)).any text (Nat.lt_succ_self _) (opensCount text) (Nat.le_succ _)
  have h2 := components_cost_first (text := text) (K := 20 * (text.length + 1))
    ((H 1).quick [] (by simp) rfl (by decide)).2
  have hQ : 1 ≤ 2 ^ opensCount text := Nat.one_le_two_pow
  generalize 2 ^ opensCount text = Q at *
  generalize hN : text.length + 1 = N at *
  have hNN : N ≤ N * N := Nat.le_mul_of_pos_left _ (by omega)
  have hM : 150 * N ^ 3 * Q = 150 * (N * N) * text.length * Q + 150 * (N * N) * Q := by
    have : 150 * N ^ 3 = 150 * (N * N) * text.length + 150 * (N * N) := by
      rw [Nat.pow_succ, Nat.pow_two, ← Nat.mul_assoc 150]
      conv => lhs; rhs; rw [← hN]
      rw [Nat.mul_succ]
    rw [this, Nat.add_mul]
  have h3 : 150 * (N * N) ≤ 150 * (N * N) * Q := Nat.le_mul_of_pos_right _ hQ
  omega

end MP
end Ical
