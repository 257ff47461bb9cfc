import Verif.Model.Work
import Verif.Spec.Work
import Verif.Props.Grammar
import Verif.Props.MeasuredParts

/-!
The cost of reading: measured parsers give the results of the parsers they measure; bounds for the
depth of the recursion.
-/

namespace Ical

open Spec (opens opensCount begins UpperBegins)
open Nom (shrinks_many0 shrinks_lineEnding shrinks_tag)

namespace MP
variable {m : Meter} {α β γ : Type}

theorem run_componentF [Uni] (n : Nat) : (componentF m n).run = Ical.componentF n := by
  induction n with
  | zero => rfl
  | succ n ih => show Ical.componentBody (componentF m n).run = _; rw [ih]; rfl

/-! ### depth -/

/-- makes no call of `component` -/
def Flat (p : MP α) : Prop := ∀ i, p.cost i = 0

theorem flat_map {f : α → β} {p : MP α} (h : Flat p) : Flat (map f p) := h
theorem flat_cut {p : MP α} (h : Flat p) : Flat (cut p) := h
theorem flat_opt {p : MP α} (h : Flat p) : Flat (opt p) := h
theorem flat_alt {p q : MP α} (hp : Flat p) (hq : Flat q) : Flat (alt .depth p q) := by
  intro i
  show max (p.cost i) _ = 0
  rw [hp]
  cases p.run i <;> simp [hq i]
theorem flat_pair {p : MP α} {q : MP β} (hp : Flat p) (hq : Flat q) : Flat (pair .depth p q) := by
  intro i
  show max (p.cost i) _ = 0
  rw [hp]
  cases p.run i <;> simp [hq _]
theorem flat_preceded {p : MP α} {q : MP β} (hp : Flat p) (hq : Flat q) :
    Flat (preceded .depth p q) := flat_map (flat_pair hp hq)
theorem flat_delimited {p : MP α} {q : MP β} {s : MP γ} (hp : Flat p) (hq : Flat q) (hs : Flat s) :
    Flat (delimited .depth p q s) := flat_map (flat_pair hp (flat_pair hq hs))
theorem flat_separatedPair {p : MP α} {q : MP β} {s : MP γ} (hp : Flat p) (hs : Flat s) (hq : Flat q) :
    Flat (separatedPair .depth p s q) := flat_map (flat_pair hp (flat_pair hs hq))
theorem flat_tag (t : Str) : Flat (tag .depth t) := fun _ => rfl
theorem flat_tagNoCase (t : Str) : Flat (tagNoCase .depth t) := fun _ => rfl
theorem flat_takeWhile (f : Char → Bool) : Flat (takeWhile .depth f) := fun _ => rfl
theorem flat_takeTill1 (f : Char → Bool) : Flat (takeTill1 .depth f) := fun _ => rfl
theorem flat_takeUntil (t : Str) : Flat (takeUntil .depth t) := fun _ => rfl
theorem flat_eof : Flat (eof .depth) := fun _ => rfl
theorem flat_lineEnding : Flat (lineEnding .depth) := fun _ => rfl
theorem flat_many0 {p : MP α} (h : Flat p) : Flat (many0 .depth p) := by
  have : ∀ n i, many0Cost .depth p n i = 0 := by
    intro n
    induction n with
    | zero => intro i; rfl
    | succ n ih =>
      intro i
      show max (p.cost i) _ = 0
      rw [h]
      cases p.run i with
      | ok r a => simp only; split <;> simp [ih]
      | error => rfl
      | failure => rfl
  exact fun i => this _ i
theorem flat_lineSeparated {p : MP α} (h : Flat p) : Flat (lineSeparated .depth p) :=
  flat_delimited (flat_many0 flat_lineEnding) h (flat_many0 flat_lineEnding)
theorem flat_line {p : MP α} (t : Str) (h : Flat p) : Flat (line .depth t p) :=
  flat_lineSeparated (flat_preceded (flat_tagNoCase t) h)
theorem flat_componentEnd (t : Str) : Flat (componentEnd .depth t) := flat_line _ (flat_tag t)
theorem flat_paramValue : Flat (paramValue .depth) :=
  flat_alt flat_eof (flat_alt (flat_delimited (flat_tag _) (flat_takeTill1 _) (flat_tag _))
    (flat_takeTill1 _))
theorem flat_propertyRest : Flat (propertyRest .depth) :=
  flat_alt (flat_takeUntil _) (flat_alt (flat_takeUntil _) (flat_takeWhile _))

section
variable [Uni]
theorem flat_validKeySequence : Flat (validKeySequence .depth) := flat_takeWhile _
theorem flat_propertyKey : Flat (propertyKey .depth) := by
  intro i
  show max 0 _ = 0
  split
  · rfl
  · simp [flat_validKeySequence i]
theorem flat_pairParameter : Flat (pairParameter .depth) :=
  flat_map (flat_preceded (flat_pair (flat_tag _) (flat_takeWhile _))
    (flat_separatedPair flat_validKeySequence (flat_tag _) (flat_map (flat_opt flat_paramValue))))
theorem flat_baseParameter : Flat (baseParameter .depth) :=
  flat_map (flat_pair (flat_preceded (flat_pair (flat_tag _) (flat_takeWhile _)) flat_validKeySequence)
    (flat_map (flat_opt (flat_preceded (flat_tag _) flat_paramValue))))
theorem flat_parameters : Flat (parameters .depth) :=
  flat_many0 (flat_alt flat_pairParameter flat_baseParameter)
theorem flat_propertyParts : Flat (propertyParts .depth) :=
  flat_alt (flat_separatedPair (flat_pair (flat_cut (flat_preceded (flat_takeWhile _) flat_propertyKey))
    flat_parameters) (flat_tag _) flat_propertyRest) (flat_map flat_validKeySequence)
theorem flat_property : Flat (property .depth) :=
  flat_cut (flat_map (flat_pair flat_propertyParts (flat_opt flat_lineEnding)))
end

/-- the depth of `line_separated` is the depth of its parser, somewhere further on -/
theorem depth_lineSeparated {p : MP α} {i : Str} {d : Nat} (h : ∀ j, j <:+ i → p.cost j ≤ d) :
    (lineSeparated .depth p).cost i ≤ d := by
  show max ((many0 .depth (lineEnding .depth)).cost i) _ ≤ d
  rw [flat_many0 flat_lineEnding i]
  refine Nat.max_le.2 ⟨Nat.zero_le _, ?_⟩
  split
  · rename_i r l hr
    show max (p.cost r) _ ≤ d
    refine Nat.max_le.2 ⟨h r (shrinks_many0 shrinks_lineEnding _ _ _ hr), ?_⟩
    split
    · rw [flat_many0 flat_lineEnding]; exact Nat.zero_le _
    · exact Nat.zero_le _
  · exact Nat.zero_le _

theorem depth_manyTill {f : MP α} {g : MP β} (hf : Shrinks f.run) (hg : Flat g) {i : Str} {d : Nat}
    (h : ∀ j, j <:+ i → f.cost j ≤ d) : (manyTill .depth f g).cost i ≤ d := by
  have : ∀ n j, j <:+ i → manyTillCost .depth f g n j ≤ d := by
    intro n
    induction n with
    | zero => intro j _; exact Nat.zero_le _
    | succ n ih =>
      intro j hj
      show max (g.cost j) _ ≤ d
      rw [hg]
      refine Nat.max_le.2 ⟨Nat.zero_le _, ?_⟩
      cases g.run j with
      | ok r b => exact Nat.zero_le _
      | failure => exact Nat.zero_le _
      | error =>
        show max (f.cost j) _ ≤ d
        refine Nat.max_le.2 ⟨h j hj, ?_⟩
        cases hr : f.run j with
        | ok r a =>
          simp only
          split
          · exact Nat.zero_le _
          · exact ih r ((hf _ _ _ hr).trans hj)
        | error => exact Nat.zero_le _
        | failure => exact Nat.zero_le _
  exact this _ i (List.suffix_refl _)

theorem depth_componentChild [Uni] {rec : MP PComp} {i : Str} {d : Nat}
    (h : ∀ j, j <:+ i → rec.cost j ≤ d) : (componentChild .depth rec).cost i ≤ d := by
  show max ((lineSeparated .depth rec).cost i) _ ≤ d
  refine Nat.max_le.2 ⟨depth_lineSeparated h, ?_⟩
  split
  · show (lineSeparated .depth (property .depth)).cost i ≤ d
    rw [flat_lineSeparated flat_property]; exact Nat.zero_le _
  · exact Nat.zero_le _

end MP

theorem opensCount_suffix {a b : Str} (h : a <:+ b) : opensCount a ≤ opensCount b := by
  obtain ⟨p, rfl⟩ := h
  induction p with
  | nil => exact Nat.le_refl _
  | cons c p ih => simp only [List.cons_append, opensCount]; omega

theorem opens_iff {i : Str} : Nom.prefixNoCase c!"BEGIN:" i = opens i := by
  unfold opens
  rw [Bool.eq_iff_iff, decide_eq_true_iff]
  constructor
  · intro h
    obtain ⟨b, r, rfl, h1, h2⟩ := prefixNoCase_append h
    rw [show 6 = b.length from h1.symm, List.take_left, h2]
    rfl
  · intro h
    rcases i with _ | ⟨a, _ | ⟨b, _ | ⟨c, _ | ⟨d, _ | ⟨e, _ | ⟨f, i⟩⟩⟩⟩⟩⟩ <;> simp at h
    simp [Nom.prefixNoCase, h]
    decide

/-- a successful `BEGIN:` line uses up one place at which a component is opened -/
theorem opensCount_line {α : Type} {p : P α} (hp : Shrinks p) {i r : Str} {a : α}
    (h : line c!"BEGIN:" p i = .ok r a) : opensCount r + 1 ≤ opensCount i := by
  obtain ⟨t, rfl, a, k, b, c, -, hk, ⟨d, hd⟩, -, rfl⟩ := reads_line (R := fun _ t _ => True) (t := c!"BEGIN:")
    (p := p) (fun i r a h => by obtain ⟨t, ht⟩ := hp _ _ _ h; exact ⟨t, ht.symm, trivial⟩) _ _ _ h
  have hl : k.length = 6 := by simpa using congrArg List.length hk
  have h1 : opens (k ++ b ++ c ++ r) = true := by
    unfold opens
    rw [List.append_assoc, List.append_assoc, List.take_append_of_le_length (by omega),
      List.take_of_length_le (by omega), hk]
    rfl
  have h2 : opensCount r + 1 ≤ opensCount (k ++ b ++ c ++ r) := by
    cases k with
    | nil => simp at hl
    | cons x k =>
      simp only [List.cons_append] at h1 ⊢
      have := opensCount_suffix (a := r) (b := k ++ b ++ c ++ r) (List.suffix_append _ _)
      simp only [opensCount, h1, if_true]
      omega
  have := opensCount_suffix (a := k ++ b ++ c ++ r) (b := a ++ k ++ b ++ c ++ r) ⟨a, by simp⟩
  omega

namespace MP
variable [Uni]

theorem depth_componentF (n : Nat) : ∀ i, (componentF .depth n).cost i ≤ 1 + opensCount i := by
  induction n with
  | zero => intro i; exact Nat.zero_le _
  | succ n ih =>
    intro i
    show Nat.max ((line .depth c!"BEGIN:" (validKeySequence .depth)).cost i) _ + 1 ≤ _
    rw [flat_line _ flat_validKeySequence i, Nat.add_comm 1]
    refine Nat.succ_le_succ (Nat.max_le.2 ⟨Nat.zero_le _, ?_⟩)
    split
    · rename_i r name hr
      have hlt := opensCount_line shrinks_validKeySequence hr
      refine Nat.max_le.2 ⟨?_, ?_⟩
      · refine depth_manyTill ?_ (flat_componentEnd _) ?_
        · show Shrinks (Ical.componentChild (componentF .depth n).run)
          rw [run_componentF]
          exact shrinks_componentChild (shrinks_componentF n)
        · intro j hj
          refine depth_componentChild fun k hk => Nat.le_trans (ih k) ?_
          have := opensCount_suffix (hk.trans hj)
          omega
      · split
        · rw [flat_many0 (flat_tag _)]; exact Nat.zero_le _
        · exact Nat.zero_le _
    · exact Nat.zero_le _

theorem depth_components (i : Str) : (components .depth).cost i ≤ 1 + opensCount i := by
  have : ∀ n j, j <:+ i → many0Cost .depth (allConsuming (component .depth)) n j ≤ 1 + opensCount i := by
    intro n
    induction n with
    | zero => intro j _; exact Nat.zero_le _
    | succ n ih =>
      intro j hj
      refine Nat.max_le.2 ⟨Nat.le_trans (depth_componentF (j.length + 1) j) ?_, ?_⟩
      · have := opensCount_suffix hj
        omega
      · split
        · rename_i r a hr
          split
          · exact Nat.zero_le _
          · exact ih r ((Nom.shrinks_allConsuming shrinks_component _ _ _ hr).trans hj)
        · exact Nat.zero_le _
  exact this _ i (List.suffix_refl _)

end MP

/-! ### steps -/

namespace MP
variable {α β : Type}

theorem pair_cost_ok {p : MP α} {q : MP β} {i r : Str} {a : α} (h : p.run i = .ok r a) :
    (pair .steps p q).cost i = p.cost i + q.cost r := by
  show p.cost i + _ = _
  rw [h]

theorem pair_cost_error {p : MP α} {q : MP β} {i : Str} (h : p.run i = .error) :
    (pair .steps p q).cost i = p.cost i := by
  show p.cost i + _ = _
  rw [h]; rfl

theorem pair_cost_failure {p : MP α} {q : MP β} {i : Str} (h : p.run i = .failure) :
    (pair .steps p q).cost i = p.cost i := by
  show p.cost i + _ = _
  rw [h]; rfl

theorem pair_cost_le {p : MP α} {q : MP β} (i : Str) : p.cost i ≤ (pair .steps p q).cost i :=
  Nat.le_add_right _ _

theorem alt_cost_error {p q : MP α} {i : Str} (h : p.run i = .error) :
    (alt .steps p q).cost i = p.cost i + q.cost i := by
  show p.cost i + _ = _
  rw [h]

theorem alt_cost_ok {p q : MP α} {i r : Str} {a : α} (h : p.run i = .ok r a) :
    (alt .steps p q).cost i = p.cost i := by
  show p.cost i + _ = _
  rw [h]; rfl

theorem alt_cost_failure {p q : MP α} {i : Str} (h : p.run i = .failure) :
    (alt .steps p q).cost i = p.cost i := by
  show p.cost i + _ = _
  rw [h]; rfl

theorem till_cost_ok {f : MP α} {g : MP β} {i r : Str} {a : α} {n : Nat} (hg : g.run i = .error)
    (hf : f.run i = .ok r a) (hl : r.length ≠ i.length) :
    manyTillCost .steps f g (n + 1) i = g.cost i + (f.cost i + manyTillCost .steps f g n r) := by
  show g.cost i + _ = _
  rw [hg]
  show g.cost i + (f.cost i + _) = _
  rw [hf]
  simp only
  rw [if_neg hl]

theorem body_cost_ge [Uni] {rec : MP PComp} {i r : Str} {name : Str}
    (h : Ical.line c!"BEGIN:" Ical.validKeySequence i = .ok r name) :
    (manyTill .steps (componentChild .steps rec) (componentEnd .steps name)).cost r + 1 ≤
      (componentBody .steps rec).cost i := by
  unfold componentBody
  simp only [h]
  show _ ≤ _ + (_ + _) + 1
  omega

end MP

/-! ### lines that open a component in lower case letters -/

section
variable [Uni]

omit [Uni] in
theorem lineEnding_begins (n : Nat) : Nom.lineEnding (begins n) = .error := by
  cases n <;> rfl

theorem keyA : isKeyChar 'A' = true := by simp [isKeyChar, isAlnum]

theorem line_begins (n : Nat) : line c!"BEGIN:" validKeySequence (begins (n + 1)) = .ok (begins n) c!"A" := by
  have h1 : validKeySequence ('A' :: '\n' :: begins n) = .ok ('\n' :: begins n) c!"A" := by
    have : isKeyChar '\n' = false := by simp [isKeyChar, isAlnum]
    simp [validKeySequence, Nom.takeWhile, keyA, this]
  have h2 : Nom.preceded (Nom.tagNoCase c!"BEGIN:") validKeySequence (begins (n + 1)) =
      .ok ('\n' :: begins n) c!"A" := by
    have : Nom.tagNoCase c!"BEGIN:" (begins (n + 1)) = .ok ('A' :: '\n' :: begins n) c!"begin:" := rfl
    simp only [Nom.preceded, Nom.map, Nom.pair, this, h1]
  exact lineSeparated_ok (lineEnding_begins (n + 1)) h2 (many0_lineEnding_one .lf (lineEnding_begins n))

omit [Uni] in
theorem end_begins (n : Nat) : componentEnd c!"A" (begins n) = .error := by
  refine lineSeparated_error (lineEnding_begins n) ?_
  cases n <;> rfl

omit [Uni] in
theorem cr_begins (n : Nat) : '\r' ∉ begins n := by
  induction n with
  | zero => simp [begins]
  | succ n ih => simp [begins, ih]

theorem property_begins (n : Nat) : ∃ p, property (begins (n + 1)) = .ok (begins n) p := by
  have := property_ok (br := .lf) (key := c!"begin") (params := []) (val := c!"A") (r := begins n)
    (by simp [Spec.IsName, Spec.NameChar, isAlnum]) (by decide) (by decide) (by simp)
    (by simp [Spec.ValOk]) (fun _ => by simp [cr_begins n])
  exact ⟨_, this⟩

theorem property_nil : ∃ p, property [] = .ok [] p := ⟨_, rfl⟩

theorem child_begins {rec : P PComp} {n : Nat} (h : rec (begins (n + 1)) = .error) :
    ∃ c, componentChild rec (begins (n + 1)) = .ok (begins n) c := by
  obtain ⟨p, hp⟩ := property_begins n
  have h1 : lineSeparated rec (begins (n + 1)) = .error := lineSeparated_error (lineEnding_begins _) h
  have h2 : lineSeparated property (begins (n + 1)) = .ok (begins n) p :=
    lineSeparated_ok (lineEnding_begins _) hp (many0_lineEnding_none (lineEnding_begins _))
  exact ⟨.prop p, by simp [componentChild, Nom.cut, Nom.alt, Nom.map, h1, h2]⟩

theorem child_nil {rec : P PComp} (h : rec [] = .error) : ∃ c, componentChild rec [] = .ok [] c := by
  have h1 : lineSeparated rec [] = .error := lineSeparated_error rfl h
  exact ⟨_, by simp only [componentChild, Nom.cut, Nom.alt, Nom.map, h1]; rfl⟩

theorem manyTill_begins (n : Nat) :
    Nom.manyTill (componentChild component) (componentEnd c!"A") (begins n) = .error ∧
      component (begins n) = .error := by
  induction n with
  | zero =>
    refine ⟨?_, component_nil⟩
    obtain ⟨c, hc⟩ := child_nil component_nil
    rw [Nom.manyTill_eq (shrinks_componentChild shrinks_component), end_begins 0]
    simp [begins, hc]
  | succ n ih =>
    have h1 : component (begins (n + 1)) = .error := by
      rw [component_eq]
      unfold componentBody
      rw [line_begins]
      simp only [ih.1]
    refine ⟨?_, h1⟩
    obtain ⟨c, hc⟩ := child_begins h1
    rw [Nom.manyTill_eq (shrinks_componentChild shrinks_component), end_begins (n + 1)]
    simp only [hc, ih.1]
    split <;> rfl

omit [Uni] in
theorem length_begins (n : Nat) : (begins n).length = 8 * n := by
  induction n with
  | zero => rfl
  | succ n ih => simp [begins, ih]; omega

namespace MP

omit [Uni] in
theorem cost_lineSeparated {α : Type} {p : MP α} {i : Str} (h : Nom.lineEnding i = .error) :
    p.cost i ≤ (lineSeparated .steps p).cost i := by
  show _ ≤ (pair .steps (many0 .steps (lineEnding .steps)) (pair .steps p (many0 .steps (lineEnding .steps)))).cost i
  rw [pair_cost_ok (many0_lineEnding_none h)]
  have := pair_cost_le (p := p) (q := many0 .steps (lineEnding .steps)) i
  omega

theorem steps_begins (n : Nat) : ∀ f k, 8 * n < f → 8 * n < k →
    2 ^ n ≤ manyTillCost .steps (componentChild .steps (componentF .steps f)) (componentEnd .steps c!"A") k
      (begins n) + 1 := by
  induction n with
  | zero => intro f k _ _; simp
  | succ n ih =>
    intro f k hf hk
    cases k with
    | zero => omega
    | succ k =>
      cases f with
      | zero => omega
      | succ f =>
        have hrec : (componentF .steps (f + 1)).run (begins (n + 1)) = .error := by
          rw [run_componentF, componentF_budget (f + 1) ((begins (n + 1)).length + 1) _
            (by rw [length_begins]; omega) (by omega)]
          exact (manyTill_begins (n + 1)).2
        obtain ⟨c, hc⟩ := child_begins hrec
        have h1 := ih (f + 1) k (by omega) (by omega)
        have h2 := ih f ((begins n).length + 1) (by omega) (by rw [length_begins]; omega)
        have h3 : manyTillCost .steps (componentChild .steps (componentF .steps f)) (componentEnd .steps c!"A")
            ((begins n).length + 1) (begins n) + 1 ≤ (componentF .steps (f + 1)).cost (begins (n + 1)) := by
          exact body_cost_ge (rec := componentF .steps f) (line_begins n)
        have h4 := Nat.le_trans h3 (cost_lineSeparated (lineEnding_begins (n + 1)))
        have h5 : (lineSeparated .steps (componentF .steps (f + 1))).cost (begins (n + 1)) ≤
            (componentChild .steps (componentF .steps (f + 1))).cost (begins (n + 1)) := Nat.le_add_right _ _
        have h6 : (componentChild .steps (componentF .steps (f + 1))).cost (begins (n + 1)) +
            manyTillCost .steps (componentChild .steps (componentF .steps (f + 1))) (componentEnd .steps c!"A") k
              (begins n) ≤
            manyTillCost .steps (componentChild .steps (componentF .steps (f + 1))) (componentEnd .steps c!"A")
              (k + 1) (begins (n + 1)) := by
          rw [till_cost_ok (f := componentChild .steps (componentF .steps (f + 1)))
            (g := componentEnd .steps c!"A") (i := begins (n + 1)) (r := begins n) (a := c)
            (end_begins (n + 1)) hc (by simp only [length_begins]; omega)]
          omega
        rw [Nat.pow_succ]
        omega

theorem steps_components_begins (n : Nat) : 2 ^ n ≤ (components .steps).cost (begins (n + 1)) := by
  have h1 := steps_begins n (8 * n + 8) ((begins n).length + 1) (by omega) (by rw [length_begins]; omega)
  have h2 : _ ≤ (componentF .steps (8 * n + 8 + 1)).cost (begins (n + 1)) :=
    body_cost_ge (rec := componentF .steps (8 * n + 8)) (line_begins n)
  have h3 : (component .steps).cost (begins (n + 1)) ≤ (components .steps).cost (begins (n + 1)) :=
    Nat.le_add_right _ _
  have h4 : (component .steps).cost (begins (n + 1)) = (componentF .steps (8 * n + 8 + 1)).cost (begins (n + 1)) := by
    show (componentF .steps ((begins (n + 1)).length + 1)).cost _ = _
    rw [length_begins, show 8 * (n + 1) = 8 * n + 8 by omega]
  rw [← h4] at h2
  exact Nat.le_trans h1 (Nat.le_trans h2 h3)

end MP

end

end Ical
