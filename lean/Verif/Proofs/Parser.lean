import Verif.Model.Parser
import Verif.Proofs.Nom

/-!
The parsers consume input, the recursion budget of `component` is never exhausted.
-/

namespace Ical

open Nom

theorem shrinks_lineSeparated {α : Type} {p : P α} (h : Shrinks p) : Shrinks (lineSeparated p) :=
  shrinks_delimited (shrinks_many0 shrinks_lineEnding) h (shrinks_many0 shrinks_lineEnding)

theorem shrinks_line {α : Type} {p : P α} (t : Str) (h : Shrinks p) : Shrinks (line t p) :=
  shrinks_lineSeparated (shrinks_preceded (shrinks_tagNoCase t) h)

theorem shrinks_paramValue : Shrinks paramValue :=
  shrinks_alt shrinks_eof (shrinks_alt
    (shrinks_delimited (shrinks_tag _) (shrinks_takeTill1 _) (shrinks_tag _)) (shrinks_takeTill1 _))

theorem shrinks_propertyRest : Shrinks propertyRest :=
  shrinks_alt (shrinks_takeUntil _) (shrinks_alt (shrinks_takeUntil _) (shrinks_takeWhile _))

theorem shrinks_componentEnd (name : Str) : Shrinks (componentEnd name) :=
  shrinks_line _ (shrinks_cut (shrinks_tag _))

variable [Uni]

theorem shrinks_validKeySequence : Shrinks validKeySequence := shrinks_takeWhile _

theorem shrinks_propertyKey : Shrinks propertyKey := by
  intro i r a h
  unfold propertyKey at h
  split at h
  · cases h
  · exact shrinks_validKeySequence _ _ _ h

theorem shrinks_pairParameter : Shrinks pairParameter :=
  shrinks_map (shrinks_preceded (shrinks_pair (shrinks_tag _) (shrinks_takeWhile _))
    (shrinks_separatedPair shrinks_validKeySequence (shrinks_tag _)
      (shrinks_map (shrinks_opt shrinks_paramValue))))

theorem shrinks_baseParameter : Shrinks baseParameter :=
  shrinks_map (shrinks_pair (shrinks_preceded (shrinks_pair (shrinks_tag _) (shrinks_takeWhile _))
    shrinks_validKeySequence) (shrinks_map (shrinks_opt (shrinks_preceded (shrinks_tag _)
      shrinks_paramValue))))

theorem shrinks_parameter : Shrinks parameter := shrinks_alt shrinks_pairParameter shrinks_baseParameter

theorem shrinks_parameters : Shrinks parameters := shrinks_many0 shrinks_parameter

theorem shrinks_propertyParts : Shrinks propertyParts :=
  shrinks_alt (shrinks_separatedPair
    (shrinks_pair (shrinks_cut (shrinks_preceded (shrinks_takeWhile _) shrinks_propertyKey))
      shrinks_parameters) (shrinks_tag _) shrinks_propertyRest)
    (shrinks_map shrinks_validKeySequence)

theorem shrinks_property : Shrinks property :=
  shrinks_cut (shrinks_map (shrinks_pair shrinks_propertyParts (shrinks_opt shrinks_lineEnding)))

theorem shrinks_componentChild {rec : P PComp} (h : Shrinks rec) : Shrinks (componentChild rec) :=
  shrinks_cut (shrinks_alt (shrinks_map (shrinks_lineSeparated h))
    (shrinks_map (shrinks_lineSeparated shrinks_property)))

/-! ### `component` -/

omit [Uni] in
/-- a successful `line` consumed at least its keyword -/
theorem line_lt {α : Type} {t : Str} {p : P α} (hp : Shrinks p) {i r : Str} {a : α}
    (h : line t p i = .ok r a) : r.length + t.length ≤ i.length := by
  unfold line lineSeparated delimited map pair complete preceded map pair tagNoCase at h
  cases h1 : many0 lineEnding i with
  | error => simp [h1] at h
  | failure => simp [h1] at h
  | ok r1 l1 =>
    have hr1 := (shrinks_many0 shrinks_lineEnding _ _ _ h1).length_le
    simp only [h1] at h
    by_cases h2 : prefixNoCase t r1
    · simp only [h2, if_true] at h
      cases h3 : p (r1.drop t.length) with
      | error => simp [h3] at h
      | failure => simp [h3] at h
      | ok r3 a3 =>
        have hr3 := (hp _ _ _ h3).length_le
        simp only [h3] at h
        cases h4 : many0 lineEnding r3 with
        | error => simp [h4] at h
        | failure => simp [h4] at h
        | ok r4 a4 =>
          have hr4 := (shrinks_many0 shrinks_lineEnding _ _ _ h4).length_le
          simp only [h4] at h
          cases h
          have hlen : t.length ≤ r1.length := by
            clear h3 h1 hr3
            induction t generalizing r1 with
            | nil => simp
            | cons x t ih =>
              cases r1 with
              | nil => simp [prefixNoCase] at h2
              | cons c s =>
                simp only [prefixNoCase, Bool.and_eq_true] at h2
                have := ih (r1 := s) (by simp at hr1; omega) h2.2
                simpa using this
          rw [List.length_drop] at hr3
          omega
    · simp [h2] at h

omit [Uni] in
/-- lineSeparated only looks at its parser on inputs no longer than the given one -/
theorem lineSeparated_congr {α : Type} {p q : P α} {i : Str} (h : ∀ j, j.length ≤ i.length → p j = q j) :
    lineSeparated p i = lineSeparated q i := by
  unfold lineSeparated delimited map pair
  cases h1 : many0 lineEnding i with
  | error => rfl
  | failure => rfl
  | ok r1 l1 =>
    have hr1 := (shrinks_many0 shrinks_lineEnding _ _ _ h1).length_le
    simp only [h r1 hr1]

theorem componentChild_congr {p q : P PComp} {i : Str} (h : ∀ j, j.length ≤ i.length → p j = q j) :
    componentChild p i = componentChild q i := by
  unfold componentChild cut alt map
  rw [lineSeparated_congr h]

/-- the body of a component only makes recursive calls on strictly shorter inputs -/
theorem componentBody_congr {f f' : P PComp} {i : Str} (hs : Shrinks f)
    (h : ∀ j, j.length < i.length → f j = f' j) : componentBody f i = componentBody f' i := by
  unfold componentBody
  cases h1 : line c!"BEGIN:" validKeySequence i with
  | error => rfl
  | failure => rfl
  | ok r name =>
    have hr := line_lt shrinks_validKeySequence h1
    simp at hr
    simp only
    rw [manyTill_congr (f' := componentChild f') (shrinks_componentChild hs)]
    intro j hj
    exact componentChild_congr (fun k hk => h k (by omega))

theorem shrinks_componentBody {f : P PComp} (hs : Shrinks f) : Shrinks (componentBody f) := by
  intro i r a h
  unfold componentBody at h
  cases h1 : line c!"BEGIN:" validKeySequence i with
  | error => simp [h1] at h
  | failure => simp [h1] at h
  | ok r1 name =>
    simp only [h1] at h
    cases h2 : manyTill (componentChild f) (componentEnd name) r1 with
    | error => simp [h2] at h
    | failure => simp [h2] at h
    | ok r2 x =>
      simp only [h2] at h
      cases h3 : many0 (tag ['\n']) r2 with
      | error => simp [h3] at h
      | failure => simp [h3] at h
      | ok r3 y =>
        simp only [h3] at h
        cases h
        exact (shrinks_many0 (shrinks_tag _) _ _ _ h3).trans
          ((shrinks_manyTill (shrinks_componentChild hs) (shrinks_componentEnd _) _ _ _ h2).trans
            (shrinks_line _ shrinks_validKeySequence _ _ _ h1))

theorem shrinks_componentF (n : Nat) : Shrinks (componentF n) := by
  induction n with
  | zero => intro i r a h; simp [componentF] at h
  | succ n ih => exact shrinks_componentBody ih

theorem componentF_budget (n : Nat) : ∀ m i, i.length < n → i.length < m →
    componentF n i = componentF m i := by
  induction n with
  | zero => intro m i h; omega
  | succ n ih =>
    intro m i hn hm
    cases m with
    | zero => omega
    | succ m =>
      exact componentBody_congr (shrinks_componentF n) (fun j hj => ih m j (by omega) (by omega))

theorem shrinks_component : Shrinks component := fun i r a h => shrinks_componentF _ i r a h

/-- `component` is recursive without any budget -/
theorem component_eq (i : Str) : component i = componentBody component i :=
  componentBody_congr (shrinks_componentF _)
    (fun j hj => componentF_budget _ _ j hj (by omega))

/-- and it is the only function satisfying its recursion equation -/
theorem component_unique (f : P PComp) (h : ∀ i, f i = componentBody f i) : f = component := by
  funext i
  suffices ∀ n i, i.length < n → component i = f i from (this (i.length + 1) i (by omega)).symm
  intro n
  induction n with
  | zero => intro i hi; omega
  | succ n ih =>
    intro i hi
    rw [h, component_eq]
    exact componentBody_congr shrinks_component (fun j hj => ih j (by omega))

theorem shrinks_components : Shrinks components := shrinks_many0 (shrinks_allConsuming shrinks_component)

end Ical
