import Verif.Proofs.Work

/-!
The cost of reading: upper bounds for the number of steps.
-/

namespace Ical

open Spec (opens UpperBegins NameChar IsName Blank)
open Nom (shrinks_many0 shrinks_lineEnding shrinks_tag)

namespace MP
variable {α β γ : Type}

/-! ### parsers with linear cost -/

/-- at most `k` steps for every character and one for the end of the text -/
def Lin (k : Nat) (p : MP α) : Prop := ∀ N i, i.length < N → p.cost i ≤ k * N

theorem lin_map {k : Nat} {f : α → β} {p : MP α} (h : Lin k p) : Lin k (map f p) := h
theorem lin_cut {k : Nat} {p : MP α} (h : Lin k p) : Lin k (cut p) := h
theorem lin_opt {k : Nat} {p : MP α} (h : Lin k p) : Lin k (opt p) := h

theorem lin_alt {a b : Nat} {p q : MP α} (hp : Lin a p) (hq : Lin b q) : Lin (a + b) (alt .steps p q) := by
  intro N i h
  have h1 := hp N i h
  have h2 := hq N i h
  rw [Nat.add_mul]
  cases hr : p.run i with
  | ok r x => rw [alt_cost_ok hr]; omega
  | failure => rw [alt_cost_failure hr]; omega
  | error => rw [alt_cost_error hr]; omega

theorem lin_pair {a b : Nat} {p : MP α} {q : MP β} (hs : Shrinks p.run) (hp : Lin a p) (hq : Lin b q) :
    Lin (a + b) (pair .steps p q) := by
  intro N i h
  have h1 := hp N i h
  rw [Nat.add_mul]
  cases hr : p.run i with
  | ok r x =>
    rw [pair_cost_ok hr]
    have h2 := (hs _ _ _ hr).length_le
    have h3 := hq N r (by omega)
    omega
  | failure => rw [pair_cost_failure hr]; omega
  | error => rw [pair_cost_error hr]; omega

theorem lin_preceded {a b : Nat} {p : MP α} {q : MP β} (hs : Shrinks p.run) (hp : Lin a p) (hq : Lin b q) :
    Lin (a + b) (preceded .steps p q) := lin_pair hs hp hq
theorem lin_delimited {a b c : Nat} {p : MP α} {q : MP β} {r : MP γ} (hs : Shrinks p.run) (ht : Shrinks q.run)
    (hp : Lin a p) (hq : Lin b q) (hr : Lin c r) : Lin (a + (b + c)) (delimited .steps p q r) :=
  lin_map (lin_pair hs hp (lin_pair ht hq hr))
theorem lin_separatedPair {a b c : Nat} {p : MP α} {s : MP γ} {q : MP β} (hs : Shrinks p.run) (ht : Shrinks s.run)
    (hp : Lin a p) (hq : Lin b s) (hr : Lin c q) : Lin (a + (b + c)) (separatedPair .steps p s q) :=
  lin_map (lin_pair hs hp (lin_pair ht hq hr))

theorem const_lin {c N : Nat} (h : 0 < N) : c ≤ c * N := Nat.le_mul_of_pos_right _ h

theorem lin_tag (t : Str) : Lin (t.length + 1) (tag .steps t) :=
  fun _ _ h => const_lin (c := t.length + 1) (Nat.lt_of_le_of_lt (Nat.zero_le _) h)
theorem lin_tagNoCase (t : Str) : Lin (t.length + 1) (tagNoCase .steps t) :=
  fun _ _ h => const_lin (c := t.length + 1) (Nat.lt_of_le_of_lt (Nat.zero_le _) h)
theorem lin_eof : Lin 2 (eof .steps) :=
  fun _ _ h => const_lin (c := 2) (Nat.lt_of_le_of_lt (Nat.zero_le _) h)
theorem lin_lineEnding : Lin 3 (lineEnding .steps) :=
  fun _ _ h => const_lin (c := 3) (Nat.lt_of_le_of_lt (Nat.zero_le _) h)

theorem length_takeWhile_le {f : Char → Bool} (i : Str) : (i.takeWhile f).length ≤ i.length :=
  (List.takeWhile_prefix f).length_le

theorem lin_takeWhile (f : Char → Bool) : Lin 2 (takeWhile .steps f) := by
  intro N i h
  show (i.takeWhile f).length + 1 + 1 ≤ _
  have := length_takeWhile_le (f := f) i
  omega
theorem lin_takeTill1 (f : Char → Bool) : Lin 2 (takeTill1 .steps f) := lin_takeWhile _

theorem lin_takeUntil (t : Str) : Lin 1 (takeUntil .steps t) := by
  intro N i h
  show (match Nom.findSub t i with | some (a, _) => a.length + t.length | none => i.length) + 1 ≤ _
  cases hf : Nom.findSub t i with
  | none => simp only; omega
  | some x =>
    obtain ⟨a, b⟩ := x
    obtain ⟨h1, h2⟩ := Nom.findSub_some hf
    have := h2.length_le
    simp only [h1, List.length_append] at h ⊢
    omega

/-- repeating a parser of constant cost -/
theorem lin_many0_const {c : Nat} {p : MP α} (hs : Shrinks p.run) (hc : ∀ i, p.cost i = c) :
    Lin c (many0 .steps p) := by
  have : ∀ n i, many0Cost .steps p n i ≤ c * (i.length + 1) := by
    intro n
    induction n with
    | zero => intro i; exact Nat.zero_le _
    | succ n ih =>
      intro i
      show p.cost i + _ ≤ _
      rw [hc, Nat.mul_succ]
      cases hr : p.run i with
      | ok r a =>
        simp only
        split
        · omega
        · have h1 := (hs _ _ _ hr).length_le
          have h2 := ih r
          have h3 : c * (r.length + 1) ≤ c * i.length := Nat.mul_le_mul_left _ (by omega)
          omega
      | error => simp only; omega
      | failure => simp only; omega
  intro N i h
  exact Nat.le_trans (this _ i) (Nat.mul_le_mul_left _ h)

theorem lin_breaks : Lin 3 (many0 .steps (lineEnding .steps)) :=
  lin_many0_const shrinks_lineEnding (fun _ => rfl)

theorem lin_lineSeparated {k : Nat} {p : MP α} (hs : Shrinks p.run) (h : Lin k p) :
    Lin (3 + (k + 3)) (lineSeparated .steps p) :=
  lin_pair (shrinks_many0 shrinks_lineEnding) lin_breaks (lin_pair hs h lin_breaks)

theorem lin_paramValue : Lin 10 (paramValue .steps) :=
  lin_alt lin_eof (lin_alt (lin_delimited (shrinks_tag _) (Nom.shrinks_takeTill1 _) (lin_tag ['"'])
    (lin_takeTill1 _) (lin_tag ['"'])) (lin_takeTill1 _))

theorem lin_propertyRest : Lin 4 (propertyRest .steps) :=
  lin_alt (lin_takeUntil _) (lin_alt (lin_takeUntil _) (lin_takeWhile _))

variable [Uni]

theorem lin_validKeySequence : Lin 2 (validKeySequence .steps) := lin_takeWhile _

omit [Uni] in
theorem lin_semicolon : Lin 4 (pair .steps (tag .steps [';']) (space0 .steps)) :=
  lin_pair (shrinks_tag _) (lin_tag [';']) (lin_takeWhile _)

theorem lin_pairParameter : Lin 18 (pairParameter .steps) :=
  lin_map (lin_preceded (Nom.shrinks_pair (shrinks_tag _) (Nom.shrinks_takeWhile _)) lin_semicolon
    (lin_separatedPair shrinks_validKeySequence (shrinks_tag _) lin_validKeySequence (lin_tag ['='])
      (lin_map (lin_opt lin_paramValue))))

theorem lin_baseParameter : Lin 18 (baseParameter .steps) :=
  lin_map (lin_pair (Nom.shrinks_preceded (Nom.shrinks_pair (shrinks_tag _) (Nom.shrinks_takeWhile _))
      shrinks_validKeySequence)
    (lin_preceded (Nom.shrinks_pair (shrinks_tag _) (Nom.shrinks_takeWhile _)) lin_semicolon lin_validKeySequence)
    (lin_map (lin_opt (lin_preceded (shrinks_tag _) (lin_tag ['=']) lin_paramValue))))

theorem lin_parameter : Lin 36 (parameter .steps) := lin_alt lin_pairParameter lin_baseParameter

theorem lin_propertyKey : Lin 8 (propertyKey .steps) := by
  intro N i h
  show 6 + _ ≤ _
  split
  · omega
  · have : (validKeySequence .steps).cost i ≤ _ := lin_validKeySequence N i h
    omega

/-- the name of a property -/
theorem lin_name : Lin 10 (cut (preceded .steps (multispace0 .steps) (propertyKey .steps))) :=
  lin_cut (lin_map (lin_pair (Nom.shrinks_takeWhile _) (lin_takeWhile _) lin_propertyKey))

theorem lin_begin : Lin 15 (line .steps c!"BEGIN:" (validKeySequence .steps)) :=
  lin_lineSeparated (Nom.shrinks_preceded (Nom.shrinks_tagNoCase _) shrinks_validKeySequence)
    (lin_map (lin_pair (Nom.shrinks_tagNoCase _) (lin_tagNoCase c!"BEGIN:") lin_validKeySequence))

omit [Uni] in
theorem pair_bound {p : MP α} {q : MP β} {N a b : Nat} {i : Str} (hs : Shrinks p.run) (hi : i.length < N)
    (hp : p.cost i ≤ a) (hq : ∀ j : Str, j.length < N → q.cost j ≤ b) : (pair .steps p q).cost i ≤ a + b := by
  cases hr : p.run i with
  | ok r x =>
    rw [pair_cost_ok hr]
    have h2 := (hs _ _ _ hr).length_le
    have h3 := hq r (by omega)
    omega
  | failure => rw [pair_cost_failure hr]; omega
  | error => rw [pair_cost_error hr]; omega

omit [Uni] in
theorem componentEnd_cost {N : Nat} {name i : Str} (hn : name.length < N) (hi : i.length < N) :
    (componentEnd .steps name).cost i ≤ 12 * N := by
  have h1 : ∀ j : Str, j.length < N →
      (preceded .steps (tagNoCase .steps c!"END:") (cut (tag .steps name))).cost j ≤ 5 * N + N := by
    intro j hj
    refine pair_bound (Nom.shrinks_tagNoCase _) hj (lin_tagNoCase c!"END:" N j hj) ?_
    intro k _
    show name.length + 1 ≤ N
    omega
  have h2 : (componentEnd .steps name).cost i ≤ 3 * N + (5 * N + N + 3 * N) := by
    refine pair_bound (shrinks_many0 shrinks_lineEnding) hi (lin_breaks N i hi) ?_
    intro j hj
    exact pair_bound (Nom.shrinks_preceded (Nom.shrinks_tagNoCase _) (Nom.shrinks_cut (shrinks_tag _))) hj (h1 j hj)
      (fun k hk => lin_breaks N k hk)
  omega

/-! ### repetition -/

omit [Uni] in
theorem mul_lt_add {u a b : Nat} (h : a < b) : u * a + u ≤ u * b := by
  rw [← Nat.mul_succ]; exact Nat.mul_le_mul_left _ h

omit [Uni] in
/-- every repetition consumes something -/
theorem many0Cost_all {p : MP α} {u N : Nat} (hs : Shrinks p.run) (hu : ∀ j : Str, j.length < N → p.cost j ≤ u)
    (n : Nat) : ∀ i : Str, i.length < N → many0Cost .steps p n i ≤ u * i.length + u := by
  induction n with
  | zero => intro i _; exact Nat.zero_le _
  | succ n ih =>
    intro i hi
    have h0 := hu i hi
    show p.cost i + _ ≤ _
    cases hr : p.run i with
    | ok r a =>
      simp only
      split
      · omega
      · have h1 := (hs _ _ _ hr).length_le
        have h2 := ih r (by omega)
        have h3 := mul_lt_add (u := u) (a := r.length) (b := i.length) (by omega)
        omega
    | error => simp only; omega
    | failure => simp only; omega

omit [Uni] in
theorem many0Cost_ok {p : MP α} {u N : Nat} (hs : Shrinks p.run) (hu : ∀ j : Str, j.length < N → p.cost j ≤ u)
    (n : Nat) : ∀ (i r : Str) (l : List α), i.length < N → Nom.many0F p.run n i = .ok r l →
      many0Cost .steps p n i + u * r.length ≤ u * i.length + u := by
  induction n with
  | zero => intro i r l _ h; cases h
  | succ n ih =>
    intro i r l hi h
    have h0 := hu i hi
    show p.cost i + _ + _ ≤ _
    unfold Nom.many0F at h
    cases hr : p.run i with
    | ok r1 a =>
      simp only [hr] at h ⊢
      split at h
      · cases h
      · rename_i hne
        rw [if_neg hne]
        have h1 := (hs _ _ _ hr).length_le
        have h3 := mul_lt_add (u := u) (a := r1.length) (b := i.length) (by omega)
        cases hm : Nom.many0F p.run n r1 with
        | ok r2 l2 =>
          simp only [hm] at h
          cases h
          have h2 := ih r1 _ _ (by omega) hm
          omega
        | error => simp [hm] at h
        | failure => simp [hm] at h
    | error => simp only [hr] at h ⊢; cases h; omega
    | failure => simp [hr] at h

theorem parameters_cost {N : Nat} {i : Str} (hi : i.length < N) :
    (parameters .steps).cost i ≤ 36 * N * i.length + 36 * N :=
  many0Cost_all shrinks_parameter (fun j hj => lin_parameter N j hj) _ i hi

theorem parameters_cost_ok {N : Nat} {i r : Str} {l : List PParam} (hi : i.length < N)
    (h : Ical.parameters i = .ok r l) :
    (parameters .steps).cost i + 36 * N * r.length ≤ 36 * N * i.length + 36 * N :=
  many0Cost_ok shrinks_parameter (fun j hj => lin_parameter N j hj) _ i r l hi h

/-! ### properties -/

/-- the part of a property before its value -/
def headPart : MP (Str × List PParam) :=
  pair .steps (cut (preceded .steps (multispace0 .steps) (propertyKey .steps))) (parameters .steps)

/-- a property with a colon -/
def fullPart : MP ((Str × List PParam) × Str) :=
  separatedPair .steps headPart (tag .steps [':']) (propertyRest .steps)

theorem shrinks_headPart : Shrinks headPart.run :=
  Nom.shrinks_pair (Nom.shrinks_cut (Nom.shrinks_preceded (Nom.shrinks_takeWhile _) shrinks_propertyKey))
    shrinks_parameters

theorem headPart_cost {N : Nat} {i : Str} (hi : i.length < N) :
    headPart.cost i ≤ 10 * N + (36 * N * i.length + 36 * N) := by
  refine pair_bound (N := i.length + 1)
    (Nom.shrinks_cut (Nom.shrinks_preceded (Nom.shrinks_takeWhile _) shrinks_propertyKey)) (Nat.lt_succ_self _)
    (lin_name N i hi) ?_
  intro j hj
  have h1 := parameters_cost (N := N) (i := j) (by omega)
  have h2 : 36 * N * j.length ≤ 36 * N * i.length := Nat.mul_le_mul_left _ (by omega)
  omega

omit [Uni] in
theorem lin_colonRest : Lin 6 (pair .steps (tag .steps [':']) (propertyRest .steps)) :=
  lin_pair (shrinks_tag _) (lin_tag [':']) lin_propertyRest

theorem fullPart_cost {N : Nat} {i : Str} (hi : i.length < N) :
    fullPart.cost i ≤ 10 * N + (36 * N * i.length + 36 * N) + 6 * N :=
  pair_bound shrinks_headPart hi (headPart_cost hi) (fun j hj => lin_colonRest N j hj)

theorem propertyParts_cost {N : Nat} {i : Str} (hi : i.length < N) :
    (propertyParts .steps).cost i ≤ fullPart.cost i + 2 * N := by
  have h1 : (validKeySequence .steps).cost i ≤ 2 * N := lin_validKeySequence N i hi
  show (alt .steps fullPart (map (fun key => ((key, []), [])) (validKeySequence .steps))).cost i ≤ _
  cases hr : fullPart.run i with
  | ok r a => rw [alt_cost_ok hr]; omega
  | failure => rw [alt_cost_failure hr]; omega
  | error => rw [alt_cost_error hr]; exact Nat.add_le_add_left h1 _

theorem property_cost_parts {N : Nat} {i : Str} (hi : i.length < N) :
    (property .steps).cost i ≤ (propertyParts .steps).cost i + 3 * N :=
  pair_bound shrinks_propertyParts hi (Nat.le_refl _) (fun j hj => lin_lineEnding N j hj)

theorem property_cost {N : Nat} {i : Str} (hi : i.length < N) :
    (property .steps).cost i ≤ 36 * N * i.length + 57 * N := by
  have h1 := fullPart_cost hi
  have h2 := propertyParts_cost hi
  have h3 := property_cost_parts hi
  omega

/-- a line that starts like a component is given up at once -/
theorem property_begin {N : Nat} {i : Str} (hi : i.length < N) (hb : i.take 5 = c!"BEGIN") :
    Ical.property i = .failure ∧ (property .steps).cost i ≤ 10 * N := by
  have hpre : (c!"BEGIN").isPrefixOf i = true := by
    rw [List.isPrefixOf_iff_prefix, ← hb]
    exact List.take_prefix _ _
  have hm : Nom.multispace0 i = .ok i [] := by
    cases i with
    | nil => simp at hb
    | cons c i =>
      have : c = 'B' := by simp at hb; exact hb.1
      subst this
      rfl
  have hn : Nom.cut (Nom.preceded Nom.multispace0 Ical.propertyKey) i = .failure := by
    simp [Nom.cut, Nom.preceded, Nom.map, Nom.pair, hm, Ical.propertyKey, hpre]
  have hh : headPart.run i = .failure := by
    show Nom.pair (Nom.cut (Nom.preceded Nom.multispace0 Ical.propertyKey)) Ical.parameters i = _
    simp [Nom.pair, hn]
  have hf : fullPart.run i = .failure := by
    show Nom.map _ (Nom.pair headPart.run _) i = _
    simp [Nom.pair, Nom.map, hh]
  have hp : (propertyParts .steps).run i = .failure := by
    show Nom.alt fullPart.run _ i = _
    simp [Nom.alt, hf]
  constructor
  · show Nom.cut (Nom.map _ (Nom.pair (propertyParts .steps).run _)) i = _
    simp [Nom.cut, Nom.pair, Nom.map, hp]
  · show (pair .steps (propertyParts .steps) (opt (lineEnding .steps))).cost i ≤ _
    rw [pair_cost_failure hp]
    show (alt .steps fullPart _).cost i ≤ _
    rw [alt_cost_failure hf]
    show (pair .steps headPart _).cost i ≤ _
    rw [pair_cost_failure hh]
    show (pair .steps _ (parameters .steps)).cost i ≤ _
    rw [pair_cost_failure hn]
    exact lin_name N i hi

theorem property_never_error (i : Str) : Ical.property i ≠ .error := by
  unfold Ical.property Nom.cut
  split <;> simp_all

/-- what the property parser gives when the part before the value was read -/
theorem property_full {i r1 r2 r3 : Str} {x : Str × List PParam} {y : Str} {z : Str}
    (h1 : headPart.run i = .ok r1 x) (h2 : Nom.tag [':'] r1 = .ok r2 y) (h3 : Ical.propertyRest r2 = .ok r3 z) :
    (propertyParts .steps).run i = .ok r3 (x, z) := by
  show Nom.alt (Nom.separatedPair headPart.run (Nom.tag [':']) Ical.propertyRest) _ i = _
  simp [Nom.alt, Nom.separatedPair, Nom.map, Nom.pair, h1, h2, h3]

/-- the name of a property -/
def namePart : P Str := Nom.cut (Nom.preceded Nom.multispace0 Ical.propertyKey)

/-- what follows the name of a property with a colon -/
def afterName : P (List PParam × (Str × Str)) :=
  Nom.pair Ical.parameters (Nom.pair (Nom.tag [':']) Ical.propertyRest)

theorem fullPart_failure {i : Str} (h : namePart i = .failure) : fullPart.run i = .failure := by
  show Nom.map _ (Nom.pair (Nom.pair namePart Ical.parameters) _) i = _
  simp [Nom.map, Nom.pair, h]

theorem fullPart_after {i i2 k : Str} (h : namePart i = .ok i2 k) : fullPart.run i = (match afterName i2 with
    | .ok r x => .ok r ((k, x.1), x.2.2)
    | .error => .error
    | .failure => .failure) := by
  show Nom.map _ (Nom.pair (Nom.pair namePart Ical.parameters) (Nom.pair (Nom.tag [':']) Ical.propertyRest)) i = _
  simp only [Nom.map, Nom.pair, h, afterName]
  cases Ical.parameters i2 with
  | error => rfl
  | failure => rfl
  | ok r1 l =>
    simp only
    cases Nom.tag [':'] r1 with
    | error => rfl
    | failure => rfl
    | ok r2 y =>
      simp only
      cases Ical.propertyRest r2 <;> rfl

theorem property_failure_of {i : Str} (h : fullPart.run i = .failure) : Ical.property i = .failure := by
  show Nom.cut (Nom.map _ (Nom.pair (Nom.alt fullPart.run _) _)) i = _
  simp [Nom.cut, Nom.pair, Nom.map, Nom.alt, h]

theorem property_ok_of {i r : Str} {x : (Str × List PParam) × Str} (h : fullPart.run i = .ok r x) :
    ∃ r' p, Ical.property i = .ok r' p ∧ r' <:+ r := by
  have : Ical.property i = Nom.cut (Nom.map (fun x => mkProperty x.1)
      (Nom.pair (Nom.alt fullPart.run (Nom.map (fun key => ((key, []), [])) Ical.validKeySequence))
        (Nom.opt Nom.lineEnding))) i := rfl
  rw [this]
  simp only [Nom.cut, Nom.pair, Nom.map, Nom.alt, h]
  cases hr : Nom.opt Nom.lineEnding r with
  | error => unfold Nom.opt at hr; split at hr <;> cases hr
  | failure =>
    unfold Nom.opt at hr
    split at hr
    · cases hr
    · cases hr
    · rename_i hl
      unfold Nom.lineEnding at hl
      split at hl <;> cases hl
  | ok r' a => exact ⟨r', _, rfl, Nom.shrinks_opt shrinks_lineEnding _ _ _ hr⟩

theorem property_fallback {i : Str} (h : fullPart.run i = .error)
    (hl : Nom.lineEnding (i.dropWhile isKeyChar) = .error) :
    ∃ p, Ical.property i = .ok (i.dropWhile isKeyChar) p := by
  have : Ical.property i = Nom.cut (Nom.map (fun x => mkProperty x.1)
      (Nom.pair (Nom.alt fullPart.run (Nom.map (fun key => ((key, []), [])) Ical.validKeySequence))
        (Nom.opt Nom.lineEnding))) i := rfl
  rw [this]
  simp only [Nom.cut, Nom.pair, Nom.map, Nom.alt, h, Ical.validKeySequence, Nom.takeWhile, Nom.opt, hl]
  exact ⟨_, rfl⟩

omit [Uni] in
theorem lineEnding_semicolon {i : Str} (h : i.head? = some ';') : Nom.lineEnding i = .error := by
  cases i with
  | nil => rfl
  | cons c i => simp at h; subst h; rfl

theorem namePart_semicolon {i : Str} (h : i.head? = some ';') : namePart i = .ok i [] := by
  cases i with
  | nil => cases h
  | cons c i =>
    simp at h
    subst h
    have h1 : Nom.multispace0 (';' :: i) = .ok (';' :: i) [] := rfl
    have h2 : Ical.propertyKey (';' :: i) = .ok (';' :: i) [] := by
      simp [Ical.propertyKey, Ical.validKeySequence, Nom.takeWhile, isKeyChar_semi]
    simp [namePart, Nom.cut, Nom.preceded, Nom.map, Nom.pair, h1, h2]

theorem parameter_none {i : Str} (h : i.head? ≠ some ';') : Ical.parameter i = .error := by
  have ht : Nom.tag [';'] i = .error := by
    unfold Nom.tag
    rw [if_neg]
    cases i with
    | nil => simp
    | cons c i => simp [List.isPrefixOf] at h ⊢; exact fun hc => h hc.symm
  simp [Ical.parameter, Nom.alt, Ical.pairParameter, Ical.baseParameter, Nom.map, Nom.preceded, Nom.pair, ht]

theorem parameters_none {N : Nat} {i : Str} (hi : i.length < N) (h : i.head? ≠ some ';') :
    (parameters .steps).cost i ≤ 36 * N := by
  have h1 := parameter_none h
  have h2 : (parameter .steps).cost i ≤ 36 * N := lin_parameter N i hi
  show (parameter .steps).cost i + _ ≤ _
  rw [show (parameter .steps).run i = .error from h1]
  exact h2

/-- What a property costs is paid by what it consumes, unless reading stops there: then it has to be a text at
which nothing can be read any more. -/
theorem property_paid {N : Nat} {i r : Str} {p : PProp} (hi : i.length < N) (hl : Nom.lineEnding i = .error)
    (h : Ical.property i = .ok r p) :
    (property .steps).cost i + 36 * N * r.length ≤ 36 * N * i.length + 60 * N ∨ r = i ∨
      (r.head? = some ';' ∧ ∃ q, Ical.property r = .ok r q) := by
  have hri := (shrinks_property _ _ _ h).length_le
  have hpp := property_cost_parts hi
  cases hA : namePart i with
  | error => unfold namePart Nom.cut at hA; split at hA <;> simp_all
  | failure => rw [property_failure_of (fullPart_failure hA)] at h; cases h
  | ok i2 k =>
    have hs2 : i2 <:+ i :=
      Nom.shrinks_cut (Nom.shrinks_preceded (Nom.shrinks_takeWhile _) shrinks_propertyKey) _ _ _ hA
    have hl2 := hs2.length_le
    have hname : (cut (preceded .steps (multispace0 .steps) (propertyKey .steps))).cost i ≤ 10 * N := lin_name N i hi
    have hhead : headPart.cost i = (cut (preceded .steps (multispace0 .steps) (propertyKey .steps))).cost i +
        (parameters .steps).cost i2 := pair_cost_ok hA
    have hfa := fullPart_after hA
    cases hB : afterName i2 with
    | failure => rw [hB] at hfa; rw [property_failure_of hfa] at h; cases h
    | ok r3 x =>
      rw [hB] at hfa
      left
      obtain ⟨r', p', h1, h2⟩ := property_ok_of hfa
      rw [h1] at h
      cases h
      unfold afterName Nom.pair at hB
      cases hP : Ical.parameters i2 with
      | error => simp [hP] at hB
      | failure => simp [hP] at hB
      | ok r1 l =>
        simp only [hP] at hB
        have hr1 : r3 <:+ r1 := by
          cases hT : Nom.tag [':'] r1 with
          | error => simp [hT] at hB
          | failure => simp [hT] at hB
          | ok r2 y =>
            simp only [hT] at hB
            cases hR : Ical.propertyRest r2 with
            | error => simp [hR] at hB
            | failure => simp [hR] at hB
            | ok r4 z =>
              simp only [hR] at hB
              cases hB
              exact (shrinks_propertyRest _ _ _ hR).trans (shrinks_tag _ _ _ _ hT)
        have hpc := parameters_cost_ok (N := N) (by omega) hP
        have hl3 := (h2.trans hr1).length_le
        have hf : fullPart.cost i ≤ headPart.cost i + 6 * N :=
          pair_bound shrinks_headPart hi (Nat.le_refl _) (fun j hj => lin_colonRest N j hj)
        have hparts := propertyParts_cost hi
        have e1 : 36 * N * r.length ≤ 36 * N * r1.length := Nat.mul_le_mul_left _ hl3
        have e2 : 36 * N * i2.length ≤ 36 * N * i.length := Nat.mul_le_mul_left _ hl2
        omega
    | error =>
      rw [hB] at hfa
      by_cases hw : ∃ c, i.head? = some c ∧ (c = ' ' ∨ c = '\t' ∨ c = '\r' ∨ c = '\n')
      · right; left
        obtain ⟨c, hc, hcw⟩ := hw
        have hd : i.dropWhile isKeyChar = i := by
          cases i with
          | nil => rfl
          | cons d i =>
            simp at hc
            subst hc
            have : isKeyChar d = false := by
              rcases hcw with rfl | rfl | rfl | rfl
              · exact isKeyChar_sp
              · exact isKeyChar_tab
              · exact isKeyChar_cr
              · exact isKeyChar_lf
            simp [this]
        obtain ⟨q, hq⟩ := property_fallback hfa (by rw [hd]; exact hl)
        rw [hq] at h
        cases h
        exact hd
      · have hm : Nom.multispace0 i = .ok i [] := by
          refine takeWhile_ok (a := []) (by simp) ?_
          intro c hc
          have : ¬ (c = ' ' ∨ c = '\t' ∨ c = '\r' ∨ c = '\n') := fun hx => hw ⟨c, by simpa using hc, hx⟩
          simp only [not_or] at this
          simp [this]
        have hi2 : i2 = i.dropWhile isKeyChar := by
          simp only [namePart, Nom.cut, Nom.preceded, Nom.map, Nom.pair, hm] at hA
          by_cases hx : (['E', 'N', 'D'].isPrefixOf i || ['B', 'E', 'G', 'I', 'N'].isPrefixOf i) = true
          · simp [Ical.propertyKey, hx] at hA
          · simp only [Ical.propertyKey, if_neg hx, Ical.validKeySequence, Nom.takeWhile] at hA
            cases hA
            rfl
        by_cases hsc : i2.head? = some ';'
        · right; right
          obtain ⟨q, hq⟩ := property_fallback hfa (by rw [← hi2]; exact lineEnding_semicolon hsc)
          rw [hq] at h
          cases h
          rw [← hi2]
          refine ⟨hsc, ?_⟩
          have hfb := fullPart_after (namePart_semicolon hsc)
          rw [hB] at hfb
          have hd : i2.dropWhile isKeyChar = i2 := by
            cases i2 with
            | nil => rfl
            | cons d i =>
              simp at hsc
              subst hsc
              simp [isKeyChar_semi]
          obtain ⟨q', hq'⟩ := property_fallback hfb (by rw [hd]; exact lineEnding_semicolon hsc)
          rw [hd] at hq'
          exact ⟨q', hq'⟩
        · left
          have hpc := parameters_none (N := N) (by omega) hsc
          have hf : fullPart.cost i ≤ headPart.cost i + 6 * N :=
            pair_bound shrinks_headPart hi (Nat.le_refl _) (fun j hj => lin_colonRest N j hj)
          have hparts := propertyParts_cost hi
          have e1 : 36 * N * r.length ≤ 36 * N * i.length := Nat.mul_le_mul_left _ hri
          omega

end MP

end Ical
