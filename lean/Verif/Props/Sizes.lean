import Verif.Spec.Sizes
import Verif.Props.Grammar
import Verif.Props.ContentLine

/-!
C82: what is read is not larger than the text, and what is written is proportional to what it says.
-/

namespace Ical

open Nom Spec

/-- what is read, and what is left, together weigh at most as much as the input -/
def Bound {α : Type} (p : P α) (w : α → Nat) : Prop := ∀ i r a, p i = .ok r a → w a + r.length ≤ i.length

section
variable {α β γ : Type}

theorem bound_mono {p : P α} {v w : α → Nat} (h : Bound p v) (hi : ∀ a, w a ≤ v a) : Bound p w := by
  intro i r a ha
  have := h i r a ha
  have := hi a
  omega

theorem bound_shrinks {p : P α} (h : Shrinks p) : Bound p (fun _ => 0) := by
  intro i r a ha
  have := (h i r a ha).length_le
  simpa using this

theorem bound_map {p : P α} {g : α → β} {w : β → Nat} (h : Bound p (fun a => w (g a))) : Bound (map g p) w := by
  intro i r a hr
  unfold map at hr
  cases hp : p i with
  | ok r' a' => rw [hp] at hr; cases hr; exact h _ _ _ hp
  | error => rw [hp] at hr; cases hr
  | failure => rw [hp] at hr; cases hr

theorem bound_cut {p : P α} {w : α → Nat} (h : Bound p w) : Bound (cut p) w := by
  intro i r a hr
  unfold cut at hr
  cases hp : p i with
  | ok r' a' => rw [hp] at hr; cases hr; exact h _ _ _ hp
  | error => rw [hp] at hr; cases hr
  | failure => rw [hp] at hr; cases hr

theorem bound_alt {p q : P α} {w : α → Nat} (hp : Bound p w) (hq : Bound q w) : Bound (alt p q) w := by
  intro i r a hr
  unfold alt at hr
  cases h : p i with
  | ok r' a' => rw [h] at hr; cases hr; exact hp _ _ _ h
  | error => rw [h] at hr; exact hq _ _ _ hr
  | failure => rw [h] at hr; cases hr

theorem bound_pair {p : P α} {q : P β} {v : α → Nat} {w : β → Nat} (hp : Bound p v) (hq : Bound q w) :
    Bound (pair p q) (fun x => v x.1 + w x.2) := by
  intro i r a hr
  unfold pair at hr
  cases h : p i with
  | error => rw [h] at hr; cases hr
  | failure => rw [h] at hr; cases hr
  | ok r1 x =>
    rw [h] at hr
    cases h2 : q r1 with
    | error => simp [h2] at hr
    | failure => simp [h2] at hr
    | ok r2 y =>
      simp only [h2] at hr
      cases hr
      have := hp _ _ _ h
      have := hq _ _ _ h2
      simp only
      omega

theorem bound_opt {p : P α} {w : α → Nat} (h : Bound p w) : Bound (opt p) (fun o => (o.map w).getD 0) := by
  intro i r a hr
  unfold opt at hr
  cases hp : p i with
  | ok r' a' => rw [hp] at hr; cases hr; exact h _ _ _ hp
  | error => rw [hp] at hr; cases hr; simp
  | failure => rw [hp] at hr; cases hr

theorem bound_tag (t : Str) : Bound (tag t) (fun _ => t.length) := by
  intro i r a h
  obtain ⟨s, rfl, rfl⟩ := reads_tag t i r a h
  simp

theorem bound_tagNoCase (t : Str) : Bound (tagNoCase t) (fun _ => t.length) := by
  intro i r a h
  obtain ⟨s, rfl, hs⟩ := reads_tagNoCase t i r a h
  have := congrArg List.length hs
  simp at this
  simp [this]

theorem bound_takeWhile (g : Char → Bool) : Bound (takeWhile g) List.length := by
  intro i r a h
  obtain ⟨t, rfl, rfl, -⟩ := reads_takeWhile g i r a h
  simp

theorem bound_takeTill1 (g : Char → Bool) : Bound (takeTill1 g) List.length := by
  intro i r a h
  obtain ⟨t, rfl, rfl, -⟩ := reads_takeTill1 g i r a h
  simp

theorem bound_takeUntil (t : Str) : Bound (takeUntil t) List.length := by
  intro i r a h
  unfold takeUntil at h
  split at h
  · rename_i hf
    cases h
    obtain ⟨h3, -⟩ := findSub_some hf
    rw [h3]
    simp
  · cases h

/-- repetition; only iterations that consume something count -/
theorem bound_many0 {p : P α} {w : α → Nat}
    (h : ∀ i r a, p i = .ok r a → r.length < i.length → w a + r.length ≤ i.length) (hs : Shrinks p) :
    Bound (many0 p) (fun l => (l.map w).sum) := by
  suffices ∀ n i r l, many0F p n i = .ok r l → (l.map w).sum + r.length ≤ i.length from fun i r l => this _ i r l
  intro n
  induction n with
  | zero => intro i r l hl; simp [many0F] at hl
  | succ n ih =>
    intro i r l hl
    unfold many0F at hl
    cases hp : p i with
    | error => rw [hp] at hl; cases hl; simp
    | failure => rw [hp] at hl; cases hl
    | ok r1 a =>
      simp only [hp] at hl
      split at hl
      · cases hl
      · rename_i hne
        cases hm : many0F p n r1 with
        | error => simp [hm] at hl
        | failure => simp [hm] at hl
        | ok r2 l2 =>
          simp only [hm] at hl
          cases hl
          have h1 := ih _ _ _ hm
          have h2 := (hs _ _ _ hp).length_le
          have h3 := h _ _ _ hp (by omega)
          simp only [List.map_cons, List.sum_cons]
          omega

theorem bound_manyTill {p : P α} {g : P β} {w : α → Nat} {v : β → Nat}
    (h : ∀ i r a, p i = .ok r a → r.length < i.length → w a + r.length ≤ i.length) (hs : Shrinks p) (hg : Bound g v) :
    Bound (manyTill p g) (fun x => (x.1.map w).sum + v x.2) := by
  suffices ∀ n i r x, manyTillF p g n i = .ok r x → (x.1.map w).sum + v x.2 + r.length ≤ i.length
    from fun i r x => this _ i r x
  intro n
  induction n with
  | zero => intro i r l hl; simp [manyTillF] at hl
  | succ n ih =>
    intro i r x hl
    unfold manyTillF at hl
    cases hp : g i with
    | failure => rw [hp] at hl; cases hl
    | ok r1 b =>
      rw [hp] at hl
      cases hl
      have := hg _ _ _ hp
      simpa using this
    | error =>
      simp only [hp] at hl
      cases hq : p i with
      | error => simp [hq] at hl
      | failure => simp [hq] at hl
      | ok r1 a =>
        simp only [hq] at hl
        split at hl
        · cases hl
        · cases hm : manyTillF p g n r1 with
          | error => simp [hm] at hl
          | failure => simp [hm] at hl
          | ok r2 y =>
            obtain ⟨l2, b⟩ := y
            simp only [hm] at hl
            cases hl
            have h1 := ih _ _ _ hm
            have h2 := (hs _ _ _ hq).length_le
            have h3 := h _ _ _ hq (by omega)
            simp only [List.map_cons, List.sum_cons] at h1 ⊢
            omega

theorem bound_lineSeparated {p : P α} {w : α → Nat} (h : Bound p w) : Bound (lineSeparated p) w := by
  refine bound_map (bound_mono (bound_pair (bound_shrinks (shrinks_many0 shrinks_lineEnding))
    (bound_pair h (bound_shrinks (shrinks_many0 shrinks_lineEnding)))) ?_)
  intro a
  simp

theorem bound_line {t : Str} {p : P α} {w : α → Nat} (h : Bound p w) : Bound (line t p) (fun a => t.length + w a) := by
  refine bound_lineSeparated (p := complete (preceded (tagNoCase t) p)) ?_
  exact bound_map (bound_pair (bound_tagNoCase t) h)

end

/-! Values. -/

theorem rep2_length (y z : Char) (s : Str) : (rep2 y z s).length ≤ s.length := by
  fun_induction rep2 y z s with
  | case1 => simp
  | case2 => simp
  | case3 a b s h ih => simp; omega
  | case4 a b s h ih => simp at ih ⊢; omega

theorem unescapeText_length (s : Str) : (unescapeText s).length ≤ s.length := by
  unfold unescapeText
  split
  · simp only [replaceAll_rep2]
    refine Nat.le_trans (rep2_length ..) (Nat.le_trans (rep2_length ..) (Nat.le_trans (rep2_length ..)
      (Nat.le_trans (rep2_length ..) (Nat.le_trans (rep2_length ..) (rep2_length ..)))))
  · exact Nat.le_refl _

theorem splitGo_length (pat : Str) (k : Nat) (s : Str) : (splitGo pat k s).flatten.length ≤ s.length := by
  fun_induction splitGo pat k s <;> simp_all <;> omega

theorem splits_length (pat : Str) (l : List Str) : (l.flatMap (splitOn pat)).flatten.length ≤ l.flatten.length := by
  induction l with
  | nil => simp
  | cons s l ih =>
    have : (splitOn pat s).flatten.length ≤ s.length := splitGo_length pat 0 s
    simp only [List.flatMap_cons, List.flatten_append, List.length_append, List.flatten_cons]
    omega

theorem unfold_length (s : Str) : (unfold s).length ≤ s.length := by
  unfold unfold
  refine Nat.le_trans (splits_length ..) (Nat.le_trans (splits_length ..) (Nat.le_trans (splits_length ..) ?_))
  exact splitGo_length _ 0 s

/-! The parser. -/

theorem bound_propertyRest : Bound propertyRest List.length :=
  bound_alt (bound_takeUntil _) (bound_alt (bound_takeUntil _) (bound_takeWhile _))

theorem bound_paramValue : Bound paramValue List.length := by
  refine bound_alt ?_ (bound_alt ?_ (bound_takeTill1 _))
  · intro i r a h
    unfold eof at h
    split at h
    · cases h; simp
    · cases h
  · refine bound_map (bound_mono (bound_pair (bound_shrinks (shrinks_tag _))
      (bound_pair (bound_takeTill1 _) (bound_shrinks (shrinks_tag _)))) ?_)
    intro a
    simp

theorem removeEmpty_length (o : Option Str) : ((removeEmpty o).getD []).length ≤ (o.getD []).length := by
  cases o with
  | none => simp [removeEmpty]
  | some s =>
    by_cases h : s = [] <;> simp [removeEmpty, h]

theorem opt_length {o : Option Str} : (o.map List.length).getD 0 = (o.getD []).length := by
  cases o <;> rfl

variable [Uni]

theorem bound_parameter : Bound parameter (fun p => 1 + paramChars p) := by
  refine bound_alt ?_ ?_
  · refine bound_map (bound_map (bound_mono (bound_pair (bound_pair (bound_tag [';']) (bound_shrinks (shrinks_takeWhile _)))
      (bound_map (w := fun x => x.1.length + (x.2.getD []).length)
        (bound_mono (bound_pair (bound_takeWhile isKeyChar) (bound_pair (bound_shrinks (shrinks_tag _))
        (bound_map (w := fun o => (o.getD []).length) (bound_mono (bound_opt bound_paramValue) (fun o => by
          rw [opt_length]; exact removeEmpty_length o))))) ?_))) ?_))
    · intro a; simp
    · intro a; simp [paramChars]
  · refine bound_map (bound_mono (bound_pair (bound_map (w := fun k => 1 + k.length) (bound_mono (bound_pair
      (bound_pair (bound_tag [';']) (bound_shrinks (shrinks_takeWhile _))) (bound_takeWhile isKeyChar)) ?_))
      (bound_map (w := fun o => (o.getD []).length) (bound_mono (bound_opt
        (bound_map (w := List.length) (bound_mono (bound_pair (bound_shrinks (shrinks_tag _)) bound_paramValue) ?_)))
        (fun o => by rw [opt_length]; exact removeEmpty_length o)))) ?_)
    · intro a; simp
    · intro a; simp
    · intro a; simp [paramChars]; omega

theorem bound_parameters : Bound parameters (fun l => (l.map (fun p => 1 + paramChars p)).sum) :=
  bound_many0 (fun i r a h _ => bound_parameter i r a h) shrinks_parameter

theorem bound_propertyKey : Bound propertyKey List.length := by
  intro i r a h
  unfold propertyKey at h
  split at h
  · cases h
  · exact bound_takeWhile _ i r a h

theorem mkProperty_length (x : (Str × List PParam) × Str) : (mkProperty x).val.length ≤ x.2.length := by
  unfold mkProperty
  split
  · rename_i vt h
    cases vt <;> simp [unescapeByValueType, unescapeText_length]
  · exact Nat.le_refl _

/-- the characters and the parameters of a property, and one for the colon unless there is neither value nor parameter -/
theorem bound_property : Bound property (fun p => p.name.length + p.val.length +
    (p.params.map (fun p => 1 + paramChars p)).sum + (if p.val = [] ∧ p.params = [] then 0 else 1)) := by
  have hparts : Bound propertyParts (fun x => x.1.1.length + x.2.length + (x.1.2.map (fun p => 1 + paramChars p)).sum +
      (if x.2 = [] ∧ x.1.2 = [] then 0 else 1)) := by
    refine bound_alt ?_ ?_
    · refine bound_map (bound_mono (bound_pair (bound_pair (bound_cut (bound_map (w := List.length) (bound_mono
        (bound_pair (bound_shrinks (shrinks_takeWhile _)) bound_propertyKey) ?_))) bound_parameters)
        (bound_pair (bound_tag [':']) bound_propertyRest)) ?_)
      · intro a; simp
      · intro a
        simp only [List.length_cons, List.length_nil]
        split <;> omega
    · refine bound_map (bound_mono (bound_takeWhile _) ?_)
      intro a
      simp
  refine bound_cut (bound_map (bound_mono (bound_pair hparts (bound_shrinks (shrinks_opt shrinks_lineEnding))) ?_))
  intro a
  have := mkProperty_length a.1
  have e1 : (mkProperty a.1).name = a.1.1.1 := rfl
  have e2 : (mkProperty a.1).params = a.1.1.2 := rfl
  rw [e1, e2]
  by_cases hp : a.1.1.2 = []
  · by_cases hv : (mkProperty a.1).val = []
    · simp [hp, hv]; omega
    · have : a.1.2 ≠ [] := by
        intro h
        rw [h] at this
        apply hv
        simpa using this
      simp [hp, hv, this]; omega
  · simp [hp]; omega

mutual
/-- the weight of a component, given weights of properties -/
def compWeight (w : PProp → Nat) : PComp → Nat
  | .mk n props comps => 10 + 2 * n.length + (props.map w).sum + compsWeight w comps
/-- see `compWeight` -/
def compsWeight (w : PProp → Nat) : List PComp → Nat
  | [] => 0
  | c :: l => compWeight w c + compsWeight w l
end

/-- the weight of a child -/
def childWeight (w : PProp → Nat) : Child → Nat
  | .prop p => w p
  | .comp c => compWeight w c

omit [Uni] in
theorem children_weight (w : PProp → Nat) (l : List Child) :
    ((childProps l).map w).sum + compsWeight w (childComps l) = (l.map (childWeight w)).sum := by
  induction l with
  | nil => simp [childProps, childComps, compsWeight]
  | cons c l ih =>
    cases c with
    | prop p => simp [childProps, childComps, childWeight] at ih ⊢; omega
    | comp c => simp [childProps, childComps, childWeight, compsWeight] at ih ⊢; omega

/-- A weight of properties that is covered by the text of the property if there is any. -/
def Covered (w : PProp → Nat) : Prop :=
  ∀ p : PProp, w p ≤ max 1 (p.name.length + p.val.length + (p.params.map (fun p => 1 + paramChars p)).sum +
    (if p.val = [] ∧ p.params = [] then 0 else 1))

theorem bound_componentF {w : PProp → Nat} (hw : Covered w) (n : Nat) : Bound (componentF n) (compWeight w) := by
  induction n with
  | zero => intro i r a h; simp [componentF] at h
  | succ n ih =>
    intro i r a h
    simp only [componentF, componentBody] at h
    cases h1 : line c!"BEGIN:" validKeySequence i with
    | error => rw [h1] at h; cases h
    | failure => rw [h1] at h; cases h
    | ok r1 name =>
      rw [h1] at h
      simp only at h
      cases h2 : manyTill (componentChild (componentF n)) (componentEnd name) r1 with
      | error => rw [h2] at h; cases h
      | failure => rw [h2] at h; cases h
      | ok r2 x =>
        obtain ⟨children, e⟩ := x
        rw [h2] at h
        simp only at h
        cases h3 : many0 (tag ['\n']) r2 with
        | error => rw [h3] at h; cases h
        | failure => rw [h3] at h; cases h
        | ok r3 y =>
          rw [h3] at h
          cases h
          have b1 := bound_line (t := c!"BEGIN:") (bound_takeWhile isKeyChar) _ _ _ h1
          have b3 := bound_shrinks (shrinks_many0 (shrinks_tag ['\n'])) _ _ _ h3
          have b2 := bound_manyTill (w := childWeight w) (v := fun _ => 4 + name.length) (by
            intro i r a h hlt
            have hs : Bound (componentChild (componentF n)) (fun c => match c with
                | .prop p => p.name.length + p.val.length + (p.params.map (fun p => 1 + paramChars p)).sum +
                    (if p.val = [] ∧ p.params = [] then 0 else 1)
                | .comp c => compWeight w c) :=
              bound_cut (bound_alt (bound_map (bound_lineSeparated ih)) (bound_map (bound_lineSeparated bound_property)))
            have := hs _ _ _ h
            cases a with
            | comp c => exact this
            | prop p =>
              have hc := hw p
              simp only [childWeight] at this ⊢
              omega) (shrinks_componentChild (shrinks_componentF n))
            (bound_line (t := c!"END:") (bound_cut (bound_tag name))) _ _ _ h2
          have := children_weight w children
          simp only [compWeight]
          simp at b1 b2 b3
          omega

theorem bound_component {w : PProp → Nat} (hw : Covered w) : Bound component (compWeight w) :=
  fun i r a h => bound_componentF hw _ i r a h

theorem bound_components {w : PProp → Nat} (hw : Covered w) : Bound components (compsWeight w) := by
  have hall : Bound (allConsuming component) (compWeight w) := by
    intro i r a h
    unfold allConsuming at h
    cases hc : component i with
    | ok r' a' =>
      rw [hc] at h
      simp only at h
      split at h
      · cases h; exact bound_component hw _ _ _ hc
      · cases h
    | error => rw [hc] at h; cases h
    | failure => rw [hc] at h; cases h
  have := bound_many0 (fun i r a h _ => hall i r a h) (shrinks_allConsuming shrinks_component)
  refine bound_mono this ?_
  intro l
  induction l with
  | nil => simp [compsWeight]
  | cons c l ih => simp [compsWeight] at ih ⊢; omega

omit [Uni] in
theorem covered_chars : Covered propChars := by
  intro p
  have : (p.params.map paramChars).sum ≤ (p.params.map (fun p => 1 + paramChars p)).sum := by
    induction p.params with
    | nil => simp
    | cons q l ih => simp; omega
  unfold propChars
  omega

omit [Uni] in
theorem covered_parts : Covered (fun p => 1 + p.params.length) := by
  intro p
  have : p.params.length ≤ (p.params.map (fun p => 1 + paramChars p)).sum := by
    induction p.params with
    | nil => simp
    | cons q l ih => simp; omega
  by_cases h : p.params = []
  · simp [h]; omega
  · simp [h]; omega

omit [Uni] in
theorem covered_none : Covered (fun _ => 0) := fun _ => Nat.zero_le _

omit [Uni] in
mutual
theorem chars_weight : ∀ c, compChars c + 10 ≤ compWeight propChars c
  | .mk n props comps => by
    have := chars_weights comps
    simp only [compChars, compWeight]
    omega
theorem chars_weights : ∀ l, compsChars l ≤ compsWeight propChars l
  | [] => by simp [compsChars]
  | c :: l => by
    have := chars_weight c
    have := chars_weights l
    simp only [compsChars, compsWeight]
    omega
end

omit [Uni] in
mutual
theorem parts_weight : ∀ c, compParts c + 9 ≤ compWeight (fun p => 1 + p.params.length) c
  | .mk n props comps => by
    have := parts_weights comps
    simp only [compParts, compWeight]
    omega
theorem parts_weights : ∀ l, compsParts l ≤ compsWeight (fun p => 1 + p.params.length) l
  | [] => by simp [compsParts]
  | c :: l => by
    have := parts_weight c
    have := parts_weights l
    simp only [compsParts, compsWeight]
    omega
end

omit [Uni] in
mutual
theorem depth_weight : ∀ c, 10 * compDepth c ≤ compWeight (fun _ => 0) c
  | .mk n props comps => by
    have := depth_weights comps
    simp only [compDepth, compWeight]
    omega
theorem depth_weights : ∀ l, 10 * compsDepth l ≤ compsWeight (fun _ => 0) l
  | [] => by simp [compsDepth]
  | c :: l => by
    have := depth_weight c
    have := depth_weights l
    simp only [compsDepth, compsWeight]
    omega
end

/-- **C82.** All characters of a component that was read, at all levels, are at most those of the text less the ten of
its keywords; its parts are at most as many as the text has characters; components are at most as deep as the text has
room for their keywords. -/
theorem read_component_size {s : Str} {c : PComp} (h : readComponent s = some c) :
    compChars c + 10 ≤ s.length ∧ compParts c + 9 ≤ s.length ∧ 10 * compDepth c ≤ s.length := by
  unfold readComponent finish at h
  split at h
  · rename_i r a hc
    cases h
    have h1 := bound_component covered_chars _ _ _ hc
    have h2 := bound_component covered_parts _ _ _ hc
    have h3 := bound_component covered_none _ _ _ hc
    have := chars_weight c
    have := parts_weight c
    have := depth_weight c
    omega
  · cases h
  · cases h

/-- **C82.** The same for a calendar, whatever text it was read from, folded or not. -/
theorem read_calendar_size {s : Str} {c : PCal} (h : readCalendar (unfold s) = some c) :
    (c.props.map propChars).sum + compsChars c.comps ≤ s.length ∧
    (c.props.map (fun p => 1 + p.params.length)).sum + compsParts c.comps ≤ s.length ∧
    10 * compsDepth c.comps ≤ s.length := by
  have hu := unfold_length s
  unfold readCalendar finish at h
  cases hc : components (unfold s) with
  | error => simp [hc] at h
  | failure => simp [hc] at h
  | ok r l =>
    have h1 := bound_components covered_chars _ _ _ hc
    have h2 := bound_components covered_parts _ _ _ hc
    have h3 := bound_components covered_none _ _ _ hc
    have g1 := chars_weights l
    have g2 := parts_weights l
    have g3 := depth_weights l
    simp only [hc] at h
    cases l with
    | nil =>
      cases h
      simp [compsChars, compsParts, compsDepth]
    | cons root rest =>
      simp only at h
      split at h
      · cases h
        obtain ⟨n, props, comps⟩ := root
        simp only [compsChars, compsParts, compsDepth, compChars, compParts, compDepth, PComp.props, PComp.comps] at *
        omega
      · cases h
        simp only [List.map_nil, List.sum_nil]
        omega

/-! Writing. -/

omit [Uni] in
theorem joinFold_length (q : Str) (qs : List Str) :
    (joinFold (q :: qs)).length = (q :: qs).flatten.length + 3 * qs.length := by
  induction qs generalizing q with
  | nil => simp [joinFold]
  | cons x qs ih =>
    have := ih x
    simp only [joinFold, List.length_append, this, List.flatten_cons, List.length_cons, List.length_nil]
    omega

omit [Uni] in
theorem pieces_length {qs : List Str} (h : ∀ x ∈ qs, x ≠ []) : qs.length ≤ qs.flatten.length := by
  induction qs with
  | nil => simp
  | cons x qs ih =>
    have h1 := ih (fun y hy => h y (by simp [hy]))
    have h2 : 0 < x.length := List.length_pos_iff.2 (h x (by simp))
    simp only [List.length_cons, List.flatten_cons, List.length_append]
    omega

omit [Uni] in
theorem forms_length {l : List (Str × Str)} {forms : List Str} (h : ParamForms l forms) :
    forms.flatten.length ≤ (l.map (fun x => x.1.length + x.2.length + 4)).sum := by
  induction l generalizing forms with
  | nil =>
    cases forms with
    | nil => simp
    | cons => exact h.elim
  | cons x l ih =>
    cases forms with
    | nil => exact h.elim
    | cons f forms =>
      have h1 := ih h.2
      have h2 := h.1
      unfold ParamForm at h2
      subst h2
      simp only [List.flatten_cons, List.length_append, List.map_cons, List.sum_cons]
      split <;> simp only [List.length_cons, List.length_append, List.length_nil] <;> omega

omit [Uni] in
theorem escaped_length (s : Str) : (s.flatMap escaped).length ≤ 2 * s.length := by
  induction s with
  | nil => simp
  | cons c s ih =>
    have : (escaped c).length ≤ 2 := by
      unfold escaped
      repeat' split
      all_goals simp
    simp only [List.flatMap_cons, List.length_append, List.length_cons]
    omega

/-- **C82.** What is written for a property has at most four times the characters of its unfolded line, which are those
of the name and of the parameters with four more each, at most twice those of the value, and the colon. -/
theorem write_property_size (p : Property) (w : World) (hw : World.Ok w) {out : Str} (h : p.fmtWrite w = .ok out) :
    out.length ≤ 4 * (p.key.length + (p.params.map (fun x => x.1.length + x.2.length + 4)).sum + 1 + 2 * p.val.length) + 2 := by
  obtain ⟨line, q, qs, ⟨params, forms, hperm, hforms, rfl⟩, h2, h3, rfl⟩ := written_property p w hw out h
  have h4 := pieces_length h3
  have h5 := forms_length hforms
  have h6 : (params.map (fun x => x.1.length + x.2.length + 4)).sum =
      (p.params.map (fun x => x.1.length + x.2.length + 4)).sum := (hperm.map _).sum_nat
  have h7 : (rawText p).length ≤ 2 * p.val.length := by
    unfold rawText
    split
    · exact escaped_length _
    · omega
  have h8 := congrArg List.length h2
  simp only [List.length_append, joinFold_length, List.length_cons, List.flatten_cons, List.length_nil] at h8 ⊢
  omega

end Ical

namespace Ical

open Nom Spec

/-- 18 characters, three parts and depth 1 in a text of 41 characters -/
example : (@readComponent Uni.ascii c!"BEGIN:VEVENT\nSUMMARY;X=1:a\\,b\nEND:VEVENT\n").map
    (fun c => (compChars c, compParts c, compDepth c)) = some (18, 3, 1) := by decide +kernel

/-- the bound on the number of parts is tight up to the keywords: 42 parts in a text of 57 characters -/
example : (@readComponent Uni.ascii (c!"BEGIN:A\nX" ++ List.replicate 40 ';' ++ c!":\nEND:A\n")).map
    (fun c => (compChars c, compParts c, compDepth c)) = some (2, 42, 1) := by decide +kernel

/-- an escaped value takes twice its characters -/
example : @Property.fmtWrite Uni.ascii ⟨c!"SUMMARY", c!",,,", []⟩
    ⟨fun _ => ⟨⟨⟨2026, 1, 1⟩, 0, 0, 0, 0⟩⟩, fun _ => c!"0", fun _ l => l⟩ = .ok c!"SUMMARY:\\,\\,\\,\r\n" := by
  decide +kernel

end Ical
