import Verif.Spec.Json

/-!
C78: the JSON form of parsed calendars loses nothing, and which JSON values are read as what.
-/

namespace Ical

open Spec

/-- What a derived `visit_map` makes of one field, on its own. -/
def fieldOf {α : Type} (f : Json → Option α) (k : Str) : List (Str × Json) → Option α → Option (Option α)
  | [], a => some a
  | (k', j) :: l, a =>
    if k' = k then
      match once a (f j) with
      | none => none
      | some v => fieldOf f k l (some v)
    else fieldOf f k l a

theorem fieldOf_some {α : Type} (f : Json → Option α) (k : Str) (l : List (Str × Json)) (a : α) (r : Option α) :
    fieldOf f k l (some a) = some r ↔ NoEntry l k ∧ r = some a := by
  induction l with
  | nil => simp [fieldOf, NoEntry, eq_comm]
  | cons e l ih =>
    obtain ⟨k', j⟩ := e
    by_cases hk : k' = k
    · simp [fieldOf, NoEntry, hk, once]
    · simp only [fieldOf, hk, if_false, ih, NoEntry, List.mem_cons, forall_eq_or_imp, ne_eq, not_false_eq_true, true_and]

theorem noEntry_cons {l : List (Str × Json)} {k k' : Str} {j : Json} :
    NoEntry ((k', j) :: l) k ↔ k' ≠ k ∧ NoEntry l k := by
  simp [NoEntry]

theorem entry_cons {l : List (Str × Json)} {k k' : Str} {j j' : Json} :
    Entry ((k', j) :: l) k j' ↔ k' = k ∧ j = j' ∧ NoEntry l k ∨ k' ≠ k ∧ Entry l k j' := by
  constructor
  · rintro ⟨l₁, l₂, he, h1, h2⟩
    cases l₁ with
    | nil =>
      simp only [List.nil_append, List.cons.injEq, Prod.mk.injEq] at he
      obtain ⟨⟨rfl, rfl⟩, rfl⟩ := he
      exact .inl ⟨rfl, rfl, h2⟩
    | cons e l₁ =>
      simp only [List.cons_append, List.cons.injEq] at he
      obtain ⟨rfl, rfl⟩ := he
      exact .inr ⟨h1 (k', j) (by simp), l₁, l₂, rfl, fun e he => h1 e (by simp [he]), h2⟩
  · rintro (⟨rfl, rfl, h⟩ | ⟨hk, l₁, l₂, rfl, h1, h2⟩)
    · exact ⟨[], l, rfl, by simp, h⟩
    · refine ⟨(k', j) :: l₁, l₂, rfl, ?_, h2⟩
      intro e he
      rcases List.mem_cons.1 he with rfl | he
      · exact hk
      · exact h1 e he

theorem not_entry_nil {k : Str} {j : Json} : ¬ Entry [] k j := by
  rintro ⟨l₁, l₂, h, _⟩
  simp at h

theorem fieldOf_none {α : Type} (f : Json → Option α) (k : Str) (l : List (Str × Json)) (r : Option α) :
    fieldOf f k l none = some r ↔ NoEntry l k ∧ r = none ∨ ∃ j v, Entry l k j ∧ f j = some v ∧ r = some v := by
  induction l with
  | nil => simp [fieldOf, NoEntry, not_entry_nil, eq_comm]
  | cons e l ih =>
    obtain ⟨k', j⟩ := e
    by_cases hk : k' = k
    · simp only [fieldOf, once, hk, if_true, noEntry_cons, entry_cons, ne_eq, not_true_eq_false, false_and, false_or, true_and,
        or_false]
      cases hf : f j with
      | none =>
        simp only [reduceCtorEq, false_iff, not_exists]
        rintro j' v ⟨⟨rfl, _⟩, h, _⟩
        simp [hf] at h
      | some v =>
        simp only [fieldOf_some]
        constructor
        · rintro ⟨h, rfl⟩
          exact ⟨j, v, ⟨rfl, h⟩, hf, rfl⟩
        · rintro ⟨j', v', ⟨rfl, h⟩, hv, rfl⟩
          simp only [hf, Option.some.injEq] at hv
          exact ⟨h, by rw [hv]⟩
    · simp only [fieldOf, hk, if_false, ih, noEntry_cons, entry_cons, ne_eq, not_false_eq_true, true_and, false_and,
        false_or]

theorem entry_unique {l : List (Str × Json)} {k : Str} {j j' : Json} (h : Entry l k j) (h' : Entry l k j') : j = j' := by
  induction l with
  | nil => exact absurd h not_entry_nil
  | cons e l ih =>
    obtain ⟨k', i⟩ := e
    rcases entry_cons.1 h with ⟨rfl, rfl, hn⟩ | ⟨hk, h⟩
    · rcases entry_cons.1 h' with ⟨_, rfl, _⟩ | ⟨hk, _⟩
      · rfl
      · exact absurd rfl hk
    · rcases entry_cons.1 h' with ⟨rfl, _, _⟩ | ⟨_, h'⟩
      · exact absurd rfl hk
      · exact ih h h'

theorem paramFields_eq (l : List (Str × Json)) (a : Option Str) (b : Option (Option Str)) :
    paramFields l a b = (fieldOf strOfJson c!"key" l a).bind fun a' =>
      (fieldOf optOfJson c!"val" l b).map fun b' => (a', b') := by
  induction l generalizing a b with
  | nil => simp [paramFields, fieldOf]
  | cons e l ih =>
    obtain ⟨k, j⟩ := e
    by_cases h1 : k = c!"key"
    · subst h1
      simp only [paramFields, fieldOf, if_true, show ¬ c!"key" = c!"val" by decide, if_false]
      cases a <;> cases strOfJson j <;> simp [once, ih]
    · by_cases h2 : k = c!"val"
      · subst h2
        simp only [paramFields, fieldOf, if_true, h1, if_false]
        cases b <;> cases optOfJson j <;> simp [once, ih]
      · simp only [paramFields, fieldOf, h1, h2, if_false, ih]

theorem propFields_eq (l : List (Str × Json)) (a b : Option Str) (c : Option (List PParam)) :
    propFields l a b c = (fieldOf strOfJson c!"name" l a).bind fun a' =>
      (fieldOf strOfJson c!"val" l b).bind fun b' =>
      (fieldOf (vecOfJson PParam.ofJson) c!"params" l c).map fun c' => (a', b', c') := by
  induction l generalizing a b c with
  | nil => simp [propFields, fieldOf]
  | cons e l ih =>
    obtain ⟨k, j⟩ := e
    by_cases h1 : k = c!"name"
    · subst h1
      simp only [propFields, fieldOf, if_true, show ¬ c!"name" = c!"val" by decide,
        show ¬ c!"name" = c!"params" by decide, if_false]
      cases a <;> cases strOfJson j <;> simp [once, ih]
    · by_cases h2 : k = c!"val"
      · subst h2
        simp only [propFields, fieldOf, if_true, h1, show ¬ c!"val" = c!"params" by decide, if_false]
        cases b <;> cases strOfJson j <;> simp [once, ih]
      · by_cases h3 : k = c!"params"
        · subst h3
          simp only [propFields, fieldOf, if_true, h1, h2, if_false]
          cases c <;> cases vecOfJson PParam.ofJson j <;> simp [once, ih]
        · simp only [propFields, fieldOf, h1, h2, h3, if_false, ih]

theorem compFields_eq (l : List (Str × Json)) (a : Option Str) (b : Option (List PProp)) (c : Option (List PComp)) :
    compFields l a b c = (fieldOf strOfJson c!"name" l a).bind fun a' =>
      (fieldOf (vecOfJson PProp.ofJson) c!"properties" l b).bind fun b' =>
      (fieldOf compVec c!"components" l c).map fun c' => (a', b', c') := by
  induction l generalizing a b c with
  | nil => simp [compFields, fieldOf]
  | cons e l ih =>
    obtain ⟨k, j⟩ := e
    by_cases h1 : k = c!"name"
    · subst h1
      simp only [compFields, fieldOf, if_true, show ¬ c!"name" = c!"properties" by decide,
        show ¬ c!"name" = c!"components" by decide, if_false]
      cases a <;> cases strOfJson j <;> simp [once, ih]
    · by_cases h2 : k = c!"properties"
      · subst h2
        simp only [compFields, fieldOf, if_true, h1, show ¬ c!"properties" = c!"components" by decide, if_false]
        cases b <;> cases vecOfJson PProp.ofJson j <;> simp [once, ih]
      · by_cases h3 : k = c!"components"
        · subst h3
          simp only [compFields, fieldOf, if_true, h1, h2, if_false]
          cases c <;> cases compVec j <;> simp [once, ih]
        · simp only [compFields, fieldOf, h1, h2, h3, if_false, ih]

theorem calFields_eq (l : List (Str × Json)) (b : Option (List PProp)) (c : Option (List PComp)) :
    calFields l b c = (fieldOf (vecOfJson PProp.ofJson) c!"properties" l b).bind fun b' =>
      (fieldOf compVec c!"components" l c).map fun c' => (b', c') := by
  induction l generalizing b c with
  | nil => simp [calFields, fieldOf]
  | cons e l ih =>
    obtain ⟨k, j⟩ := e
    by_cases h2 : k = c!"properties"
    · subst h2
      simp only [calFields, fieldOf, if_true, show ¬ c!"properties" = c!"components" by decide, if_false]
      cases b <;> cases vecOfJson PProp.ofJson j <;> simp [once, ih]
    · by_cases h3 : k = c!"components"
      · subst h3
        simp only [calFields, fieldOf, if_true, h2, if_false]
        cases c <;> cases compVec j <;> simp [once, ih]
      · simp only [calFields, fieldOf, h2, h3, if_false, ih]

theorem strOfJson_iff (j : Json) (s : Str) : strOfJson j = some s ↔ j = .string s := by
  cases j <;> simp [strOfJson]

theorem optOfJson_iff (j : Json) (s : Option Str) : optOfJson j = some s ↔ OptJson j s := by
  constructor
  · intro h
    cases j <;> simp only [optOfJson, reduceCtorEq, Option.some.injEq] at h <;> subst h <;> constructor
  · intro h
    cases h <;> rfl

theorem listOfJson_iff {α : Type} (f : Json → Option α) (R : Json → α → Prop) (h : ∀ j a, f j = some a ↔ R j a)
    (l : List Json) (as : List α) : listOfJson f l = some as ↔ Each R l as := by
  constructor
  · intro hl
    induction l generalizing as with
    | nil => simp only [listOfJson, Option.some.injEq] at hl; subst hl; constructor
    | cons j l ih =>
      simp only [listOfJson] at hl
      split at hl
      · simp at hl
      · split at hl
        · simp at hl
        · simp only [Option.some.injEq] at hl
          subst hl
          exact .cons ((h _ _).1 ‹_›) (ih _ ‹_›)
  · intro hl
    induction hl with
    | nil => rfl
    | cons ha _ ih => simp [listOfJson, (h _ _).2 ha, ih]

theorem vecOfJson_iff {α : Type} (f : Json → Option α) (R : Json → α → Prop) (h : ∀ j a, f j = some a ↔ R j a)
    (j : Json) (as : List α) : vecOfJson f j = some as ↔ ∃ l, j = .array l ∧ Each R l as := by
  cases j <;> simp [vecOfJson, listOfJson_iff f R h]

theorem paramOfJson_iff (j : Json) (p : PParam) : PParam.ofJson j = some p ↔ ParamJson j p := by
  constructor
  · intro h
    unfold PParam.ofJson at h
    split at h
    · rename_i l
      rw [paramFields_eq] at h
      split at h
      · rename_i k v hb
        simp only [Option.some.injEq] at h
        subst h
        simp only [Option.bind_eq_some_iff, Option.map_eq_some_iff, fieldOf_none, Prod.mk.injEq] at hb
        obtain ⟨a, ha, b, hb, rfl, rfl⟩ := hb
        simp only [reduceCtorEq, and_false, false_or, Option.some.injEq, strOfJson_iff] at ha hb
        obtain ⟨_, _, hk, rfl, rfl⟩ := ha
        obtain ⟨_, _, hv, ho, rfl⟩ := hb
        exact .object hk hv ((optOfJson_iff _ _).1 ho)
      · rename_i k hb
        simp only [Option.some.injEq] at h
        subst h
        simp only [Option.bind_eq_some_iff, Option.map_eq_some_iff, fieldOf_none, Prod.mk.injEq] at hb
        obtain ⟨a, ha, b, hb, rfl, rfl⟩ := hb
        simp only [reduceCtorEq, and_false, false_or, or_false, Option.some.injEq, strOfJson_iff, and_true,
          exists_false] at ha hb
        obtain ⟨_, _, hk, rfl, rfl⟩ := ha
        exact .noVal hk hb
      · simp at h
    · split at h
      · rename_i h1 h2
        simp only [Option.some.injEq] at h
        subst h
        rw [strOfJson_iff] at h1
        subst h1
        exact .array ((optOfJson_iff _ _).1 h2)
      · simp at h
    · simp at h
  · intro h
    cases h with
    | object h1 h2 h3 =>
      have e1 := (fieldOf_none strOfJson _ _ _).2 (.inr ⟨_, _, h1, (strOfJson_iff _ _).2 rfl, rfl⟩)
      have e2 := (fieldOf_none optOfJson _ _ _).2 (.inr ⟨_, _, h2, (optOfJson_iff _ _).2 h3, rfl⟩)
      simp [PParam.ofJson, paramFields_eq, e1, e2]
    | noVal h1 h2 =>
      have e1 := (fieldOf_none strOfJson _ _ _).2 (.inr ⟨_, _, h1, (strOfJson_iff _ _).2 rfl, rfl⟩)
      have e2 := (fieldOf_none optOfJson _ _ _).2 (.inl ⟨h2, rfl⟩)
      simp [PParam.ofJson, paramFields_eq, e1, e2]
    | array h => simp [PParam.ofJson, strOfJson, (optOfJson_iff _ _).2 h]

theorem propOfJson_iff (j : Json) (p : PProp) : PProp.ofJson j = some p ↔ PropJson j p := by
  have hv := vecOfJson_iff _ _ paramOfJson_iff
  constructor
  · intro h
    unfold PProp.ofJson at h
    split at h
    · rename_i l
      rw [propFields_eq] at h
      split at h
      · rename_i hb
        simp only [Option.some.injEq] at h
        subst h
        simp only [Option.bind_eq_some_iff, Option.map_eq_some_iff, fieldOf_none, Prod.mk.injEq] at hb
        obtain ⟨a, ha, b, hb, c, hc, rfl, rfl, rfl⟩ := hb
        simp only [reduceCtorEq, and_false, false_or, Option.some.injEq, strOfJson_iff, hv] at ha hb hc
        obtain ⟨_, _, h1, rfl, rfl⟩ := ha
        obtain ⟨_, _, h2, rfl, rfl⟩ := hb
        obtain ⟨_, _, h3, ⟨_, rfl, h4⟩, rfl⟩ := hc
        exact .object h1 h2 h3 h4
      · simp at h
    · split at h
      · rename_i h1 h2 h3
        simp only [Option.some.injEq] at h
        subst h
        simp only [strOfJson_iff, hv] at h1 h2 h3
        subst h1 h2
        obtain ⟨_, rfl, h3⟩ := h3
        exact .array h3
      · simp at h
    · simp at h
  · intro h
    cases h with
    | object h1 h2 h3 h4 =>
      have e1 := (fieldOf_none strOfJson _ _ _).2 (.inr ⟨_, _, h1, (strOfJson_iff _ _).2 rfl, rfl⟩)
      have e2 := (fieldOf_none strOfJson _ _ _).2 (.inr ⟨_, _, h2, (strOfJson_iff _ _).2 rfl, rfl⟩)
      have e3 := (fieldOf_none _ _ _ _).2 (.inr ⟨_, _, h3, (hv _ _).2 ⟨_, rfl, h4⟩, rfl⟩)
      simp [PProp.ofJson, propFields_eq, e1, e2, e3]
    | array h => simp [PProp.ofJson, strOfJson, (hv _ _).2 ⟨_, rfl, h⟩]

theorem entry_mem {l : List (Str × Json)} {k : Str} {j : Json} (h : Entry l k j) : (k, j) ∈ l := by
  obtain ⟨l₁, l₂, rfl, _⟩ := h
  simp

mutual
theorem compOfJson_complete {j : Json} {c : PComp} (h : CompJson j c) : PComp.ofJson j = some c := by
  have hv := vecOfJson_iff _ _ propOfJson_iff
  cases h with
  | object h1 h2 h3 h4 h5 =>
    have e1 := (fieldOf_none strOfJson _ _ _).2 (.inr ⟨_, _, h1, (strOfJson_iff _ _).2 rfl, rfl⟩)
    have e2 := (fieldOf_none _ _ _ _).2 (.inr ⟨_, _, h2, (hv _ _).2 ⟨_, rfl, h3⟩, rfl⟩)
    have e3 := (fieldOf_none compVec _ _ _).2 (.inr ⟨_, _, h4, by rw [compVec]; exact compListOfJson_complete h5, rfl⟩)
    simp [PComp.ofJson, compFields_eq, e1, e2, e3]
  | array h3 h5 => simp [PComp.ofJson, strOfJson, (hv _ _).2 ⟨_, rfl, h3⟩, compListOfJson_complete h5]
theorem compListOfJson_complete {l : List Json} {cs : List PComp} (h : CompsJson l cs) : compList l = some cs := by
  cases h with
  | nil => simp [compList]
  | cons h1 h2 => simp [compList, compOfJson_complete h1, compListOfJson_complete h2]
end

theorem compListOfJson_sound (l : List Json) (cs : List PComp) (h : compList l = some cs)
    (ih : ∀ j ∈ l, ∀ c, PComp.ofJson j = some c → CompJson j c) : CompsJson l cs := by
  induction l generalizing cs with
  | nil => simp only [compList, Option.some.injEq] at h; subst h; constructor
  | cons j l ihl =>
    rw [compList] at h
    split at h
    · simp at h
    · split at h
      · simp at h
      · simp only [Option.some.injEq] at h
        subst h
        exact .cons (ih j (by simp) _ ‹_›) (ihl _ ‹_› fun i hi => ih i (by simp [hi]))

theorem compOfJson_sound (n : Nat) : ∀ j, sizeOf j < n → ∀ c, PComp.ofJson j = some c → CompJson j c := by
  have hv := vecOfJson_iff _ _ propOfJson_iff
  induction n with
  | zero => intro j hj; omega
  | succ n ih =>
    intro j hj c h
    unfold PComp.ofJson at h
    split at h
    · rename_i l
      rw [compFields_eq] at h
      split at h
      · rename_i hb
        simp only [Option.some.injEq] at h
        subst h
        simp only [Option.bind_eq_some_iff, Option.map_eq_some_iff, fieldOf_none, Prod.mk.injEq] at hb
        obtain ⟨a, ha, b, hb, c, hc, rfl, rfl, rfl⟩ := hb
        simp only [reduceCtorEq, and_false, false_or, Option.some.injEq, strOfJson_iff, hv] at ha hb hc
        obtain ⟨_, _, h1, rfl, rfl⟩ := ha
        obtain ⟨_, _, h2, ⟨_, rfl, h3⟩, rfl⟩ := hb
        obtain ⟨j, _, h4, h5, rfl⟩ := hc
        cases j <;> simp only [compVec, reduceCtorEq] at h5
        rename_i ks
        refine .object h1 h2 h3 h4 (compListOfJson_sound _ _ h5 fun i hi => ih i ?_)
        have := List.sizeOf_lt_of_mem (entry_mem h4)
        have := List.sizeOf_lt_of_mem hi
        simp at *
        omega
      · simp at h
    · split at h
      · rename_i h1 h2 h3
        simp only [Option.some.injEq] at h
        subst h
        simp only [strOfJson_iff, hv] at h1 h2 h3
        subst h1
        obtain ⟨_, rfl, h2⟩ := h2
        refine .array h2 (compListOfJson_sound _ _ h3 fun i hi => ih i ?_)
        have := List.sizeOf_lt_of_mem hi
        simp at *
        omega
      · simp at h
    · simp at h

theorem compOfJson_iff (j : Json) (c : PComp) : PComp.ofJson j = some c ↔ CompJson j c :=
  ⟨compOfJson_sound _ j (Nat.lt_succ_self _) c, compOfJson_complete⟩

theorem compVec_iff (j : Json) (cs : List PComp) : compVec j = some cs ↔ ∃ l, j = .array l ∧ CompsJson l cs := by
  cases j <;> simp only [compVec, reduceCtorEq, false_and, exists_false, Json.array.injEq]
  constructor
  · intro h
    exact ⟨_, rfl, compListOfJson_sound _ _ h fun j _ c => (compOfJson_iff j c).1⟩
  · rintro ⟨_, rfl, h⟩
    exact compListOfJson_complete h

/-- **C78.** Which JSON values are read as which calendar: objects with every field exactly once, in any order and among
any others, or arrays of the fields; the value of a parameter may be left out or `null`. Everything else is an error. -/
theorem json_read (j : Json) (c : PCal) : PCal.ofJson j = some c ↔ CalJson j c := by
  have hv := vecOfJson_iff _ _ propOfJson_iff
  constructor
  · intro h
    unfold PCal.ofJson at h
    split at h
    · rename_i l
      rw [calFields_eq] at h
      split at h
      · rename_i hb
        simp only [Option.some.injEq] at h
        subst h
        simp only [Option.bind_eq_some_iff, Option.map_eq_some_iff, fieldOf_none, Prod.mk.injEq] at hb
        obtain ⟨b, hb, c, hc, rfl, rfl⟩ := hb
        simp only [reduceCtorEq, and_false, false_or, Option.some.injEq, compVec_iff, hv] at hb hc
        obtain ⟨_, _, h2, ⟨_, rfl, h3⟩, rfl⟩ := hb
        obtain ⟨_, _, h4, ⟨_, rfl, h5⟩, rfl⟩ := hc
        exact .object h2 h3 h4 h5
      · simp at h
    · split at h
      · rename_i h2 h3
        simp only [Option.some.injEq] at h
        subst h
        simp only [compVec_iff, hv] at h2 h3
        obtain ⟨_, rfl, h2⟩ := h2
        obtain ⟨_, rfl, h3⟩ := h3
        exact .array h2 h3
      · simp at h
    · simp at h
  · intro h
    cases h with
    | object h2 h3 h4 h5 =>
      have e2 := (fieldOf_none _ _ _ _).2 (.inr ⟨_, _, h2, (hv _ _).2 ⟨_, rfl, h3⟩, rfl⟩)
      have e3 := (fieldOf_none _ _ _ _).2 (.inr ⟨_, _, h4, (compVec_iff _ _).2 ⟨_, rfl, h5⟩, rfl⟩)
      simp [PCal.ofJson, calFields_eq, e2, e3]
    | array h3 h5 => simp [PCal.ofJson, (hv _ _).2 ⟨_, rfl, h3⟩, (compVec_iff _ _).2 ⟨_, rfl, h5⟩]

/-- **C78.** The same for a component. -/
theorem json_component_read (j : Json) (c : PComp) : PComp.ofJson j = some c ↔ CompJson j c := compOfJson_iff j c

theorem each_map {α : Type} (f : α → Json) (R : Json → α → Prop) (h : ∀ a, R (f a) a) (l : List α) :
    Each R (l.map f) l := by
  induction l with
  | nil => exact .nil
  | cons a l ih => exact .cons (h a) ih

theorem paramJson_toJson (p : PParam) : ParamJson p.toJson p := by
  obtain ⟨k, v⟩ := p
  refine .object (j := match v with | none => .null | some v => strToJson v) ?_ ?_ ?_
  · exact ⟨[], _, rfl, by simp, by simp⟩
  · exact ⟨[_], [], rfl, by simp, by simp⟩
  · cases v <;> constructor

theorem propJson_toJson (p : PProp) : PropJson p.toJson p := by
  obtain ⟨n, v, ps⟩ := p
  refine .object (js := ps.map PParam.toJson) ?_ ?_ ?_ (each_map _ _ paramJson_toJson _)
  · exact ⟨[], _, rfl, by simp, by simp⟩
  · exact ⟨[_], [_], rfl, by simp, by simp⟩
  · exact ⟨[_, _], [], rfl, by simp, by simp⟩

mutual
theorem compJson_toJson : (c : PComp) → CompJson c.toJson c
  | .mk n ps cs => by
    rw [PComp.toJson]
    refine .object (js := ps.map PProp.toJson) (ks := compsToJson cs) ?_ ?_ (each_map _ _ propJson_toJson _) ?_
      (compsJson_toJson cs)
    · exact ⟨[], _, rfl, by simp, by simp⟩
    · exact ⟨[_], [_], rfl, by simp, by simp⟩
    · exact ⟨[_, _], [], rfl, by simp, by simp⟩
theorem compsJson_toJson : (cs : List PComp) → CompsJson (compsToJson cs) cs
  | [] => by rw [compsToJson]; exact .nil
  | c :: cs => by rw [compsToJson]; exact .cons (compJson_toJson c) (compsJson_toJson cs)
end

theorem calJson_toJson (c : PCal) : CalJson c.toJson c := by
  obtain ⟨ps, cs⟩ := c
  refine .object (js := ps.map PProp.toJson) (ks := compsToJson cs) ?_ (each_map _ _ propJson_toJson _) ?_
    (compsJson_toJson cs)
  · exact ⟨[], _, rfl, by simp, by simp⟩
  · exact ⟨[_], [], rfl, by simp, by simp⟩

/-- **C78.** A parsed calendar turned into JSON and back is the same calendar. -/
theorem json_roundtrip (c : PCal) : PCal.ofJson c.toJson = some c := (json_read _ _).2 (calJson_toJson c)

/-- **C78.** A parsed component turned into JSON and back is the same component. -/
theorem json_component_roundtrip (c : PComp) : PComp.ofJson c.toJson = some c :=
  (json_component_read _ _).2 (compJson_toJson c)

/-- **C78.** Different calendars have different JSON. -/
theorem json_injective (c c' : PCal) (h : c.toJson = c'.toJson) : c = c' := by
  have := json_roundtrip c
  rw [h, json_roundtrip, Option.some.injEq] at this
  exact this.symm

/-- fields in another order, an unknown field and a parameter without value -/
example : PComp.ofJson (.object [(c!"components", .array []), (c!"color", .number c!"3"),
      (c!"properties", .array [.array [.string c!"SUMMARY", .string c!"x", .array [.object [(c!"key", .string c!"A")]]]]),
      (c!"name", .string c!"VEVENT")]) = some (.mk c!"VEVENT" [⟨c!"SUMMARY", c!"x", [⟨c!"A", none⟩]⟩] []) := by
  simp [PComp.ofJson, compFields, once, compVec, compList, strOfJson, vecOfJson, listOfJson, PProp.ofJson, PParam.ofJson,
    paramFields]

/-- a missing field is an error, and so is a number for a text -/
example : PComp.ofJson (.object [(c!"components", .array []), (c!"name", .string c!"VEVENT")]) = none ∧
    PComp.ofJson (.array [.number c!"1", .array [], .array []]) = none := by
  constructor <;> simp [PComp.ofJson, compFields, once, compVec, compList, strOfJson, vecOfJson, listOfJson]

end Ical
