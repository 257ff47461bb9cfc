import Verif.Spec.Document
import Verif.Proofs.Escape

/-!
Value types: the tables of the code against those of RFC 5545.
-/

namespace Ical

open Spec

variable [Uni]

omit [Uni] in
/-- the table of the code has the names of RFC 5545 -/
theorem lookup_byName (k : Str) : byNameTable.lookup k = some .text ↔ k ∈ textNames := by
  constructor
  · intro h
    have h1 : (k, ValueType.text) ∈ byNameTable := by
      generalize byNameTable = t at h
      induction t with
      | nil => simp at h
      | cons x t ih =>
        obtain ⟨k', v⟩ := x
        rw [List.lookup_cons] at h
        split at h
        · rename_i hk
          have : k = k' := by simpa using hk
          cases h; subst this; exact List.mem_cons_self
        · exact List.mem_cons_of_mem _ (ih h)
    have h2 : ∀ x ∈ byNameTable, x.2 = .text → x.1 ∈ textNames := by decide
    exact h2 _ h1 rfl
  · have : ∀ k ∈ textNames, byNameTable.lookup k = some .text := by decide
    exact this k

theorem byName_text (k : Str) : ValueType.byName k = some .text ↔ k ∈ textNames := by
  unfold ValueType.byName
  split
  · rename_i h
    constructor
    · intro h; cases h
    · intro hk
      have h2 : ∀ x ∈ textNames, ∀ c ∈ x, c.toNat < 128 ∧ ¬ (0x61 ≤ c.toNat ∧ c.toNat ≤ 0x7A) := by decide
      obtain ⟨c, hc, hl⟩ := List.any_eq_true.1 h
      obtain ⟨a, b⟩ := h2 k hk c hc
      simp only [isLower, a, if_true, Bool.and_eq_true, decide_eq_true_eq] at hl
      exact absurd hl b
  · exact lookup_byName k

omit [Uni] in
/-- the type names of the code are those of RFC 5545 -/
theorem fromStr_cases (v : Str) :
    (v = c!"TEXT" ∧ ValueType.fromStr v = some .text) ∨
    (v ∈ otherTypeNames ∧ v ≠ c!"TEXT" ∧ ∃ t, t ≠ .text ∧ ValueType.fromStr v = some t) ∨
    (v ∉ otherTypeNames ∧ v ≠ c!"TEXT" ∧ ValueType.fromStr v = none) := by
  by_cases h1 : v = c!"TEXT"
  · subst h1; exact .inl ⟨rfl, by decide⟩
  by_cases h2 : v ∈ otherTypeNames
  · have h3 : ∀ x ∈ otherTypeNames, ∃ t, t ≠ .text ∧ ValueType.fromStr x = some t := by
      intro x hx
      have h4 : ∀ x ∈ otherTypeNames, (ValueType.fromStr x).isSome ∧ ValueType.fromStr x ≠ some .text := by decide
      obtain ⟨t, ht⟩ := Option.isSome_iff_exists.1 (h4 x hx).1
      exact ⟨t, fun hc => (h4 x hx).2 (hc ▸ ht), ht⟩
    exact .inr (.inl ⟨h2, h1, h3 v h2⟩)
  · refine .inr (.inr ⟨h2, h1, ?_⟩)
    unfold ValueType.fromStr
    rw [List.lookup_eq_none_iff]
    intro x hx
    have h4 : ∀ x ∈ fromStrTable, x.1 ∈ otherTypeNames ∨ x.1 = c!"TEXT" := by decide
    rcases h4 x hx with h | h
    · have : v ≠ x.1 := fun hv => h2 (hv ▸ h)
      simpa using this
    · rw [h]; simpa using h1

/-- The value type of a content line: that of the first parameter called VALUE, if its value names one,
else that of the property name. -/
def valueTypeOf (key : Str) (params : List DParam) : Option ValueType :=
  (((params.map DParam.meaning).find? (fun p => p.key == c!"VALUE")).bind
    (fun p => p.val.bind ValueType.fromStr)).or (ValueType.byName key)

theorem isTextFor_iff (key : Str) (v : Option Str) :
    IsTextFor key v ↔ (v.bind ValueType.fromStr).or (ValueType.byName key) = some .text := by
  unfold IsTextFor
  cases v with
  | none => exact (byName_text key).symm
  | some v =>
    simp only [Option.bind_some]
    rcases fromStr_cases v with ⟨h1, h2⟩ | ⟨h1, h2, t, h3, h4⟩ | ⟨h1, h2, h3⟩
    · rw [h2]; simp [h1]
    · rw [h4]; simp [h1, h2, h3]
    · rw [h3]; simp [h1, h2, byName_text]

theorem valueTypeOf_text (key : Str) (params : List DParam) :
    IsTextFor key (((params.map DParam.meaning).find? (fun p => p.key == c!"VALUE")).bind PParam.val) ↔
      valueTypeOf key params = some .text := by
  rw [isTextFor_iff]
  unfold valueTypeOf
  cases (params.map DParam.meaning).find? (fun p => p.key == c!"VALUE") <;> simp

theorem meaningProp_eq (key : Str) (params : List DParam) (val : Str) :
    meaningProp key params val =
      { name := key
        val := if valueTypeOf key params = some .text then unescapeText val else val
        params := params.map DParam.meaning } := by
  unfold meaningProp
  simp only [valueTypeOf_text, unescapeText_unescaped]

end Ical
