import Verif.Spec.Document
import Verif.Model.Property

/-!
Specification of the properties that can be written and read back. Shared with the model: the types
`Property` and `World`.
-/

namespace Ical.Spec

open Ical

/-- A parameter value that can be told from its surroundings when written: with a colon or semicolon it is
put in quotes and must not contain a quote, otherwise it must not start with one. -/
def Quotable (v : Str) : Prop :=
  if ':' ∈ v ∨ ';' ∈ v then '"' ∉ v else ¬ ['"'] <+: v

instance (v : Str) : Decidable (Quotable v) := by unfold Quotable; infer_instance
instance (v : Str) : Decidable (MarkerFree v) := by unfold MarkerFree; infer_instance

/-- A text that survives escaping and unescaping (C08). -/
def TextSafe (t : Str) : Prop := ¬ ['\\', ':'] <:+: t ∧ ¬ ['\\', 'n'] <:+: t ∧ ¬ ['\\', 'N'] <:+: t

instance (v : Str) : Decidable (TextSafe v) := by unfold TextSafe; infer_instance

/-- Hash maps may be iterated in any order, but only in an order of their entries. Clock readings are
times, UUIDs consist of hexadecimal digits and dashes. -/
structure World.Ok (w : World) : Prop where
  order : ∀ path l, (w.order path l).Perm l
  uuid : ∀ path, ∀ c ∈ w.uuid path, c ∈ c!"0123456789abcdef-"
  now : ∀ path, (w.now path).naive.Valid

/-- The value type of a property is TEXT: said by its VALUE parameter if that names a type, else by its
name. -/
def IsText (p : Property) : Prop := IsTextFor p.key (p.params.lookup c!"VALUE")

instance (p : Property) : Decidable (IsText p) := by unfold IsText; infer_instance

variable [Uni]

/-- The parameters of a property can be written: distinct names (each stored in its place), made of name
characters, values quotable and without fold marker. -/
structure ParamsOk (params : List (Str × Str)) : Prop where
  sorted : params.Pairwise (fun a b => strCmp a.1 b.1 = .lt)
  name : ∀ x ∈ params, IsName x.1
  value : ∀ x ∈ params, Quotable x.2 ∧ MarkerFree x.2

instance (l : List (Str × Str)) : Decidable (ParamsOk l) :=
  decidable_of_iff (l.Pairwise (fun a b => strCmp a.1 b.1 = .lt) ∧ (∀ x ∈ l, IsName x.1) ∧
    (∀ x ∈ l, Quotable x.2 ∧ MarkerFree x.2))
    ⟨fun h => ⟨h.1, h.2.1, h.2.2⟩, fun h => ⟨h.sorted, h.name, h.value⟩⟩

/-- The value of a property can be written: if it is not TEXT, it is written as it is and must not contain
a line break that ends the line or a fold marker. -/
def ValueOk (p : Property) : Prop := IsText p ∨ (¬ ['\r', '\n'] <:+: p.val ∧ MarkerFree p.val)

instance (p : Property) : Decidable (ValueOk p) := by unfold ValueOk; infer_instance

/-- The value of a property survives being written and read. -/
def ValueSafe (p : Property) : Prop := IsText p → TextSafe p.val

instance (p : Property) : Decidable (ValueSafe p) := by unfold ValueSafe; infer_instance

end Ical.Spec
