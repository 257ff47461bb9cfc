import Verif.Spec.Foreign
import Verif.Model.Calendar

/-!
Specification of documents and calendars that are the same except for the characters of the values.
-/

namespace Ical.Spec

open Ical

/-- A text in ASCII. -/
def Ascii (s : Str) : Prop := ∀ c ∈ s, c.toNat < 128

instance (s : Str) : Decidable (Ascii s) := by unfold Ascii; infer_instance

/-- Two lists of the same length, related one by one. -/
def OneByOne {α β : Type} (R : α → β → Prop) : List α → List β → Prop
  | [], [] => True
  | a :: l, b :: m => R a b ∧ OneByOne R l m
  | _, _ => False

/-! ### Documents -/

/-- The same parameter with related values, that are empty only together, and the same type if it names one. -/
def SameButParam (R : Str → Str → Prop) (p q : DParam) : Prop :=
  p.key = q.key ∧ (q.value = [] ↔ p.value = []) ∧ (p.key = c!"VALUE" → ∀ k, IsTextFor k (some p.value) ↔ IsTextFor k (some q.value)) ∧
  match p.val, q.val with
  | none, none => True
  | some (b, v), some (b', v') => b = b' ∧ R v v'
  | _, _ => False

mutual
/-- The same element with related values. -/
def SameButItem (R : Str → Str → Prop) : Item → Item → Prop
  | .prop k ps v, .prop k' ps' v' => k = k' ∧ OneByOne (SameButParam R) ps ps' ∧ R v v'
  | .comp b e n l, .comp b' e' n' l' => b = b' ∧ e = e' ∧ n = n' ∧ SameButItems R l l'
  | _, _ => False
/-- see `SameButItem` -/
def SameButItems (R : Str → Str → Prop) : List Item → List Item → Prop
  | [], [] => True
  | i :: l, i' :: l' => SameButItem R i i' ∧ SameButItems R l l'
  | _, _ => False
end

mutual
/-- All names are as `K` requires, and the values of parameters as `T` requires. -/
def Item.NamesAre (K : Str → Prop) (T : Str → Str → Prop) : Item → Prop
  | .prop k ps _ => K k ∧ ∀ p ∈ ps, K p.key ∧ T p.key p.value
  | .comp _ _ n l => K n ∧ ItemsNamesAre K T l
/-- see `Item.NamesAre` -/
def ItemsNamesAre (K : Str → Prop) (T : Str → Str → Prop) : List Item → Prop
  | [] => True
  | i :: l => i.NamesAre K T ∧ ItemsNamesAre K T l
end

/-! ### Calendars -/

/-- The same property with related values. -/
structure SameButProp (R : Str → Str → Prop) (p q : Property) : Prop where
  key : p.key = q.key
  val : R p.val q.val
  params : OneByOne (fun x y => x.1 = y.1 ∧ R x.2 y.2) p.params q.params

mutual
/-- The same component with related values. -/
def SameButOther (R : Str → Str → Prop) : Other → Other → Prop
  | .mk n props multi comps, .mk n' props' multi' comps' =>
    n = n' ∧ OneByOne (fun x y => x.1 = y.1 ∧ SameButProp R x.2 y.2) props props' ∧
    OneByOne (fun x y => x.1 = y.1 ∧ OneByOne (SameButProp R) x.2 y.2) multi multi' ∧ SameButOthers R comps comps'
/-- see `SameButOther` -/
def SameButOthers (R : Str → Str → Prop) : List Other → List Other → Prop
  | [], [] => True
  | o :: l, o' :: l' => SameButOther R o o' ∧ SameButOthers R l l'
  | _, _ => False
end

/-- The same calendar with related values: the same properties and components in the same order and of the same kinds. -/
structure SameButCal (R : Str → Str → Prop) (c d : Calendar) : Prop where
  props : OneByOne (SameButProp R) c.props d.props
  comps : OneByOne (fun x y => SameButOther R x.toOther y.toOther ∧ ∀ n, KindFor n x ↔ KindFor n y) c.comps d.comps

/-- The names in a property are as `K` requires, and the values of its parameters as `T` requires. -/
structure NamesAreProp (K : Str → Prop) (T : Str → Str → Prop) (p : Property) : Prop where
  key : K p.key
  params : ∀ x ∈ p.params, K x.1 ∧ T x.1 x.2

mutual
/-- All names in a component are as `K` requires, and the values of parameters as `T` requires. -/
def NamesAreOther (K : Str → Prop) (T : Str → Str → Prop) : Other → Prop
  | .mk n props multi comps =>
    K n ∧ (∀ x ∈ props, NamesAreProp K T x.2) ∧ (∀ x ∈ multi, ∀ p ∈ x.2, NamesAreProp K T p) ∧ NamesAreOthers K T comps
/-- see `NamesAreOther` -/
def NamesAreOthers (K : Str → Prop) (T : Str → Str → Prop) : List Other → Prop
  | [] => True
  | o :: l => NamesAreOther K T o ∧ NamesAreOthers K T l
end

/-- All names in a calendar are as `K` requires, and the values of parameters as `T` requires. -/
structure NamesAreCal (K : Str → Prop) (T : Str → Str → Prop) (c : Calendar) : Prop where
  props : ∀ p ∈ c.props, NamesAreProp K T p
  comps : ∀ x ∈ c.comps, NamesAreOther K T x.toOther

/-- The type that is named is in ASCII. -/
def AsciiType (k v : Str) : Prop := k = c!"VALUE" → Ascii v

/-- Any value of a parameter. -/
def AnyValue (_ _ : Str) : Prop := True

instance : DecidableRel AnyValue := fun _ _ => .isTrue trivial

instance : DecidableRel AsciiType := fun k v => inferInstanceAs (Decidable (k = c!"VALUE" → Ascii v))

end Ical.Spec
