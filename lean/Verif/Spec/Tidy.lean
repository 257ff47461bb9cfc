import Verif.Spec.Document

/-!
Specification of the parsed trees that a calendar can be written from without ambiguity. Shared with the model: the
types of parsed trees.
-/

namespace Ical.Spec

open Ical

/-- A line that is not odd: its name is not BEGIN or END in small letters, no parameter occurs twice and no parameter
value starts with a double quote (as it does if there is no second one). -/
structure TidyProp (p : PProp) : Prop where
  notEnd : p.name.map lowerAscii ≠ c!"end"
  notBegin : p.name.map lowerAscii ≠ c!"begin"
  once : (p.params.map PParam.key).Nodup
  quote : ∀ q ∈ p.params, ∀ v, q.val = some v → ¬ ['"'] <+: v

instance (o : Option Str) (P : Str → Prop) [DecidablePred P] : Decidable (∀ v, o = some v → P v) :=
  match o with
  | none => .isTrue (by simp)
  | some v => decidable_of_iff (P v) (by simp)

instance (p : PProp) : Decidable (TidyProp p) :=
  decidable_of_iff (p.name.map lowerAscii ≠ c!"end" ∧ p.name.map lowerAscii ≠ c!"begin" ∧
    (p.params.map PParam.key).Nodup ∧ ∀ q ∈ p.params, ∀ v, q.val = some v → ¬ ['"'] <+: v)
    ⟨fun h => ⟨h.1, h.2.1, h.2.2.1, h.2.2.2⟩, fun h => ⟨h.notEnd, h.notBegin, h.once, h.quote⟩⟩

mutual
/-- A component without odd lines, at any depth. -/
def TidyComp : PComp → Prop
  | .mk _ props comps => (∀ p ∈ props, TidyProp p) ∧ TidyComps comps
/-- see `TidyComp` -/
def TidyComps : List PComp → Prop
  | [] => True
  | c :: l => TidyComp c ∧ TidyComps l
end

/-- A calendar without odd lines. -/
structure TidyCal (c : PCal) : Prop where
  props : ∀ p ∈ c.props, TidyProp p
  comps : TidyComps c.comps

end Ical.Spec
