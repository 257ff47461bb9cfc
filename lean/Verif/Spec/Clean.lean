import Verif.Spec.WellFormed

/-!
Specification of the calendars without anything that the reader is known to take for something else than it is. Nothing is
said about names, where properties are stored, the order of maps or quotes within values.
-/

namespace Ical.Spec

open Ical

/-- A property that is not called begin or end in whatever case, of which no parameter value starts with a quote or
looks like a folded line, and whose value, unless it is a TEXT, has no CR LF and does not look like a folded line. -/
structure CleanProp (p : Property) : Prop where
  notEnd : p.key.map lowerAscii ≠ c!"end"
  notBegin : p.key.map lowerAscii ≠ c!"begin"
  params : ∀ x ∈ p.params, ¬ ['"'] <+: x.2 ∧ MarkerFree x.2
  value : ValueOk p

instance (p : Property) : Decidable (CleanProp p) :=
  decidable_of_iff (p.key.map lowerAscii ≠ c!"end" ∧ p.key.map lowerAscii ≠ c!"begin" ∧
      (∀ x ∈ p.params, ¬ ['"'] <+: x.2 ∧ MarkerFree x.2) ∧ ValueOk p)
    ⟨fun h => ⟨h.1, h.2.1, h.2.2.1, h.2.2.2⟩, fun h => ⟨h.notEnd, h.notBegin, h.params, h.value⟩⟩

mutual
/-- A component of which all properties are clean, at any depth. -/
def CleanOther : Other → Prop
  | .mk _ props multi comps =>
    (∀ x ∈ props, CleanProp x.2) ∧ (∀ x ∈ multi, ∀ p ∈ x.2, CleanProp p) ∧ CleanOthers comps
/-- see `CleanOther` -/
def CleanOthers : List Other → Prop
  | [] => True
  | o :: l => CleanOther o ∧ CleanOthers l
end

/-- A calendar of which all properties are clean, at any depth. -/
structure CleanCal (c : Calendar) : Prop where
  props : ∀ p ∈ c.props, CleanProp p
  comps : ∀ x ∈ c.comps, CleanOther x.toOther

end Ical.Spec
