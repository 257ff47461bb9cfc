import Verif.Spec.WellFormed

/-!
Specification of what a calendar becomes when it is written and read back. Shared with the model: the data
types.
-/

namespace Ical.Spec

open Ical

/-- What a property is read back as. -/
def rereadProp (p : Property) : Property := { p with val := if IsText p then rereadText p.val else p.val }

mutual
/-- What a component is read back as, apart from what is generated. -/
def rereadOther : Other → Other
  | .mk name props multi comps =>
    .mk name (props.map (fun x => (x.1, rereadProp x.2))) (multi.map (fun x => (x.1, x.2.map rereadProp)))
      (rereadOthers comps)
/-- see `rereadOther` -/
def rereadOthers : List Other → List Other
  | [] => []
  | o :: l => rereadOther o :: rereadOthers l
end

/-- What the content of a typed component is read back as. -/
def rereadInner (i : Inner) : Inner :=
  { props := i.props.map (fun x => (x.1, rereadProp x.2))
    multi := i.multi.map (fun x => (x.1, x.2.map rereadProp))
    comps := rereadOthers i.comps }

/-- What a component of a calendar is read back as. -/
def rereadComp : CalComp → CalComp
  | .event e => .event ⟨rereadInner e.inner⟩
  | .todo e => .todo ⟨rereadInner e.inner⟩
  | .venue e => .venue ⟨rereadInner e.inner⟩
  | .other o => .other (rereadOther o)

/-- What a calendar is read back as, apart from what is generated. -/
def rereadCal (c : Calendar) : Calendar :=
  { props := c.props.map rereadProp, comps := c.comps.map rereadComp }

end Ical.Spec
