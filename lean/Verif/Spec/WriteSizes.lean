import Verif.Model.Calendar

/-!
How much room writing takes, in terms of what is held.
-/

namespace Ical.Spec

open Ical

/-- Room for a property: four times the characters of its line, and two. -/
def propertyRoom (p : Property) : Nat :=
  4 * (p.key.length + (p.params.map (fun x => x.1.length + x.2.length + 4)).sum + 1 + 2 * p.val.length) + 2

mutual
/-- Room for a component: its name twice, 85 characters for keywords and generated lines, and room for its parts. -/
def componentRoom : Other → Nat
  | .mk name props multi comps =>
    85 + 2 * name.length + (props.map (fun x => propertyRoom x.2)).sum +
      (multi.map (fun x => (x.2.map propertyRoom).sum)).sum + componentsRoom comps
/-- see `componentRoom` -/
def componentsRoom : List Other → Nat
  | [] => 0
  | o :: l => componentRoom o + componentsRoom l
end

/-- Room for a calendar: 32 characters for its keywords and room for its parts. -/
def calendarRoom (c : Calendar) : Nat :=
  32 + (c.props.map propertyRoom).sum + componentsRoom (c.comps.map CalComp.toOther)

/-- Identifiers are written with 36 characters. -/
def UuidLength (w : World) : Prop := ∀ path, (w.uuid path).length = 36

end Ical.Spec
