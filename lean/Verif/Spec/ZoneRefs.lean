import Verif.Model.Calendar

/-!
Specification of which time zones a calendar refers to and which it defines (RFC 5545, section 3.2.19: "An individual
VTIMEZONE calendar component MUST be specified for each unique TZID parameter value").
-/

namespace Ical.Spec

open Ical

/-- The time zone id a property refers to. -/
def zoneOf (p : Property) : Option Str := List.lookup c!"TZID" p.params

/-- A property of the component, or of one inside it, refers to the zone. -/
inductive UsesZone (z : Str) : Other → Prop
  | own {name : Str} {props : BMap Property} {multi : BMap (List Property)} {comps : List Other} {x : Str × Property} :
      x ∈ props → zoneOf x.2 = some z → UsesZone z (.mk name props multi comps)
  | multi {name : Str} {props : BMap Property} {multi : BMap (List Property)} {comps : List Other}
      {x : Str × List Property} {p : Property} : x ∈ multi → p ∈ x.2 → zoneOf p = some z → UsesZone z (.mk name props multi comps)
  | sub {name : Str} {props : BMap Property} {multi : BMap (List Property)} {comps : List Other} {o : Other} :
      o ∈ comps → UsesZone z o → UsesZone z (.mk name props multi comps)

/-- The component is a VTIMEZONE with this id. -/
def DefinesZone (z : Str) : Other → Prop
  | .mk name props _ _ => name = c!"VTIMEZONE" ∧ ∃ p, (c!"TZID", p) ∈ props ∧ p.val = z

/-- The calendar refers to the zone. -/
def Refers (c : Calendar) (z : Str) : Prop :=
  (∃ p ∈ c.props, zoneOf p = some z) ∨ ∃ x ∈ c.comps, UsesZone z x.toOther

/-- The calendar defines the zone. -/
def Defines (c : Calendar) (z : Str) : Prop := ∃ x ∈ c.comps, DefinesZone z x.toOther

/-- Every zone the calendar refers to is defined in it. -/
def ZonesDefined (c : Calendar) : Prop := ∀ z, Refers c z → Defines c z

end Ical.Spec
