import Verif.Model.Calendar

/-!
C128: the UIDs of components and the references of events to venues.
-/

namespace Ical.Spec

open Ical

/-- The property UID of a component. -/
def uidOf (x : CalComp) : Option Property := x.toOther.inner.props.get c!"UID"

/-- The UID of the venue a component refers to: the parameter VVENUE of its location. -/
def venueRef (x : CalComp) : Option Str :=
  (x.toOther.inner.props.get c!"LOCATION").bind (fun p => List.lookup c!"VVENUE" p.params)

/-- The component is a venue with this UID. -/
def IsVenue (u : Str) (x : CalComp) : Prop := x.toOther.name = c!"VVENUE" ∧ ∃ p, uidOf x = some p ∧ p.val = u

/-- Every venue the components of the calendar refer to is among them. -/
def VenuesKnown (c : Calendar) : Prop := ∀ x ∈ c.comps, ∀ u, venueRef x = some u → ∃ y ∈ c.comps, IsVenue u y

end Ical.Spec
