import Verif.Model.Calendar

/-!
The UIDs that components have gained: those of components that had none before.
-/

namespace Ical.Spec

open Ical

mutual
/-- The UIDs that the second component and its sub-components have and the first has not. -/
def gainedUids : Other → Other → List (Option Str)
  | .mk _ props _ comps, .mk _ props' _ comps' =>
    (if (props.get c!"UID").isNone then [(props'.get c!"UID").map (fun p => p.val)] else []) ++ gainedUidsAll comps comps'
/-- see `gainedUids` -/
def gainedUidsAll : List Other → List Other → List (Option Str)
  | [], _ => []
  | o :: l, o' :: l' => gainedUids o o' ++ gainedUidsAll l l'
  | _ :: _, [] => [none]
end

mutual
/-- The names of the components, at any depth, that have a DTSTAMP or a UID they did not have before. -/
def stampGainers : Other → Other → List Str
  | .mk _ props _ comps, .mk name' props' _ comps' =>
    (if ∃ k ∈ [c!"DTSTAMP", c!"UID"], (props.get k).isNone ∧ (props'.get k).isSome then [name'] else []) ++
      stampGainersAll comps comps'
/-- see `stampGainers` -/
def stampGainersAll : List Other → List Other → List Str
  | o :: l, o' :: l' => stampGainers o o' ++ stampGainersAll l l'
  | _, _ => []
end

mutual
/-- The names of the components, at any depth, without DTSTAMP or without UID. -/
def unstamped : Other → List Str
  | .mk name props _ comps =>
    (if ∃ k ∈ [c!"DTSTAMP", c!"UID"], (props.get k).isNone then [name] else []) ++ unstampedAll comps
/-- see `unstamped` -/
def unstampedAll : List Other → List Str
  | [] => []
  | o :: l => unstamped o ++ unstampedAll l
end

/-- The components RFC 5545 gives a DTSTAMP and a UID: 3.6.1 to 3.6.4. (Not: VTIMEZONE, STANDARD, DAYLIGHT, VALARM.) -/
def rfcStampedKinds : List Str := [c!"VEVENT", c!"VTODO", c!"VJOURNAL", c!"VFREEBUSY"]

end Ical.Spec
