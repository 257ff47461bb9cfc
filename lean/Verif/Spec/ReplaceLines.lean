import Verif.Spec.Redact

/-!
Specification of replacing all lines of a name in a file, as programs that work on lines do it, and of replacing the
properties of a name in a calendar.
-/

namespace Ical.Spec

open Ical

/-- The text with a line in place of each line of a name. -/
def replaceLines (k line s : Str) : Str := ((cutLines s).map (fun x => if NamedLine k x then line else x)).flatten

/-- The elements with one content line in place of all of its name, at any depth. -/
def withReplaced (k : Str) (params : List DParam) (val : Str) : List Item → List Item
  | [] => []
  | .prop key params' val' :: l =>
    (if key = k then .prop k params val else .prop key params' val') :: withReplaced k params val l
  | .comp b e n items :: l => .comp b e n (withReplaced k params val items) :: withReplaced k params val l

mutual
/-- The second component is the first one with a property in place of each of its name, at any depth. -/
def WithReplaced (p : Property) : Other → Other → Prop
  | .mk n props multi comps, .mk n' props' multi' comps' =>
    n' = n ∧
    (∀ x, props'.lookup x = if x = p.key then (props.lookup x).map (fun _ => p) else props.lookup x) ∧
    (∀ x, multi'.lookup x = if x = p.key then (multi.lookup x).map (List.map fun _ => p) else multi.lookup x) ∧
    WithReplacedAll p comps comps'
/-- see `WithReplaced` -/
def WithReplacedAll (p : Property) : List Other → List Other → Prop
  | [], [] => True
  | o :: l, o' :: l' => WithReplaced p o o' ∧ WithReplacedAll p l l'
  | _, _ => False
end

/-- see `WithReplaced`; the kinds of the components are the same -/
def CompsWithReplaced (p : Property) : List CalComp → List CalComp → Prop
  | [], [] => True
  | x :: l, y :: l' => (∃ n, KindFor n x ∧ KindFor n y) ∧ WithReplaced p x.toOther y.toOther ∧ CompsWithReplaced p l l'
  | _, _ => False

/-- The second calendar is the first one with a property in place of each of its name, of its own and of its components. -/
structure CalendarWithReplaced (p : Property) (c d : Calendar) : Prop where
  props : d.props = c.props.map (fun q => if q.key = p.key then p else q)
  comps : CompsWithReplaced p c.comps d.comps

end Ical.Spec
