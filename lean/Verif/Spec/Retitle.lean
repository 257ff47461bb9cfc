import Verif.Spec.StripBlocks

/-!
Specification of giving the components of a name another name in a file, as programs do it that replace lines, and of
giving them another name in a calendar.
-/

namespace Ical.Spec

open Ical

/-- A line that is one of two given ones with another one instead; the line break stays. -/
def swapLine (first first' last last' x : Str) : Str :=
  if lineContent x = first then first' ++ x.drop first.length
  else if lineContent x = last then last' ++ x.drop last.length
  else x

/-- The text with other lines for those that begin or end a component of the first name. -/
def retitleBlocks (k k' s : Str) : Str :=
  ((cutLines s).map (swapLine (c!"BEGIN:" ++ k) (c!"BEGIN:" ++ k') (c!"END:" ++ k) (c!"END:" ++ k'))).flatten

/-- `BEGIN` and `END` of the components of the name are upper case. -/
def CapitalBlocks (k : Str) : List Item → Prop
  | [] => True
  | .prop _ _ _ :: l => CapitalBlocks k l
  | .comp b e n items :: l => (n = k → b = c!"BEGIN:" ∧ e = c!"END:") ∧ CapitalBlocks k items ∧ CapitalBlocks k l

/-- The elements with the second name for the components of the first one, at any depth. -/
def retitledItems (k k' : Str) : List Item → List Item
  | [] => []
  | .prop key params val :: l => .prop key params val :: retitledItems k k' l
  | .comp b e n items :: l => .comp b e (if n = k then k' else n) (retitledItems k k' items) :: retitledItems k k' l

/-- The components with the second name for those of the first one, at any depth. -/
def retitledComps (k k' : Str) : List Other → List Other
  | [] => []
  | .mk n props multi comps :: l =>
    .mk (if n = k then k' else n) props multi (retitledComps k k' comps) :: retitledComps k k' l

/-- The second calendar is the first one with another name for the components of a name, at any depth. They are of the kind
of their new name. -/
structure CalendarRetitled (k k' : Str) (c d : Calendar) : Prop where
  props : d.props = c.props
  comps : d.comps.map CalComp.toOther = retitledComps k k' (c.comps.map CalComp.toOther)
  kinds : ∀ x ∈ d.comps, KindFor x.toOther.name x

end Ical.Spec
