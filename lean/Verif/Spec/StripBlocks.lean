import Verif.Spec.Rename

/-!
Specification of removing the components of a name from a file, as programs do it that remove ranges of lines, and of
removing them from a calendar.
-/

namespace Ical.Spec

open Ical

/-- The lines without those from a first one to the next last one. The flag says that one is within such a range. -/
def outside (first last : Str) : Bool → List Str → List Str
  | _, [] => []
  | true, x :: l => if lineContent x = last then outside first last false l else outside first last true l
  | false, x :: l => if lineContent x = first then outside first last true l else x :: outside first last false l

/-- The text without the lines from the begin of a component of a name to the next end of one. -/
def withoutBlocks (k s : Str) : Str := (outside (c!"BEGIN:" ++ k) (c!"END:" ++ k) false (cutLines s)).flatten

/-- No line that ends within the one that begins or ends a component of the name is continued. -/
def BlocksWhole (k : Str) (lines : List Str) : Prop :=
  NotCut (c!"BEGIN:" ++ k ++ c!"\r") lines ∧ NotCut (c!"END:" ++ k ++ c!"\r") lines

instance (k : Str) (lines : List Str) : Decidable (BlocksWhole k lines) := by unfold BlocksWhole; infer_instance

/-- No element is a component of the name, at any depth. -/
def NoBlock (k : Str) : List Item → Prop
  | [] => True
  | .prop _ _ _ :: l => NoBlock k l
  | .comp _ _ n items :: l => n ≠ k ∧ NoBlock k items ∧ NoBlock k l

/-- No component of the name contains another one, and `BEGIN` and `END` of these are upper case. -/
def FlatBlocks (k : Str) : List Item → Prop
  | [] => True
  | .prop _ _ _ :: l => FlatBlocks k l
  | .comp b e n items :: l =>
    (if n = k then b = c!"BEGIN:" ∧ e = c!"END:" ∧ NoBlock k items else FlatBlocks k items) ∧ FlatBlocks k l

/-- The elements without the components of the name, at any depth. -/
def withoutItems (k : Str) : List Item → List Item
  | [] => []
  | .prop key params val :: l => .prop key params val :: withoutItems k l
  | .comp b e n items :: l => if n = k then withoutItems k l else .comp b e n (withoutItems k items) :: withoutItems k l

/-- No component has the name, at any depth. -/
def NoneNamed (k : Str) : List Other → Prop
  | [] => True
  | .mk n _ _ comps :: l => n ≠ k ∧ NoneNamed k comps ∧ NoneNamed k l

/-- No component of the name contains another one. -/
def Unnested (k : Str) : List Other → Prop
  | [] => True
  | .mk n _ _ comps :: l => (if n = k then NoneNamed k comps else Unnested k comps) ∧ Unnested k l

/-- The components without those of the name, at any depth. -/
def withoutComps (k : Str) : List Other → List Other
  | [] => []
  | .mk n props multi comps :: l =>
    if n = k then withoutComps k l else .mk n props multi (withoutComps k comps) :: withoutComps k l

/-- The second calendar is the first one without the components of a name, at any depth. -/
structure CalendarWithoutComps (k : Str) (c d : Calendar) : Prop where
  props : d.props = c.props
  comps : d.comps.map CalComp.toOther = withoutComps k (c.comps.map CalComp.toOther)
  kinds : ∀ x ∈ d.comps, KindFor x.toOther.name x

end Ical.Spec
