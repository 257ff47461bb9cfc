import Verif.Spec.Redact

/-!
Specification of giving all lines of a name another name in a file, as programs that work on lines do it, and of giving
the properties of a name another name in a calendar.
-/

namespace Ical.Spec

open Ical

/-- A line of the first name with the second one instead. -/
def renameLine (k k' x : Str) : Str := if NamedLine k x then k' ++ x.drop k.length else x

/-- The text with the lines of the first name renamed. -/
def renameLines (k k' s : Str) : Str := ((cutLines s).map (renameLine k k')).flatten

/-- No line ends within the name, or behind it, and is continued. -/
def NotCut (k : Str) : List Str → Prop
  | [] => True
  | [_] => True
  | a :: b :: l => (Continues b → ¬ lineContent a <+: k) ∧ NotCut k (b :: l)

def decNotCut (k : Str) : (l : List Str) → Decidable (NotCut k l)
  | [] => .isTrue trivial
  | [_] => .isTrue trivial
  | a :: b :: l =>
    have : Decidable (NotCut k (b :: l)) := decNotCut k (b :: l)
    inferInstanceAs (Decidable ((Continues b → ¬ lineContent a <+: k) ∧ NotCut k (b :: l)))

instance (k : Str) (l : List Str) : Decidable (NotCut k l) := decNotCut k l

/-- The elements with the content lines of the first name renamed, at any depth. -/
def withRenamed (k k' : Str) : List Item → List Item
  | [] => []
  | .prop key params val :: l => .prop (if key = k then k' else key) params val :: withRenamed k k' l
  | .comp b e n items :: l => .comp b e n (withRenamed k k' items) :: withRenamed k k' l

/-- No element has the name, at any depth. -/
def Unnamed (k : Str) : List Item → Prop
  | [] => True
  | .prop key _ _ :: l => key ≠ k ∧ Unnamed k l
  | .comp _ _ _ items :: l => Unnamed k items ∧ Unnamed k l

/-- Properties of both names can occur several times or neither can, and values of both are TEXT or neither are. -/
def SameUse (k k' : Str) : Prop := (k ∈ repeatable ↔ k' ∈ repeatable) ∧ (k ∈ textNames ↔ k' ∈ textNames)

instance (k k' : Str) : Decidable (SameUse k k') := by unfold SameUse; infer_instance

mutual
/-- The second component is the first one with the properties of the first name under the second one, at any depth. -/
def WithRenamed (k k' : Str) : Other → Other → Prop
  | .mk n props multi comps, .mk n' props' multi' comps' =>
    n' = n ∧
    (∀ x, props'.lookup x = if x = k' then (props.lookup k).map (fun p => { p with key := k' })
      else if x = k then none else props.lookup x) ∧
    (∀ x, multi'.lookup x = if x = k' then (multi.lookup k).map (List.map fun p => { p with key := k' })
      else if x = k then none else multi.lookup x) ∧
    WithRenamedAll k k' comps comps'
/-- see `WithRenamed` -/
def WithRenamedAll (k k' : Str) : List Other → List Other → Prop
  | [], [] => True
  | o :: l, o' :: l' => WithRenamed k k' o o' ∧ WithRenamedAll k k' l l'
  | _, _ => False
end

/-- see `WithRenamed`; the kinds of the components are the same -/
def CompsWithRenamed (k k' : Str) : List CalComp → List CalComp → Prop
  | [], [] => True
  | x :: l, y :: l' => (∃ n, KindFor n x ∧ KindFor n y) ∧ WithRenamed k k' x.toOther y.toOther ∧ CompsWithRenamed k k' l l'
  | _, _ => False

/-- The second calendar is the first one with the properties of the first name under the second one, those of its own and
those of its components. -/
structure CalendarWithRenamed (k k' : Str) (c d : Calendar) : Prop where
  props : d.props = c.props.map (fun p => if p.key = k then { p with key := k' } else p)
  comps : CompsWithRenamed k k' c.comps d.comps

end Ical.Spec
