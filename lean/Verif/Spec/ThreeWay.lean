import Verif.Spec.Foreign
import Verif.Spec.Structure

/-!
Specification of the merging of changes that two people made to copies of the same calendar file, as version control
systems and synchronising programs do it: line by line.
-/

namespace Ical.Spec

open Ical

/-- Who changed something: one of the two, the other, or both of them in the same way. -/
inductive Side
  | left | right | both
  deriving DecidableEq, Repr

/-- The outcome of merging two changes of a sequence: every stretch comes from the one who changed it. The arguments
are the original, the two changed ones and the outcome. -/
inductive ThreeWay {α : Type} : List α → List α → List α → List α → Prop
  | nil : ThreeWay [] [] [] []
  | keep (x) {l la lb lm} (h : ThreeWay l la lb lm) : ThreeWay (x :: l) (x :: la) (x :: lb) (x :: lm)
  | left (old new) {l la lb lm} (h : ThreeWay l la lb lm) :
    ThreeWay (old ++ l) (new ++ la) (old ++ lb) (new ++ lm)
  | right (old new) {l la lb lm} (h : ThreeWay l la lb lm) :
    ThreeWay (old ++ l) (old ++ la) (new ++ lb) (new ++ lm)
  | both (old new) {l la lb lm} (h : ThreeWay l la lb lm) :
    ThreeWay (old ++ l) (new ++ la) (new ++ lb) (new ++ lm)

/-- The outcome of merging two changes of a single thing: that of the one who changed it. -/
def MergedValue {α : Type} (x a b m : α) : Prop := (a = x ∧ m = b) ∨ (b = x ∧ m = a) ∨ (a = b ∧ m = a)

/-- All lines directly among the elements have names that are changed by this side. Components may stand among them. -/
def ChangedBy (s : Side) (owner : Str → Side) (l : List Item) : Prop :=
  ∀ k ps v, Item.prop k ps v ∈ l → owner k = s

/-- The outcome of merging two changes of the elements of a component: stretches of lines and of whole components are
replaced, by one side each, and so are the contents of components. Within one component the lines of one name are
changed by one side only, `owner` says by which. -/
inductive MergedItems : (owner : Str → Side) → List Item → List Item → List Item → List Item → Prop
  | nil {owner} : MergedItems owner [] [] [] []
  | keep {owner} (i) {l la lb lm} (h : MergedItems owner l la lb lm) :
    MergedItems owner (i :: l) (i :: la) (i :: lb) (i :: lm)
  | left {owner} (old new) {l la lb lm} (ho : ChangedBy .left owner old) (hn : ChangedBy .left owner new)
    (h : MergedItems owner l la lb lm) : MergedItems owner (old ++ l) (new ++ la) (old ++ lb) (new ++ lm)
  | right {owner} (old new) {l la lb lm} (ho : ChangedBy .right owner old) (hn : ChangedBy .right owner new)
    (h : MergedItems owner l la lb lm) : MergedItems owner (old ++ l) (old ++ la) (new ++ lb) (new ++ lm)
  | both {owner} (old new) {l la lb lm} (ho : ChangedBy .both owner old) (hn : ChangedBy .both owner new)
    (h : MergedItems owner l la lb lm) : MergedItems owner (old ++ l) (new ++ la) (new ++ lb) (new ++ lm)
  | inside {owner} (owner') {b e n k ka kb km l la lb lm} (hk : MergedItems owner' k ka kb km)
    (h : MergedItems owner l la lb lm) :
    MergedItems owner (.comp b e n k :: l) (.comp b e n ka :: la) (.comp b e n kb :: lb) (.comp b e n km :: lm)

/-- The outcome of merging two changes of the components of something: whole components come from the one who changed
them. Within a component that both changed, every property comes from the one who changed it. -/
inductive MergedComps : List Other → List Other → List Other → List Other → Prop
  | nil : MergedComps [] [] [] []
  | keep (x) {l la lb lm} (h : MergedComps l la lb lm) : MergedComps (x :: l) (x :: la) (x :: lb) (x :: lm)
  | left (old new) {l la lb lm} (h : MergedComps l la lb lm) :
    MergedComps (old ++ l) (new ++ la) (old ++ lb) (new ++ lm)
  | right (old new) {l la lb lm} (h : MergedComps l la lb lm) :
    MergedComps (old ++ l) (old ++ la) (new ++ lb) (new ++ lm)
  | both (old new) {l la lb lm} (h : MergedComps l la lb lm) :
    MergedComps (old ++ l) (new ++ la) (new ++ lb) (new ++ lm)
  | inside {n p pa pb pm m ma mb mm c ca cb cm l la lb lm}
    (hp : ∀ k, MergedValue (p.lookup k) (pa.lookup k) (pb.lookup k) (pm.lookup k))
    (hm : ∀ k, MergedValue (m.lookup k) (ma.lookup k) (mb.lookup k) (mm.lookup k))
    (hc : MergedComps c ca cb cm) (h : MergedComps l la lb lm) :
    MergedComps (.mk n p m c :: l) (.mk n pa ma ca :: la) (.mk n pb mb cb :: lb) (.mk n pm mm cm :: lm)

/-- The outcome of merging two changes of a calendar. -/
def MergedCalendar (c ca cb cm : Calendar) : Prop :=
  ThreeWay c.props ca.props cb.props cm.props ∧
  (∀ k, MergedValue (c.props.filter (·.key = k)) (ca.props.filter (·.key = k)) (cb.props.filter (·.key = k))
    (cm.props.filter (·.key = k))) ∧
  MergedComps (c.comps.map CalComp.toOther) (ca.comps.map CalComp.toOther) (cb.comps.map CalComp.toOther)
    (cm.comps.map CalComp.toOther)

mutual
/-- The lines of an element, without their line breaks. -/
def Item.docLines : Item → List Str
  | .prop key params val => [key ++ (params.map DParam.text).flatten ++ [':'] ++ val]
  | .comp b e name items => (b ++ name) :: (itemsDocLines items ++ [e ++ name])
/-- The lines of a sequence of elements. -/
def itemsDocLines : List Item → List Str
  | [] => []
  | i :: l => i.docLines ++ itemsDocLines l
end

end Ical.Spec
