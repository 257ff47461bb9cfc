import Verif.Spec.Blocks

/-!
Specification of adding a line to all components of a name in a file, as programs that work on lines do it, and of adding
a property to the components of a calendar.
-/

namespace Ical.Spec

open Ical

/-- The text with a line added to the components of a name: behind each line that begins such a component, or before each
line that ends one. -/
def addLine (atEnd : Bool) (name line s : Str) : Str :=
  ((cutLines s).map (fun x =>
    if bracketOf x = some (!atEnd, name) then (if atEnd then line ++ x else x ++ line) else x)).flatten

/-- An element put before or behind others. -/
def put {α : Type} (atEnd : Bool) (i : α) (l : List α) : List α := if atEnd then l ++ [i] else i :: l

mutual
/-- The elements with one added to the components of a name, at any depth. -/
def Item.withAdded (atEnd : Bool) (name : Str) (i : Item) : Item → Item
  | .prop key params val => .prop key params val
  | .comp b e n items =>
    .comp b e n (if n = name then put atEnd i (withAdded atEnd name i items) else withAdded atEnd name i items)
/-- see `Item.withAdded` -/
def withAdded (atEnd : Bool) (name : Str) (i : Item) : List Item → List Item
  | [] => []
  | .prop key params val :: l => .prop key params val :: withAdded atEnd name i l
  | .comp b e n items :: l =>
    .comp b e n (if n = name then put atEnd i (withAdded atEnd name i items) else withAdded atEnd name i items) ::
      withAdded atEnd name i l
end

mutual
/-- The second component is the first one with a property added to it and to the components in it, if they have this name.
Of the properties that can be given once, the one in the last line counts. -/
def WithAdded (atEnd : Bool) (name : Str) (p : Property) : Other → Other → Prop
  | .mk n props multi comps, .mk n' props' multi' comps' =>
    n' = n ∧
    (∀ x, props'.lookup x = if n = name ∧ x = p.key ∧ x ∉ repeatable then some (if atEnd then p else (props.lookup x).getD p)
      else props.lookup x) ∧
    (∀ x, multi'.lookup x = if n = name ∧ x = p.key ∧ x ∈ repeatable then some (put atEnd p ((multi.lookup x).getD []))
      else multi.lookup x) ∧
    WithAddedAll atEnd name p comps comps'
/-- see `WithAdded` -/
def WithAddedAll (atEnd : Bool) (name : Str) (p : Property) : List Other → List Other → Prop
  | [], [] => True
  | o :: l, o' :: l' => WithAdded atEnd name p o o' ∧ WithAddedAll atEnd name p l l'
  | _, _ => False
end

/-- see `WithAdded`; the kinds of the components are the same -/
def CompsWithAdded (atEnd : Bool) (name : Str) (p : Property) : List CalComp → List CalComp → Prop
  | [], [] => True
  | x :: l, y :: l' => (∃ n, KindFor n x ∧ KindFor n y) ∧ WithAdded atEnd name p x.toOther y.toOther ∧ CompsWithAdded atEnd name p l l'
  | _, _ => False

/-- The second calendar is the first one with a property added to all components of a name, and to the calendar if this is
its name. -/
structure CalendarWithAdded (atEnd : Bool) (name : Str) (p : Property) (c d : Calendar) : Prop where
  props : d.props = if name = c!"VCALENDAR" then put atEnd p c.props else c.props
  comps : CompsWithAdded atEnd name p c.comps d.comps

end Ical.Spec
