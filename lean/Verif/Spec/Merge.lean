import Verif.Spec.Clean
import Verif.Spec.WellFormed
import Verif.Spec.Document
import Verif.Model.Calendar

/-!
Calendars put together from the parts of others, and taken apart.
-/

namespace Ical.Spec

variable [Uni]

/-- Each text is read as the calendar beside it, and none of these has odd parts (C94). -/
def FilesRead (files : List (Str × Calendar)) : Prop :=
  ∀ f ∈ files, Calendar.fromStr f.1 = some f.2 ∧ CleanCal f.2

omit [Uni] in
/-- A calendar has only components of the given ones, in any order and as often as one likes, and only properties of these
or the ones every new calendar has. -/
structure TakenFrom (files : List (Str × Calendar)) (d : Calendar) : Prop where
  comps : ∀ x ∈ d.comps, ∃ f ∈ files, x ∈ f.2.comps
  props : ∀ p ∈ d.props, p ∈ Calendar.new.props ∨ ∃ f ∈ files, p ∈ f.2.props

/-- A file for each component: what is written for it in a calendar of its own, with the properties of the whole one. -/
def SplitInto (c : Calendar) : List CalComp → List Str → Prop
  | [], [] => True
  | x :: l, file :: files =>
    (∃ w, World.Ok w ∧ ({ props := c.props, comps := [x] } : Calendar).fmtWrite w = .ok file) ∧ SplitInto c l files
  | _, _ => False

/-- The calendars read from files, all of them. -/
def ReadEach : List Str → List Calendar → Prop
  | [], [] => True
  | file :: files, c :: cs => Calendar.fromStr file = some c ∧ ReadEach files cs
  | _, _ => False

omit [Uni] in
/-- The components of a document, without its own lines. -/
def onlyComps : List Item → List Item
  | [] => []
  | .prop _ _ _ :: l => onlyComps l
  | .comp b e n items :: l => .comp b e n items :: onlyComps l

end Ical.Spec
