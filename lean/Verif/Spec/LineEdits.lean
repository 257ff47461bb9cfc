import Verif.Spec.Foreign

/-!
Specification of documents, and of what is read from them, that differ in some lines of one component.
-/

namespace Ical.Spec

open Ical

/-- A line of one of the given names. -/
def IsLine (names : Str → Prop) (i : Item) : Prop := ∃ k ps v, i = .prop k ps v ∧ names k

/-- Two components that differ in one place, at any depth: there some lines of the given names have been added,
removed or replaced. -/
inductive LinesEdited (names : Str → Prop) : Item → Item → Prop
  | here {b e n pre mid mid' post} (h : ∀ i ∈ mid, IsLine names i) (h' : ∀ i ∈ mid', IsLine names i) :
    LinesEdited names (.comp b e n (pre ++ (mid ++ post))) (.comp b e n (pre ++ (mid' ++ post)))
  | inside {b e n pre x y post} (h : LinesEdited names x y) :
    LinesEdited names (.comp b e n (pre ++ x :: post)) (.comp b e n (pre ++ y :: post))

/-- Two components that differ in the properties of the given names of one component, at any depth, and in nothing
else. -/
inductive DiffersIn (names : Str → Prop) : Other → Other → Prop
  | here {n props multi props' multi' comps} (hp : ∀ k, ¬ names k → props.lookup k = props'.lookup k)
    (hm : ∀ k, ¬ names k → multi.lookup k = multi'.lookup k) :
    DiffersIn names (.mk n props multi comps) (.mk n props' multi' comps)
  | inside {n props multi before x y after} (h : DiffersIn names x y) :
    DiffersIn names (.mk n props multi (before ++ x :: after)) (.mk n props multi (before ++ y :: after))

/-- Two calendars that differ in properties of the given names, in one place: among the calendar's own properties or
in one of its components. -/
inductive CalendarsDifferIn (names : Str → Prop) : Calendar → Calendar → Prop
  | own {before mid mid' after comps} (h : ∀ p ∈ mid, names p.key) (h' : ∀ p ∈ mid', names p.key) :
    CalendarsDifferIn names ⟨before ++ (mid ++ after), comps⟩ ⟨before ++ (mid' ++ after), comps⟩
  | inside {props before x y after n} (hx : KindFor n x) (hy : KindFor n y) (h : DiffersIn names x.toOther y.toOther) :
    CalendarsDifferIn names ⟨props, before ++ x :: after⟩ ⟨props, before ++ y :: after⟩

end Ical.Spec
