import Verif.Spec.ContentLine

/-!
Specification of searching the files of calendars for words.
-/

namespace Ical.Spec

open Ical

/-- A word to search for: not empty, and without the characters that have a meaning in content lines. Blanks and
quotes are allowed. -/
def SearchWord (w : Str) : Prop := w ≠ [] ∧ ∀ c ∈ w, c ≠ '\\' ∧ c ≠ ',' ∧ c ≠ ';' ∧ c ≠ ':' ∧ c ≠ '\n'

/-- The word is found in how a value is written though it is not in the value: it starts with N, and the value has a
line feed and the rest of the word. -/
def FoundAfterBreak (p : Property) (w : Str) : Prop := IsText p ∧ ∃ rest, w = 'N' :: rest ∧ '\n' :: rest <:+: p.val

mutual
/-- All properties of a component and what is in it, in the order in which they are written. -/
def propsWithin : Other → List Property
  | .mk _ props multi comps => props.map Prod.snd ++ (multi.flatMap Prod.snd ++ propsWithinAll comps)
/-- see `propsWithin` -/
def propsWithinAll : List Other → List Property
  | [] => []
  | o :: l => propsWithin o ++ propsWithinAll l
end

/-- All properties of a calendar and its components. -/
def calendarProps (c : Calendar) : List Property := c.props ++ propsWithinAll (c.comps.map CalComp.toOther)

/-- A line of a calendar: the content line of the given property, or a line that belongs to none. -/
def LineOf : Option Property → Str → Prop
  | some p, line => ContentLine p line
  | none, line => (∃ name, line = c!"BEGIN:" ++ name ∨ line = c!"END:" ++ name) ∨
    (∃ t : UtcDateTime, t.naive.Valid ∧ line = c!"DTSTAMP:" ++ fmtUtc t) ∨
    (∃ v, (∀ c ∈ v, c ∈ c!"0123456789abcdef-") ∧ line = c!"UID:" ++ v)

end Ical.Spec
