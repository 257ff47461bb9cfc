import Verif.Spec.Redact

/-!
Specification of the lines that begin and end components, as programs that only know these lines see them.
-/

namespace Ical.Spec

open Ical

/-- The line starts with `BEGIN:` (true) or `END:` (false), in any letter case; and what follows in the line. -/
def bracketOf (line : Str) : Option (Bool × Str) :=
  if (line.take 6).map lowerAscii = c!"begin:" then some (true, lineContent (line.drop 6))
  else if (line.take 4).map lowerAscii = c!"end:" then some (false, lineContent (line.drop 4))
  else none

/-- All such lines of a text, in order. -/
def brackets (s : Str) : List (Bool × Str) := (cutLines s).filterMap bracketOf

mutual
/-- The beginnings and ends of a component and of those in it, by name. -/
def bracketsWithin : Other → List (Bool × Str)
  | .mk name _ _ comps => (true, name) :: (bracketsWithinAll comps ++ [(false, name)])
/-- see `bracketsWithin` -/
def bracketsWithinAll : List Other → List (Bool × Str)
  | [] => []
  | o :: l => bracketsWithin o ++ bracketsWithinAll l
end

/-- The beginnings and ends of a calendar and of its components. -/
def calendarBrackets (c : Calendar) : List (Bool × Str) :=
  (true, c!"VCALENDAR") :: (bracketsWithinAll (c.comps.map CalComp.toOther) ++ [(false, c!"VCALENDAR")])

mutual
/-- How many components have the name: the component itself and those in it. -/
def namedWithin (n : Str) : Other → Nat
  | .mk name _ _ comps => (if name = n then 1 else 0) + namedWithinAll n comps
/-- see `namedWithin` -/
def namedWithinAll (n : Str) : List Other → Nat
  | [] => 0
  | o :: l => namedWithin n o + namedWithinAll n l
end

end Ical.Spec
