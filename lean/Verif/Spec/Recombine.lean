import Verif.Spec.Blocks
import Verif.Spec.WellFormed

/-!
Specification of a program that takes files of calendars apart and puts the parts together in another way, line by line,
and only knows that components start with a line `BEGIN:` and end with a line `END:`.
-/

namespace Ical.Spec

open Ical

/-- The texts of the components of a calendar. The number says how many components are open; what has been read of a
component of the calendar is collected until its last line. -/
def cutBlocks : Nat → Str → List Str → List Str
  | _, _, [] => []
  | depth, block, line :: lines =>
    match bracketOf line with
    | some (true, _) => if depth = 0 then cutBlocks 1 [] lines else cutBlocks (depth + 1) (block ++ line) lines
    | some (false, _) =>
      if depth ≤ 1 then cutBlocks 0 [] lines
      else if depth = 2 then (block ++ line) :: cutBlocks 1 [] lines
      else cutBlocks (depth - 1) (block ++ line) lines
    | none => if depth ≤ 1 then cutBlocks depth [] lines else cutBlocks depth (block ++ line) lines

/-- The texts of the components of the calendar in the file. -/
def blocksOf (s : Str) : List Str := cutBlocks 0 [] (cutLines s)

/-- The first line of the file and those before the next line that begins or ends a component. -/
def headOf (s : Str) : Str :=
  match cutLines s with
  | [] => []
  | first :: lines => first ++ (lines.takeWhile (fun line => bracketOf line = none)).flatten

/-- A file with the head of the given one and the given texts of components. -/
def recombine (s : Str) (blocks : List Str) : Str := headOf s ++ blocks.flatten ++ c!"END:VCALENDAR\r\n"

/-- A component and its text in the file of some calendar that is read back unchanged and whose properties are written as
one line each. -/
def InAFile [Uni] (x : CalComp × Str) : Prop :=
  ∃ c w out, CalendarOk c ∧ CalendarSafe c ∧ (∀ y ∈ c.comps, HasStamps y.toOther) ∧ UnbrokenCal c ∧ World.Ok w ∧
    c.fmtWrite w = .ok out ∧ x ∈ c.comps.zip (blocksOf out)

end Ical.Spec
