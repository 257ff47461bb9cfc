import Verif.Spec.Brackets

/-!
Specification of a program that copies some of the components of a calendar file, line by line, and only knows that
components start with a line `BEGIN:` and end with a line `END:`.
-/

namespace Ical.Spec

open Ical

/-- Copies lines. The number says how many components are open; what has been read of a component of the calendar is held
back until its last line, and then copied if `keep` says so. -/
def copyLines (keep : Str → Bool) : Nat → Str → List Str → Str
  | _, held, [] => held
  | depth, held, line :: lines =>
    match bracketOf line with
    | some (true, _) =>
      if depth = 0 then line ++ copyLines keep 1 [] lines else copyLines keep (depth + 1) (held ++ line) lines
    | some (false, _) =>
      if depth ≤ 1 then line ++ copyLines keep 0 [] lines
      else if depth = 2 then (if keep (held ++ line) then held ++ line else []) ++ copyLines keep 1 [] lines
      else copyLines keep (depth - 1) (held ++ line) lines
    | none => if depth ≤ 1 then line ++ copyLines keep depth [] lines else copyLines keep depth (held ++ line) lines

/-- The file with only those components of the calendar whose lines `keep` accepts. -/
def selectBlocks (keep : Str → Bool) (s : Str) : Str := copyLines keep 0 [] (cutLines s)

end Ical.Spec
