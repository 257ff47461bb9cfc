import Verif.Spec.ReplaceLines
import Verif.Spec.Rename
import Verif.Spec.Grep

/-!
Specification of removing or replacing the lines of a name in a file together with the lines that continue them.
-/

namespace Ical.Spec

open Ical

/-- The lines with one in place of each line of a name; the lines that continue it are left out. The flag says that the
line before has been replaced, or left out. -/
def editFolded (k line : Str) : Bool → List Str → List Str
  | _, [] => []
  | drop, x :: l =>
    if Continues x then (if drop then editFolded k line true l else x :: editFolded k line false l)
    else if NamedLine k x then line :: editFolded k line true l
    else x :: editFolded k line false l

/-- The text with a line in place of each line of a name and what continues it. -/
def replaceFolded (k line s : Str) : Str := (editFolded k line false (cutLines s)).flatten

/-- The text without the lines of a name and what continues them. -/
def withoutFolded (k s : Str) : Str := replaceFolded k [] s

end Ical.Spec
