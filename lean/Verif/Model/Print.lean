import Verif.Model.Calendar

/-!
Printing to standard output. Simplification: standard output takes everything it is given (`print!` panics when writing
to it fails).
-/

namespace Ical

variable [Uni]

/-- What `Calendar::print` writes to standard output: /repo/src/calendar.rs:237-240. The macro `print_crlf!` adds a line
break to what the calendar ends with: /repo/src/lib.rs:19-23. -/
def Calendar.printed (c : Calendar) (w : World) : Except Crash Str :=
  match c.fmtWrite w with
  | .error e => .error e
  | .ok s => .ok (s ++ crlf)

/-- What `Component::print` writes to standard output: /repo/src/components.rs:213-218. -/
def CalComp.printed (c : CalComp) (w : World) : Except Crash Str :=
  match c.fmtWrite w with
  | .error e => .error e
  | .ok s => .ok (s ++ crlf)

/-- What `parser::Calendar::print` writes to standard output: /repo/src/parser/calendar.rs:14-20. -/
def PCal.printed (c : PCal) (w : World) : Except Crash Str :=
  match c.fmtWrite w with
  | .error e => .error e
  | .ok s => .ok (s ++ crlf)

end Ical
