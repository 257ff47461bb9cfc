import Verif.Model.FoldWork
import Verif.Model.Calendar

/-!
The work done by writing components and calendars: the functions `fmtWrite` again, counting for every property the
steps of `Property.writeSteps` and for every other line its octets.
-/

namespace Ical

variable [Uni]

/-- Steps of writing properties one after the other, as in `fmtProps`. -/
def propsSteps : List Property → World → Nat
  | [], _ => 0
  | p :: l, w => p.writeSteps (w.sub 0) + propsSteps l (w.sub 1)

mutual
/-- Steps of `Component::fmt_write`: /repo/src/components.rs:94-120. -/
def Other.writeSteps : Other → World → Nat
  | .mk name props multi comps, w =>
    blen (c!"BEGIN:" ++ name ++ crlf) +
    (if props.containsKey c!"DTSTAMP" then 0 else blen (c!"DTSTAMP:" ++ fmtUtc (w.now []) ++ crlf)) +
    propsSteps props.values (w.sub 0) +
    (if props.containsKey c!"UID" then 0 else blen (c!"UID:" ++ w.uuid [] ++ crlf)) +
    propsSteps multi.values.flatten (w.sub 1) +
    othersSteps comps (w.sub 2) +
    blen (c!"END:" ++ name ++ crlf)
/-- Steps of writing the sub-components: /repo/src/components.rs:114-116. -/
def othersSteps : List Other → World → Nat
  | [], _ => 0
  | o :: l, w => o.writeSteps (w.sub 0) + othersSteps l (w.sub 1)
end

/-- Steps of `Calendar::fmt_write`: /repo/src/calendar.rs:223-236. -/
def Calendar.writeSteps (c : Calendar) (w : World) : Nat :=
  blen (c!"BEGIN:VCALENDAR" ++ crlf) + propsSteps c.props (w.sub 0) +
    othersSteps (c.comps.map CalComp.toOther) (w.sub 1) + blen (c!"END:VCALENDAR" ++ crlf)

end Ical
