import Verif.Spec.Told
import Verif.Spec.Reread

/-!
Specification of exactly which calendars are read back as what was meant: with the TEXT values as they are read, and with
DTSTAMP and UID wherever there was none.
-/

namespace Ical.Spec

open Ical

/-- What is written for a property that is generated if there is none: nothing if there is one, else one without
parameters, with a value of some kind. -/
def Supplied (k : Str) (Ok : Str → Prop) (props : BMap Property) (d : List Property) : Prop :=
  if ∃ x ∈ props, x.1 = k then d = [] else ∃ v, Ok v ∧ d = [⟨k, v, []⟩]

mutual
/-- A text is BEGIN, a line of DTSTAMP if there was none, the lines of the single properties, a line of UID if there was
none, the lines of the repeatable properties, the sub-components and END, with the values of parameters told. -/
inductive CompWritten : Other → Str → Str → Prop
  | mk {name : Str} {props : BMap Property} {multi : BMap (List Property)} {comps : List Other} {d u : List Property} {a b f : Str} :
    Supplied c!"DTSTAMP" (fun v => ∃ now : UtcDateTime, now.naive.Valid ∧ v = fmtUtc now) props d →
    Supplied c!"UID" (fun v => ∀ c ∈ v, c ∈ c!"0123456789abcdef-") props u →
    LinesTold (d ++ props.map Prod.snd ++ u ++ multi.flatMap Prod.snd) a (b ++ (c!"END:" ++ name ++ ['\r', '\n']) ++ f) →
    CompsWritten comps b ((c!"END:" ++ name ++ ['\r', '\n']) ++ f) →
    CompWritten (.mk name props multi comps) ((c!"BEGIN:" ++ name ++ ['\r', '\n']) ++ a ++ b ++ (c!"END:" ++ name ++ ['\r', '\n'])) f
/-- see `CompWritten` -/
inductive CompsWritten : List Other → Str → Str → Prop
  | nil {f : Str} : CompsWritten [] [] f
  | cons {o : Other} {l : List Other} {a b f : Str} : CompWritten o a (b ++ f) → CompsWritten l b f →
    CompsWritten (o :: l) (a ++ b) f
end

/-- A text is BEGIN, the lines of the calendar's properties, its components and END, with the values of parameters
told. -/
def CalWritten (c : Calendar) (u : Str) : Prop :=
  ∃ a b, u = c!"BEGIN:VCALENDAR\r\n" ++ a ++ b ++ c!"END:VCALENDAR\r\n" ∧
    LinesTold c.props a (b ++ c!"END:VCALENDAR\r\n") ∧
    CompsWritten (c.comps.map CalComp.toOther) b c!"END:VCALENDAR\r\n"

end Ical.Spec
