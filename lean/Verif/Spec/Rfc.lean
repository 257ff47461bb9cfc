import Verif.Spec.DateText
import Verif.Spec.Calls

/-!
Specification of the names and values RFC 5545 allows for the properties the typed setters write. Shared with the model:
the data types.
-/

namespace Ical.Spec

open Ical

/-- One or more digits, and the number they stand for: `1*DIGIT`. -/
def Digits (s : Str) (n : Nat) : Prop := s ≠ [] ∧ Number s.length s n

/-- `date`, 3.3.4 -/
def RfcDate (s : Str) : Prop := ∃ y m d, DateText s y m d ∧ DayExists y m d

/-- `date-time` without UTC designator, 3.3.5 forms 1 and 3 -/
def RfcLocal (s : Str) : Prop := ∃ a b h m sec, s = a ++ 'T' :: b ∧ RfcDate a ∧ TimeText b h m sec ∧ TimeExists h m sec

/-- `date-time` with UTC designator, 3.3.5 form 2 -/
def RfcUtc (s : Str) : Prop := ∃ a, s = a ++ ['Z'] ∧ RfcLocal a

/-- `integer` (without sign) between two bounds, 3.3.8 -/
def RfcInteger (lo hi : Nat) (s : Str) : Prop := ∃ n, Digits s n ∧ lo ≤ n ∧ n ≤ hi

/-- `1*DIGIT` followed by a letter -/
def DurPart (u : Char) (s : Str) : Prop := ∃ a n, Digits a n ∧ s = a ++ [u]
/-- `dur-second` -/
def DurSecond (s : Str) : Prop := DurPart 'S' s
/-- `dur-minute = 1*DIGIT "M" [dur-second]` -/
def DurMinute (s : Str) : Prop := ∃ a b, s = a ++ b ∧ DurPart 'M' a ∧ (b = [] ∨ DurSecond b)
/-- `dur-hour = 1*DIGIT "H" [dur-minute]` -/
def DurHour (s : Str) : Prop := ∃ a b, s = a ++ b ∧ DurPart 'H' a ∧ (b = [] ∨ DurMinute b)
/-- `dur-time = "T" (dur-hour / dur-minute / dur-second)` -/
def DurTime (s : Str) : Prop := ∃ a, s = 'T' :: a ∧ (DurHour a ∨ DurMinute a ∨ DurSecond a)
/-- `dur-date = dur-day [dur-time]` -/
def DurDate (s : Str) : Prop := ∃ a b, s = a ++ b ∧ DurPart 'D' a ∧ (b = [] ∨ DurTime b)
/-- `dur-value = (["+"] / "-") "P" (dur-date / dur-time / dur-week)`, 3.3.6 -/
def RfcDuration (s : Str) : Prop :=
  ∃ sign a, s = sign ++ 'P' :: a ∧ (sign = [] ∨ sign = ['+'] ∨ sign = ['-']) ∧ (DurDate a ∨ DurTime a ∨ DurPart 'W' a)

/-- `name = iana-token / x-name`: one or more letters, digits and dashes, 3.1 -/
def RfcName (s : Str) : Prop :=
  s ≠ [] ∧ ∀ c ∈ s, ('a' ≤ c ∧ c ≤ 'z') ∨ ('A' ≤ c ∧ c ≤ 'Z') ∨ ('0' ≤ c ∧ c ≤ '9') ∨ c = '-'

instance (s : Str) : Decidable (RfcName s) := by unfold RfcName; infer_instance

/-- What a DATE or DATE-TIME property may look like: 3.8.2.2, 3.8.2.3, 3.8.2.4. -/
def RfcDateOrTime (p : Property) : Prop :=
  (p.params.lookup c!"VALUE" = some c!"DATE" ∧ p.params.lookup c!"TZID" = none ∧ RfcDate p.val) ∨
  (p.params.lookup c!"VALUE" ∈ [none, some c!"DATE-TIME"] ∧ RfcLocal p.val) ∨
  (p.params.lookup c!"VALUE" ∈ [none, some c!"DATE-TIME"] ∧ p.params.lookup c!"TZID" = none ∧ RfcUtc p.val)

/-- What a TRIGGER may look like: 3.8.6.3. An absolute one is in UTC. -/
def RfcTrigger (p : Property) : Prop :=
  (p.params.lookup c!"VALUE" ∈ [none, some c!"DURATION"] ∧
    p.params.lookup c!"RELATED" ∈ [none, some c!"START", some c!"END"] ∧ RfcDuration p.val) ∨
  (p.params.lookup c!"VALUE" = some c!"DATE-TIME" ∧ p.params.lookup c!"RELATED" = none ∧
    p.params.lookup c!"TZID" = none ∧ RfcUtc p.val)

/-- The states of an event and of a to-do: 3.8.1.11. -/
def rfcStatus (kind : Str) : List Str :=
  if kind = c!"VEVENT" then [c!"TENTATIVE", c!"CONFIRMED", c!"CANCELLED"]
  else if kind = c!"VTODO" then [c!"NEEDS-ACTION", c!"COMPLETED", c!"IN-PROCESS", c!"CANCELLED"]
  else if kind = c!"VJOURNAL" then [c!"DRAFT", c!"FINAL", c!"CANCELLED"]
  else []

/-- The name and the value of a property are as RFC 5545 demands it in a component of a kind. -/
structure RfcProperty (kind : Str) (p : Property) : Prop where
  name : RfcName p.key
  utc : p.key ∈ [c!"DTSTAMP", c!"CREATED", c!"LAST-MODIFIED", c!"COMPLETED"] →
    RfcUtc p.val ∧ p.params.lookup c!"TZID" = none
  date : p.key ∈ [c!"DTSTART", c!"DTEND", c!"DUE"] → RfcDateOrTime p
  priority : p.key = c!"PRIORITY" → RfcInteger 0 9 p.val
  percent : p.key = c!"PERCENT-COMPLETE" → RfcInteger 0 100 p.val
  sequence : p.key = c!"SEQUENCE" → RfcInteger 0 2147483647 p.val
  repeats : p.key = c!"REPEAT" → RfcInteger 0 2147483647 p.val
  class_ : p.key = c!"CLASS" → RfcName p.val
  status : p.key = c!"STATUS" → p.val ∈ rfcStatus kind
  action : p.key = c!"ACTION" → RfcName p.val
  duration : p.key = c!"DURATION" → RfcDuration p.val
  trigger : p.key = c!"TRIGGER" → RfcTrigger p

/-- A date-time of a year from 0 to 9999. -/
def Writable (t : NaiveDateTime) : Prop := t.Valid ∧ 0 ≤ t.date.year ∧ t.date.year ≤ 9999

/-- A date, or date-time, of a year from 0 to 9999. -/
def WritableDate : DatePerhapsTime → Prop
  | .date d => d.Valid ∧ 0 ≤ d.year ∧ d.year ≤ 9999
  | .dateTime (.floating t) => Writable t
  | .dateTime (.utc t) => Writable t.naive
  | .dateTime (.zoned t _) => Writable t

/-- A call of the builder whose arguments are within the ranges of RFC 5545. (`last_modified` is not among them: C50.) -/
def SensibleCall (kind : Str) : Call → Prop
  | .appendProperty p => RfcProperty kind p
  | .addProperty k v => RfcProperty kind ⟨k, v, []⟩
  | .timestamp t => Writable t.naive
  | .created t => Writable t.naive
  | .lastModified _ => False
  | .priority n => n ≤ 9
  | .sequence n => n ≤ 2147483647
  | .starts d => WritableDate d
  | .ends d => WritableDate d
  | .allDay d => WritableDate (.date d)
  | _ => True

/-- A trigger within the ranges of RFC 5545: whole seconds, or a time in UTC. -/
def SensibleTrigger : Trigger → Prop
  | .duration d _ => 1000000000 ∣ d.nanos
  | .dateTime (.utc t) => Writable t.naive
  | .dateTime _ => False

/-- a call of an event within the ranges of RFC 5545 -/
def SensibleEventCall : EventCall → Prop
  | .common c => SensibleCall c!"VEVENT" c
  | .status _ => True

/-- a call of a to-do within the ranges of RFC 5545 -/
def SensibleTodoCall : TodoCall → Prop
  | .common c => SensibleCall c!"VTODO" c
  | .percentComplete n => n ≤ 100
  | .due d => WritableDate d
  | .completed t => Writable t.naive
  | .status _ => True

/-- the date, or date-time, exists -/
def RealDate : DatePerhapsTime → Prop
  | .date d => d.Valid
  | .dateTime (.floating t) => t.Valid
  | .dateTime (.utc t) => t.naive.Valid
  | .dateTime (.zoned t _) => t.Valid

/-- The dates among the arguments of a call exist; what the types of chrono guarantee. -/
def RealCall : Call → Prop
  | .timestamp t => t.naive.Valid
  | .created t => t.naive.Valid
  | .starts d => RealDate d
  | .ends d => RealDate d
  | .allDay d => d.Valid
  | _ => True

end Ical.Spec
