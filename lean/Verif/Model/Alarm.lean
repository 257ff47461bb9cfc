import Verif.Model.Component

/-!
Alarms: /repo/src/components/alarm.rs.
-/

namespace Ical

/-- `Action`: /repo/src/components/alarm.rs:291-304. -/
inductive Action where
  | audio | email | display | other (s : Str)
  deriving DecidableEq, Repr

/-- `Action::from_str` (never fails): /repo/src/components/alarm.rs:306-317. -/
def Action.fromStr (s : Str) : Action :=
  if s = c!"AUDIO" then .audio
  else if s = c!"EMAIL" then .email
  else if s = c!"DISPLAY" then .display
  else .other s

/-- `Display for Action`: /repo/src/components/alarm.rs:319-328. -/
def Action.toStr : Action → Str
  | .audio => c!"AUDIO"
  | .email => c!"EMAIL"
  | .display => c!"DISPLAY"
  | .other s => s

/-- `From<Action> for Property`: /repo/src/components/alarm.rs:330-338. -/
def Action.toProperty (a : Action) : Property := .new c!"ACTION" a.toStr

/-- `From<Repeat> for Property`: /repo/src/components/alarm.rs:352-356 (`Repeat` is a `u32`). -/
def repeatToProperty (n : Nat) : Property := .new c!"REPEAT" (natToStr n)

/-- `Related`: /repo/src/components/alarm.rs:368-373. -/
inductive Related where
  | start | end_
  deriving DecidableEq, Repr

/-- Parameter value of `From<Related> for Parameter`: /repo/src/components/alarm.rs:375-382. -/
def Related.toStr : Related → Str
  | .start => c!"START"
  | .end_ => c!"END"

/-- `Related::from_str`: /repo/src/components/alarm.rs:384-394. -/
def Related.fromStr (s : Str) : Option Related :=
  if s = c!"START" then some .start
  else if s = c!"END" then some .end_
  else none

/-- `Trigger`: /repo/src/components/alarm.rs:410-415. -/
inductive Trigger where
  | duration (d : Duration) (rel : Option Related)
  | dateTime (t : CalDateTime)
  deriving DecidableEq, Repr

namespace Trigger

/-- `after_start`: /repo/src/components/alarm.rs:427-429. -/
def afterStart (d : Duration) : Trigger := .duration d (some .start)
/-- `after_end`: /repo/src/components/alarm.rs:440-442. -/
def afterEnd (d : Duration) : Trigger := .duration d (some .end_)
/-- `before_start`: /repo/src/components/alarm.rs:453-455. -/
def beforeStart (d : Duration) : Trigger := .duration d.neg (some .start)
/-- `before_end`: /repo/src/components/alarm.rs:466-468. -/
def beforeEnd (d : Duration) : Trigger := .duration d.neg (some .end_)

/-- `related`: /repo/src/components/alarm.rs:471-476. -/
def related : Trigger → Option Related
  | .duration _ r => r
  | .dateTime _ => none
/-- `as_duration`: /repo/src/components/alarm.rs:479-484. -/
def asDuration : Trigger → Option Duration
  | .duration d _ => some d
  | .dateTime _ => none
/-- `as_date_time`: /repo/src/components/alarm.rs:487-492. -/
def asDateTime : Trigger → Option CalDateTime
  | .duration _ _ => none
  | .dateTime t => some t

/-- `From<Duration>`, `From<(Duration, Related)>`, `From<CalendarDateTime>`:
/repo/src/components/alarm.rs:495-514. -/
def ofDuration (d : Duration) : Trigger := .duration d none

/-- `From<Trigger> for Property`: /repo/src/components/alarm.rs:543-560. -/
def toProperty : Trigger → Property
  | .duration d (some r) => (Property.new c!"TRIGGER" d.toStr).addParameter c!"RELATED" r.toStr
  | .duration d none => .new c!"TRIGGER" d.toStr
  | .dateTime t => (t.toProperty c!"TRIGGER").addParameter c!"VALUE" c!"DATE-TIME"

/-- `TryFrom<&Property> for Trigger`: /repo/src/components/alarm.rs:516-541. -/
def tryFrom [Iso8601] (p : Property) : Option Trigger :=
  if p.key = c!"TRIGGER" then
    match p.params.get c!"VALUE" with
    | some v =>
      if v = c!"DATE-TIME" then (CalDateTime.fromStr p.val).map Trigger.dateTime
      else if v = c!"DURATION" then
        match Iso8601.parse p.val with
        | some d => some (.duration d (p.getParamAs c!"RELATED" Related.fromStr))
        | none => none
      else none
    | none =>
      match Iso8601.parse p.val with
      | some d => some (.duration d (p.getParamAs c!"RELATED" Related.fromStr))
      | none => none
  else none

end Trigger

namespace Alarm
open Component

/-- `Alarm::done`: /repo/src/components/alarm.rs:225-229. -/
def done (a : Alarm) : Alarm × Alarm := (⟨a.inner.done.1⟩, ⟨a.inner.done.2⟩)

/-- `Alarm::audio`: /repo/src/components/alarm.rs:100-106. -/
def audio (t : Trigger) : Alarm :=
  (done (appendProperty (appendProperty (⟨.empty⟩ : Alarm) Action.audio.toProperty) t.toProperty)).1

/-- `Alarm::display`: /repo/src/components/alarm.rs:128-135. -/
def display (desc : Str) (t : Trigger) : Alarm :=
  (done (addProperty
    (appendProperty (appendProperty (⟨.empty⟩ : Alarm) Action.display.toProperty) t.toProperty)
    c!"DESCRIPTION" desc)).1

/-- `Alarm::duration_and_repeat`: /repo/src/components/alarm.rs:180-191. -/
def durationAndRepeat (a : Alarm) (d : Duration) (n : Nat) : Alarm :=
  appendProperty (appendProperty a d.toProperty) (repeatToProperty n)

/-- `get_trigger`: /repo/src/components/alarm.rs:201-207. -/
def getTrigger [Iso8601] (a : Alarm) : Option Trigger :=
  (a.inner.props.get c!"TRIGGER").bind Trigger.tryFrom

/-- `get_action`: /repo/src/components/alarm.rs:194-198. -/
def getAction (a : Alarm) : Option Action := (propertyValue a c!"ACTION").map Action.fromStr

end Alarm

/-- `EventLike::alarm`: /repo/src/components.rs:361-364. -/
def Component.alarm {C : Type} [Component C] (c : C) (a : Alarm) : C :=
  Component.appendComponent c (Component.toOther a)

end Ical
