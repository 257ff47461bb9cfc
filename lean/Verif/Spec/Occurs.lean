import Verif.Spec.Structure
import Verif.Spec.Calls

/-!
C129: how often RFC 5545 allows and requires a property in a component. Shared with the model: the data types.
-/

namespace Ical.Spec

open Ical

/-- The number of lines of a component with this name. -/
def occurs (k : Str) (items : List Item) : Nat := (linesNamed k items).length

/-- What a VEVENT must not have more than once: 3.6.1. -/
def eventOnce : List Str :=
  [c!"DTSTAMP", c!"UID", c!"DTSTART", c!"CLASS", c!"CREATED", c!"DESCRIPTION", c!"GEO", c!"LAST-MODIFIED", c!"LOCATION",
    c!"ORGANIZER", c!"PRIORITY", c!"SEQUENCE", c!"STATUS", c!"SUMMARY", c!"TRANSP", c!"URL", c!"RECURRENCE-ID",
    c!"DTEND", c!"DURATION"]

/-- What a VTODO must not have more than once: 3.6.2. -/
def todoOnce : List Str :=
  [c!"DTSTAMP", c!"UID", c!"CLASS", c!"COMPLETED", c!"CREATED", c!"DESCRIPTION", c!"DTSTART", c!"GEO", c!"LAST-MODIFIED",
    c!"LOCATION", c!"ORGANIZER", c!"PERCENT-COMPLETE", c!"PRIORITY", c!"RECURRENCE-ID", c!"SEQUENCE", c!"STATUS",
    c!"SUMMARY", c!"URL", c!"DUE", c!"DURATION"]

/-- What a VCALENDAR must not have more than once: 3.6. -/
def calendarOnce : List Str := [c!"PRODID", c!"VERSION", c!"CALSCALE", c!"METHOD"]

/-- The occurrences of properties in an event of a calendar without METHOD: 3.6.1. -/
structure RfcEvent (items : List Item) : Prop where
  stamp : occurs c!"DTSTAMP" items ≠ 0
  uid : occurs c!"UID" items ≠ 0
  start : occurs c!"DTSTART" items ≠ 0
  once : ∀ k ∈ eventOnce, occurs k items ≤ 1
  notBoth : occurs c!"DTEND" items = 0 ∨ occurs c!"DURATION" items = 0

/-- The occurrences of properties in a to-do: 3.6.2. -/
structure RfcTodo (items : List Item) : Prop where
  stamp : occurs c!"DTSTAMP" items ≠ 0
  uid : occurs c!"UID" items ≠ 0
  once : ∀ k ∈ todoOnce, occurs k items ≤ 1
  notBoth : occurs c!"DUE" items = 0 ∨ occurs c!"DURATION" items = 0
  start : occurs c!"DURATION" items = 0 ∨ occurs c!"DTSTART" items ≠ 0

/-- The occurrences of properties and components in a calendar: 3.4 and 3.6. -/
structure RfcCalendar (items : List Item) : Prop where
  version : occurs c!"VERSION" items ≠ 0
  prodid : occurs c!"PRODID" items ≠ 0
  once : ∀ k ∈ calendarOnce, occurs k items ≤ 1
  component : ∃ b e n sub, Item.comp b e n sub ∈ items

/-- How many properties of this name a history of calls leaves: one if it was set, and all that were appended. -/
def given (calls : List Call) (k : Str) : Nat :=
  (if (calls.flatMap Call.sets).any (fun p => p.key == k) then 1 else 0) +
    (calls.filterMap Call.appends).countP (fun p => p.key == k)

/-- What a history of calls must be like for the event to be complete. -/
structure EventGiven (calls : List Call) : Prop where
  start : given calls c!"DTSTART" ≠ 0
  once : ∀ k ∈ eventOnce, given calls k ≤ 1
  noStamp : ∀ p ∈ calls.filterMap Call.appends, p.key ≠ c!"DTSTAMP" ∧ p.key ≠ c!"UID"
  notBoth : given calls c!"DTEND" = 0 ∨ given calls c!"DURATION" = 0

/-- What a history of calls must be like for the to-do to be complete. -/
structure TodoGiven (calls : List Call) : Prop where
  once : ∀ k ∈ todoOnce, given calls k ≤ 1
  noStamp : ∀ p ∈ calls.filterMap Call.appends, p.key ≠ c!"DTSTAMP" ∧ p.key ≠ c!"UID"
  notBoth : given calls c!"DUE" = 0 ∨ given calls c!"DURATION" = 0
  start : given calls c!"DURATION" = 0 ∨ given calls c!"DTSTART" ≠ 0

/-- The documentation of the call names the property it sets: none of the calls that take any property. -/
def Typed : Call → Prop
  | .appendProperty _ | .addProperty _ _ | .appendMultiProperty _ | .addMultiProperty _ _ => False
  | _ => True

/-- A typed call of an event. -/
def TypedEvent : EventCall → Prop
  | .common c => Typed c
  | _ => True

/-- A typed call of a to-do. -/
def TypedTodo : TodoCall → Prop
  | .common c => Typed c
  | _ => True

/-- The call says when the event starts. -/
def SaysStart : EventCall → Prop
  | .common (.starts _) | .common (.allDay _) => True
  | _ => False

end Ical.Spec
