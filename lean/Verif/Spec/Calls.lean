import Verif.Model.Alarm

/-!
Histories of builder calls, and what the documentation says each call does. `run` performs a call with
the model's method; `sets`, `appends` and `adds` state its documented effect on the properties, the
multi-properties and the sub-components.
-/

namespace Ical.Spec

open Ical

/-- The builder calls every component understands. -/
inductive Call
  | appendProperty (p : Property)
  | addProperty (key val : Str)
  | appendMultiProperty (p : Property)
  | addMultiProperty (key val : Str)
  | appendComponent (o : Other)
  | timestamp (t : UtcDateTime)
  | priority (n : Nat)
  | summary (s : Str)
  | description (s : Str)
  | uid (s : Str)
  | sequence (n : Nat)
  | class_ (k : Class)
  | url (s : Str)
  | lastModified (t : UtcDateTime)
  | created (t : UtcDateTime)
  | starts (d : DatePerhapsTime)
  | ends (d : DatePerhapsTime)
  | allDay (d : NaiveDate)
  | venue (loc uid : Str)
  | location (s : Str)
  | alarm (a : Alarm)

namespace Call

/-- Performing a call. -/
def run {C : Type} [Component C] (c : C) : Call → C
  | appendProperty p => Component.appendProperty c p
  | addProperty k v => Component.addProperty c k v
  | appendMultiProperty p => Component.appendMultiProperty c p
  | addMultiProperty k v => Component.addMultiProperty c k v
  | appendComponent o => Component.appendComponent c o
  | timestamp t => Component.timestamp c t
  | priority n => Component.priority c n
  | summary s => Component.summary c s
  | description s => Component.description c s
  | uid s => Component.uid c s
  | sequence n => Component.sequence c n
  | class_ k => Component.class_ c k
  | url s => Component.url c s
  | lastModified t => Component.lastModified c t
  | created t => Component.created c t
  | starts d => Component.starts c d
  | ends d => Component.ends c d
  | allDay d => Component.allDay c d
  | venue l u => Component.venue c l u
  | location s => Component.location c s
  | alarm a => Component.alarm c a

/-- The text of a class. -/
def classText : Class → Str
  | .pub => c!"PUBLIC"
  | .priv => c!"PRIVATE"
  | .confidential => c!"CONFIDENTIAL"

/-- A date or date-time under a key. -/
def dateProperty (key : Str) : DatePerhapsTime → Property
  | .date d => ⟨key, fmtDate d, [(c!"VALUE", c!"DATE")]⟩
  | .dateTime (.floating t) => ⟨key, fmtDateTime t, []⟩
  | .dateTime (.utc t) => ⟨key, fmtUtc t, []⟩
  | .dateTime (.zoned t tzid) => ⟨key, fmtDateTime t, [(c!"TZID", tzid)]⟩

/-- The properties a call sets, in order. -/
def sets : Call → List Property
  | appendProperty p => [p]
  | addProperty k v => [⟨k, v, []⟩]
  | appendMultiProperty _ => []
  | addMultiProperty _ _ => []
  | appendComponent _ => []
  | timestamp t => [⟨c!"DTSTAMP", fmtUtc t, []⟩]
  | priority n => [⟨c!"PRIORITY", natToStr (if n < 10 then n else 10), []⟩]
  | summary s => [⟨c!"SUMMARY", s, []⟩]
  | description s => [⟨c!"DESCRIPTION", s, []⟩]
  | uid s => [⟨c!"UID", s, []⟩]
  | sequence n => [⟨c!"SEQUENCE", natToStr n, []⟩]
  | class_ k => [⟨c!"CLASS", classText k, []⟩]
  | url s => [⟨c!"URL", s, []⟩]
  | lastModified t => [⟨c!"LAST_MODIFIED", fmtUtc t, []⟩]
  | created t => [⟨c!"CREATED", fmtUtc t, []⟩]
  | starts d => [dateProperty c!"DTSTART" d]
  | ends d => [dateProperty c!"DTEND" d]
  | allDay d => [dateProperty c!"DTSTART" (.date d), dateProperty c!"DTEND" (.date d)]
  | venue l u => [⟨c!"LOCATION", l, [(c!"VVENUE", u)]⟩]
  | location s => [⟨c!"LOCATION", s, []⟩]
  | alarm _ => []

/-- The property a call appends to the multi-properties. -/
def appends : Call → Option Property
  | appendMultiProperty p => some p
  | addMultiProperty k v => some ⟨k, v, []⟩
  | _ => none

/-- The sub-component a call adds. -/
def adds : Call → Option Other
  | appendComponent o => some o
  | alarm a => some (.mk c!"VALARM" a.inner.props a.inner.multi a.inner.comps)
  | _ => none

end Call

/-- The calls of an `Event`. -/
inductive EventCall
  | common (c : Call)
  | status (s : EventStatus)

/-- Performing a call. -/
def EventCall.run (e : Event) : EventCall → Event
  | common c => c.run e
  | status s => e.status s

/-- The equivalent generic call. -/
def EventCall.generic : EventCall → Call
  | common c => c
  | status .tentative => .addProperty c!"STATUS" c!"TENTATIVE"
  | status .confirmed => .addProperty c!"STATUS" c!"CONFIRMED"
  | status .cancelled => .addProperty c!"STATUS" c!"CANCELLED"

/-- The calls of a `Todo`. -/
inductive TodoCall
  | common (c : Call)
  | percentComplete (n : Nat)
  | due (d : DatePerhapsTime)
  | completed (t : UtcDateTime)
  | status (s : TodoStatus)

/-- Performing a call. -/
def TodoCall.run (t : Todo) : TodoCall → Todo
  | common c => c.run t
  | percentComplete n => t.percentComplete n
  | due d => t.due d
  | completed u => t.completed u
  | status s => t.status s

/-- The equivalent generic call. -/
def TodoCall.generic : TodoCall → Call
  | common c => c
  | percentComplete n => .addProperty c!"PERCENT-COMPLETE" (natToStr n)
  | due d => .appendProperty (Call.dateProperty c!"DUE" d)
  | completed u => .addProperty c!"COMPLETED" (fmtUtc u)
  | status .needsAction => .addProperty c!"STATUS" c!"NEEDS-ACTION"
  | status .completed => .addProperty c!"STATUS" c!"COMPLETED"
  | status .inProcess => .addProperty c!"STATUS" c!"IN-PROCESS"
  | status .cancelled => .addProperty c!"STATUS" c!"CANCELLED"

/-- The calls of a `Venue`. -/
inductive VenueCall
  | common (c : Call)
  | streetAddress (s : Str)
  | extendedAddress (s : Str)
  | locality (s : Str)
  | region (s : Str)
  | country (s : Str)
  | postalCode (s : Str)

/-- Performing a call. -/
def VenueCall.run (v : Venue) : VenueCall → Venue
  | common c => c.run v
  | streetAddress s => v.streetAddress s
  | extendedAddress s => v.extendedAddress s
  | locality s => v.locality s
  | region s => v.region s
  | country s => v.country s
  | postalCode s => v.postalCode s

/-- The equivalent generic call. -/
def VenueCall.generic : VenueCall → Call
  | common c => c
  | streetAddress s => .addProperty c!"STREET-ADDRESS" s
  | extendedAddress s => .addProperty c!"EXTENDED-ADDRESS" s
  | locality s => .addProperty c!"LOCALITY" s
  | region s => .addProperty c!"REGION" s
  | country s => .addProperty c!"COUNTRY" s
  | postalCode s => .addProperty c!"POSTAL-CODE" s

end Ical.Spec
