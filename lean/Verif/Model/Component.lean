import Verif.Model.DateTime

/-!
Components: /repo/src/components.rs and /repo/src/components/{event,todo,venue,other}.rs.
-/

namespace Ical

/-- `Other`: /repo/src/components/other.rs:4-7, with `InnerComponent`
(/repo/src/components.rs:24-28) inlined: name, single properties, multi-properties, sub-components. -/
inductive Other where
  | mk (name : Str) (props : BMap Property) (multi : BMap (List Property)) (comps : List Other)

/-- `InnerComponent`: /repo/src/components.rs:24-28. -/
structure Inner where
  props : BMap Property
  multi : BMap (List Property)
  comps : List Other

/-- `InnerComponent::default()`: derived `Default`, /repo/src/components.rs:23. -/
def Inner.empty : Inner := { props := [], multi := [], comps := [] }

/-- `InnerComponent::done`: /repo/src/components.rs:45-51. Returns the moved-out value and what is
left behind. -/
def Inner.done (c : Inner) : Inner × Inner :=
  ({ props := c.props, multi := c.multi, comps := c.comps }, { props := [], multi := [], comps := [] })

/-- `InnerComponent::insert_multi`: /repo/src/components.rs:53-62. -/
def Inner.insertMulti (c : Inner) (p : Property) : Inner :=
  { c with multi := match c.multi.get p.key with
    | some v => c.multi.insert p.key (v ++ [p])
    | none => c.multi.insert p.key [p] }

/-- `append_property`: /repo/src/components.rs:399-405. -/
def Inner.appendProperty (c : Inner) (p : Property) : Inner :=
  { c with props := c.props.insert p.key p }

/-- `append_component`: /repo/src/components.rs:407-410. -/
def Inner.appendComponent (c : Inner) (o : Other) : Inner :=
  { c with comps := c.comps ++ [o] }

/-- `From<(String, InnerComponent)> for Other`: /repo/src/components/other.rs:53-57. -/
def Other.ofInner (name : Str) (c : Inner) : Other := .mk name c.props c.multi c.comps

/-- `component_kind` of `Other`: /repo/src/components/other.rs:13-15. -/
def Other.name : Other → Str | mk n _ _ _ => n

/-- `From<Other> for InnerComponent`: /repo/src/components.rs:30-34. -/
def Other.inner : Other → Inner | mk _ p m c => ⟨p, m, c⟩

mutual
/-- `Component::fmt_write`: /repo/src/components.rs:94-120. The clock reading, the UUID and the order of
hash maps come from the world. -/
def Other.fmtWrite [Uni] : Other → World → Except Crash Str
  | .mk name props multi comps, w =>
    -- 97-100
    let dtstamp : Str :=
      if props.containsKey c!"DTSTAMP" then []
      else c!"DTSTAMP:" ++ fmtUtc (w.now []) ++ crlf
    -- 102-104
    match fmtProps props.values (w.sub 0) with
    | .error e => .error e
    | .ok ps =>
      -- 106-108
      let uid : Str :=
        if props.containsKey c!"UID" then [] else c!"UID:" ++ w.uuid [] ++ crlf
      -- 110-112
      match fmtProps multi.values.flatten (w.sub 1) with
      | .error e => .error e
      | .ok ms =>
        -- 114-116
        match fmtOthers comps (w.sub 2) with
        | .error e => .error e
        | .ok cs =>
          .ok (c!"BEGIN:" ++ name ++ crlf ++ dtstamp ++ ps ++ uid ++ ms ++ cs
            ++ (c!"END:" ++ name ++ crlf))

/-- Writing the sub-components one after the other: /repo/src/components.rs:114-116. -/
def fmtOthers [Uni] : List Other → World → Except Crash Str
  | [], _ => .ok []
  | o :: l, w =>
    match o.fmtWrite (w.sub 0) with
    | .error e => .error e
    | .ok a =>
      match fmtOthers l (w.sub 1) with
      | .error e => .error e
      | .ok b => .ok (a ++ b)
end

/-- The `Component` trait as implemented by `component_impl!`: /repo/src/components.rs:373-438. The
laws say that the implementor is its inner component plus a fixed kind. -/
class Component (C : Type) where
  kind : C → Str
  inner : C → Inner
  withInner : C → Inner → C
  inner_withInner : ∀ c i, inner (withInner c i) = i
  kind_withInner : ∀ c i, kind (withInner c i) = kind c

namespace Component
variable {C : Type} [Component C]

/-- `properties()`: /repo/src/components.rs:384-386. -/
def properties (c : C) : BMap Property := (inner c).props

/-- `multi_properties()`: /repo/src/components.rs:394-396. -/
def multiProperties (c : C) : BMap (List Property) := (inner c).multi

/-- `components()`: /repo/src/components.rs:389-391. -/
def subComponents (c : C) : List Other := (inner c).comps

/-- `append_property`: /repo/src/components.rs:399-405. -/
def appendProperty (c : C) (p : Property) : C := withInner c ((inner c).appendProperty p)

/-- `append_multi_property`: /repo/src/components.rs:413-416. -/
def appendMultiProperty (c : C) (p : Property) : C := withInner c ((inner c).insertMulti p)

/-- `append_component`: /repo/src/components.rs:407-410. -/
def appendComponent (c : C) (o : Other) : C := withInner c ((inner c).appendComponent o)

/-- `From<$t> for Other`: /repo/src/components.rs:424-428. -/
def toOther (c : C) : Other := Other.ofInner (kind c) (inner c)

/-- `fmt_write` (one generic implementation): /repo/src/components.rs:94-120. -/
def fmtWrite [Uni] (c : C) (w : World) : Except Crash Str := (toOther c).fmtWrite w

/-- `property_value`: /repo/src/components.rs:89-91. -/
def propertyValue (c : C) (key : Str) : Option Str := ((properties c).get key).map Property.val

/-- `add_property`: /repo/src/components.rs:148-150. -/
def addProperty (c : C) (key val : Str) : C := appendProperty c (.new key val)

/-- `add_multi_property`: /repo/src/components.rs:159-161. -/
def addMultiProperty (c : C) (key val : Str) : C := appendMultiProperty c (.new key val)

/-- `timestamp`: /repo/src/components.rs:166-168. -/
def timestamp (c : C) (dt : UtcDateTime) : C := addProperty c c!"DTSTAMP" (fmtUtc dt)
/-- `get_timestamp`: /repo/src/components.rs:171-173. -/
def getTimestamp (c : C) : Option UtcDateTime := (propertyValue c c!"DTSTAMP").bind parseUtc

/-- `get_start`: /repo/src/components.rs:176-178. -/
def getStart [Uni] (c : C) : Option DatePerhapsTime :=
  ((properties c).get c!"DTSTART").bind DatePerhapsTime.fromProperty
/-- `get_end`: /repo/src/components.rs:181-183. -/
def getEnd [Uni] (c : C) : Option DatePerhapsTime :=
  ((properties c).get c!"DTEND").bind DatePerhapsTime.fromProperty

/-- `priority`: /repo/src/components.rs:188-191. -/
def priority (c : C) (n : Nat) : C := addProperty c c!"PRIORITY" (natToStr (Nat.min n 10))
/-- `get_priority`: /repo/src/components.rs:203-210. -/
def getPriority (c : C) : Option Nat :=
  match (propertyValue c c!"PRIORITY").bind (parseUnsigned u32Max) with
  | some n => if n ≤ 10 then some n else none
  | none => none

/-- `summary`: /repo/src/components.rs:221-223. -/
def summary (c : C) (s : Str) : C := addProperty c c!"SUMMARY" s
/-- `get_summary`: /repo/src/components.rs:226-228. -/
def getSummary (c : C) : Option Str := propertyValue c c!"SUMMARY"
/-- `description`: /repo/src/components.rs:231-233. -/
def description (c : C) (s : Str) : C := addProperty c c!"DESCRIPTION" s
/-- `get_description`: /repo/src/components.rs:236-238. -/
def getDescription (c : C) : Option Str := propertyValue c c!"DESCRIPTION"
/-- `uid`: /repo/src/components.rs:247-249. -/
def uid (c : C) (s : Str) : C := addProperty c c!"UID" s
/-- `get_uid`: /repo/src/components.rs:252-254. -/
def getUid (c : C) : Option Str := propertyValue c c!"UID"
/-- `sequence`: /repo/src/components.rs:257-259. -/
def sequence (c : C) (n : Nat) : C := addProperty c c!"SEQUENCE" (natToStr n)
/-- `get_sequence`: /repo/src/components.rs:262-264. -/
def getSequence (c : C) : Option Nat := (propertyValue c c!"SEQUENCE").bind (parseUnsigned u32Max)
/-- `class`: /repo/src/components.rs:267-269. -/
def class_ (c : C) (k : Class) : C := appendProperty c k.toProperty
/-- `get_class`: /repo/src/components.rs:272-274. -/
def getClass (c : C) : Option Class := (propertyValue c c!"CLASS").bind Class.fromStr
/-- `url`: /repo/src/components.rs:277-279. -/
def url (c : C) (s : Str) : C := addProperty c c!"URL" s
/-- `get_url`: /repo/src/components.rs:282-284. -/
def getUrl (c : C) : Option Str := propertyValue c c!"URL"
/-- `last_modified`: /repo/src/components.rs:289-291 (note the underscore in the key). -/
def lastModified (c : C) (dt : UtcDateTime) : C := addProperty c c!"LAST_MODIFIED" (fmtUtc dt)
/-- `get_last_modified`: /repo/src/components.rs:294-296. -/
def getLastModified (c : C) : Option UtcDateTime := (propertyValue c c!"LAST_MODIFIED").bind parseUtc
/-- `created`: /repo/src/components.rs:301-303. -/
def created (c : C) (dt : UtcDateTime) : C := addProperty c c!"CREATED" (fmtUtc dt)
/-- `get_created`: /repo/src/components.rs:306-308. -/
def getCreated (c : C) : Option UtcDateTime := (propertyValue c c!"CREATED").bind parseUtc

/-- `EventLike::starts`: /repo/src/components.rs:316-319. -/
def starts (c : C) (d : DatePerhapsTime) : C := appendProperty c (d.toProperty c!"DTSTART")
/-- `EventLike::ends`: /repo/src/components.rs:324-327. -/
def ends (c : C) (d : DatePerhapsTime) : C := appendProperty c (d.toProperty c!"DTEND")
/-- `EventLike::all_day`: /repo/src/components.rs:332-335. -/
def allDay (c : C) (d : NaiveDate) : C :=
  appendProperty (appendProperty c (naiveDateToProperty d c!"DTSTART"))
    (naiveDateToProperty d c!"DTEND")
/-- `EventLike::venue`: /repo/src/components.rs:339-346. -/
def venue (c : C) (loc uid : Str) : C :=
  appendProperty c ((Property.new c!"LOCATION" loc).addParameter c!"VVENUE" uid)
/-- `EventLike::location`: /repo/src/components.rs:350-352. -/
def location (c : C) (s : Str) : C := addProperty c c!"LOCATION" s
/-- `EventLike::get_location`: /repo/src/components.rs:355-357. -/
def getLocation (c : C) : Option Str := propertyValue c c!"LOCATION"

end Component

/-- `Event`: /repo/src/components/event.rs:4-6. -/
structure Event where
  inner : Inner
/-- `Todo`: /repo/src/components/todo.rs:7-9. -/
structure Todo where
  inner : Inner
/-- `Venue`: /repo/src/components/venue.rs:5-7. -/
structure Venue where
  inner : Inner
/-- `Alarm`: /repo/src/components/alarm.rs:61-63. -/
structure Alarm where
  inner : Inner

/-- /repo/src/components.rs:440. -/
instance : Component Event := ⟨fun _ => c!"VEVENT", Event.inner, fun _ i => ⟨i⟩, by simp, by simp⟩
/-- /repo/src/components.rs:443. -/
instance : Component Todo := ⟨fun _ => c!"VTODO", Todo.inner, fun _ i => ⟨i⟩, by simp, by simp⟩
/-- /repo/src/components.rs:446. -/
instance : Component Venue := ⟨fun _ => c!"VVENUE", Venue.inner, fun _ i => ⟨i⟩, by simp, by simp⟩
/-- /repo/src/components.rs:447. -/
instance : Component Alarm := ⟨fun _ => c!"VALARM", Alarm.inner, fun _ i => ⟨i⟩, by simp, by simp⟩
/-- /repo/src/components/other.rs:9-51. -/
instance : Component Other :=
  ⟨Other.name, Other.inner, fun o i => Other.ofInner o.name i,
   by intro c i; rfl, by intro c i; rfl⟩

/-- `Event::new`: /repo/src/components/event.rs:10-12. -/
def Event.new : Event := ⟨.empty⟩
/-- `Event::done`: /repo/src/components/event.rs:16-20. -/
def Event.done (e : Event) : Event × Event := (⟨e.inner.done.1⟩, ⟨e.inner.done.2⟩)
/-- `Event::status`: /repo/src/components/event.rs:23-25. -/
def Event.status (e : Event) (s : EventStatus) : Event := Component.appendProperty e s.toProperty
/-- `Event::get_status`: /repo/src/components/event.rs:28-30. -/
def Event.getStatus (e : Event) : Option EventStatus :=
  (Component.propertyValue e c!"STATUS").bind EventStatus.fromStr

/-- `Todo::new`: /repo/src/components/todo.rs:13-15. -/
def Todo.new : Todo := ⟨.empty⟩
/-- `Todo::done`: /repo/src/components/todo.rs:19-23. -/
def Todo.done (e : Todo) : Todo × Todo := (⟨e.inner.done.1⟩, ⟨e.inner.done.2⟩)
/-- `Todo::percent_complete`: /repo/src/components/todo.rs:28-30. -/
def Todo.percentComplete (t : Todo) (n : Nat) : Todo :=
  Component.addProperty t c!"PERCENT-COMPLETE" (natToStr n)
/-- `Todo::get_percent_complete`: /repo/src/components/todo.rs:35-37. -/
def Todo.getPercentComplete (t : Todo) : Option Nat :=
  (Component.propertyValue t c!"PERCENT-COMPLETE").bind (parseUnsigned u8Max)
/-- `Todo::due`: /repo/src/components/todo.rs:42-45. -/
def Todo.due (t : Todo) (d : DatePerhapsTime) : Todo :=
  Component.appendProperty t (d.toProperty c!"DUE")
/-- `Todo::get_due`: /repo/src/components/todo.rs:48-50. -/
def Todo.getDue [Uni] (t : Todo) : Option DatePerhapsTime :=
  ((Component.properties t).get c!"DUE").bind DatePerhapsTime.fromProperty
/-- `Todo::completed`: /repo/src/components/todo.rs:56-58. -/
def Todo.completed (t : Todo) (dt : UtcDateTime) : Todo :=
  Component.addProperty t c!"COMPLETED" (fmtUtc dt)
/-- `Todo::get_completed`: /repo/src/components/todo.rs:64-67. -/
def Todo.getCompleted (t : Todo) : Option UtcDateTime :=
  (Component.propertyValue t c!"COMPLETED").bind parseUtc
/-- `Todo::status`: /repo/src/components/todo.rs:70-72. -/
def Todo.status (t : Todo) (s : TodoStatus) : Todo := Component.appendProperty t s.toProperty
/-- `Todo::get_status`: /repo/src/components/todo.rs:75-77. -/
def Todo.getStatus (t : Todo) : Option TodoStatus :=
  (Component.propertyValue t c!"STATUS").bind TodoStatus.fromStr

/-- `Venue::new`: /repo/src/components/venue.rs:10-12. -/
def Venue.new : Venue := ⟨.empty⟩
/-- `Venue::done`: /repo/src/components/venue.rs:16-20. -/
def Venue.done (e : Venue) : Venue × Venue := (⟨e.inner.done.1⟩, ⟨e.inner.done.2⟩)
/-- `street_address`: /repo/src/components/venue.rs:26-28. -/
def Venue.streetAddress (v : Venue) (s : Str) : Venue := Component.addProperty v c!"STREET-ADDRESS" s
/-- `get_street_address`: /repo/src/components/venue.rs:31-33. -/
def Venue.getStreetAddress (v : Venue) : Option Str := Component.propertyValue v c!"STREET-ADDRESS"
/-- `extended_address`: /repo/src/components/venue.rs:41-43. -/
def Venue.extendedAddress (v : Venue) (s : Str) : Venue := Component.addProperty v c!"EXTENDED-ADDRESS" s
/-- `get_extended_address`: /repo/src/components/venue.rs:46-48. -/
def Venue.getExtendedAddress (v : Venue) : Option Str := Component.propertyValue v c!"EXTENDED-ADDRESS"
/-- `locality`: /repo/src/components/venue.rs:53-55. -/
def Venue.locality (v : Venue) (s : Str) : Venue := Component.addProperty v c!"LOCALITY" s
/-- `get_locality`: /repo/src/components/venue.rs:58-60. -/
def Venue.getLocality (v : Venue) : Option Str := Component.propertyValue v c!"LOCALITY"
/-- `region`: /repo/src/components/venue.rs:65-67. -/
def Venue.region (v : Venue) (s : Str) : Venue := Component.addProperty v c!"REGION" s
/-- `get_region`: /repo/src/components/venue.rs:70-72. -/
def Venue.getRegion (v : Venue) : Option Str := Component.propertyValue v c!"REGION"
/-- `country`: /repo/src/components/venue.rs:77-79. -/
def Venue.country (v : Venue) (s : Str) : Venue := Component.addProperty v c!"COUNTRY" s
/-- `get_country`: /repo/src/components/venue.rs:82-84. -/
def Venue.getCountry (v : Venue) : Option Str := Component.propertyValue v c!"COUNTRY"
/-- `postal_code`: /repo/src/components/venue.rs:89-91. -/
def Venue.postalCode (v : Venue) (s : Str) : Venue := Component.addProperty v c!"POSTAL-CODE" s
/-- `get_postal_code`: /repo/src/components/venue.rs:94-96. -/
def Venue.getPostalCode (v : Venue) : Option Str := Component.propertyValue v c!"POSTAL-CODE"

end Ical
