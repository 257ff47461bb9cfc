import Verif.Model.Alarm

/-!
Calendars, conversions from parsed trees, and re-serialization of parsed trees.
-/

namespace Ical

/-- `CalendarComponent`: /repo/src/calendar/calendar_component.rs:10-16. -/
inductive CalComp where
  | todo (t : Todo)
  | event (e : Event)
  | venue (v : Venue)
  | other (o : Other)

/-- The generic component a `CalendarComponent` is written as. -/
def CalComp.toOther : CalComp → Other
  | .todo t => Component.toOther t
  | .event e => Component.toOther e
  | .venue v => Component.toOther v
  | .other o => Component.toOther o

/-- `CalendarComponent::fmt_write`: /repo/src/calendar/calendar_component.rs:60-67. -/
def CalComp.fmtWrite [Uni] (c : CalComp) (w : World) : Except Crash Str :=
  match c with
  | .todo t => Component.fmtWrite t w
  | .event e => Component.fmtWrite e w
  | .venue v => Component.fmtWrite v w
  | .other o => Component.fmtWrite o w

/-- `CalendarComponent::as_event`: /repo/src/calendar/calendar_component.rs:20-25. -/
def CalComp.asEvent : CalComp → Option Event
  | .event e => some e
  | _ => none

/-- `CalendarComponent::as_todo`: /repo/src/calendar/calendar_component.rs:27-32. -/
def CalComp.asTodo : CalComp → Option Todo
  | .todo t => some t
  | _ => none

/-- `Calendar`: /repo/src/calendar.rs:64-69. -/
structure Calendar where
  props : List Property
  comps : List CalComp

namespace Calendar

/-- `Calendar::default` / `new`: /repo/src/calendar.rs:71-88. -/
def new : Calendar :=
  { props := [.new c!"VERSION" c!"2.0", .new c!"PRODID" c!"ICALENDAR-RS",
              .new c!"CALSCALE" c!"GREGORIAN"]
    comps := [] }

/-- `Calendar::empty`: /repo/src/calendar.rs:96-101. -/
def empty : Calendar := { props := [], comps := [] }

/-- `Calendar::append`: /repo/src/calendar.rs:110-112. Returns self and what is left of other. -/
def append (c other : Calendar) : Calendar × Calendar :=
  ({ c with comps := c.comps ++ other.comps }, { other with comps := [] })

/-- `Calendar::append_property`: /repo/src/calendar.rs:115-118. -/
def appendProperty (c : Calendar) (p : Property) : Calendar := { c with props := c.props ++ [p] }

/-- `Calendar::property_value`: /repo/src/calendar.rs:121-128. -/
def propertyValue (c : Calendar) (key : Str) : Option Str :=
  (c.props.find? (fun p => p.key == key)).map Property.val

/-- `Calendar::extend`: /repo/src/calendar.rs:131-137. -/
def extend (c : Calendar) (l : List CalComp) : Calendar := { c with comps := c.comps ++ l }

/-- `Calendar::push`: /repo/src/calendar.rs:140-143. -/
def push (c : Calendar) (x : CalComp) : Calendar := { c with comps := c.comps ++ [x] }

/-- `Calendar::name`: /repo/src/calendar.rs:147-151. -/
def name (c : Calendar) (s : Str) : Calendar :=
  (c.appendProperty (.new c!"NAME" s)).appendProperty (.new c!"X-WR-CALNAME" s)

/-- `Calendar::get_name`: /repo/src/calendar.rs:154-157. -/
def getName (c : Calendar) : Option Str :=
  (c.propertyValue c!"NAME").or (c.propertyValue c!"X-WR-CALNAME")

/-- `Calendar::description`: /repo/src/calendar.rs:160-164. -/
def description (c : Calendar) (s : Str) : Calendar :=
  (c.appendProperty (.new c!"DESCRIPTION" s)).appendProperty (.new c!"X-WR-CALDESC" s)

/-- `Calendar::get_description`: /repo/src/calendar.rs:167-170. -/
def getDescription (c : Calendar) : Option Str :=
  (c.propertyValue c!"DESCRIPTION").or (c.propertyValue c!"X-WR-CALDESC")

/-- `Calendar::timezone`: /repo/src/calendar.rs:174-178. -/
def timezone (c : Calendar) (s : Str) : Calendar :=
  (c.appendProperty (.new c!"TIMEZONE-ID" s)).appendProperty (.new c!"X-WR-TIMEZONE" s)

/-- `Calendar::get_timezone`: /repo/src/calendar.rs:181-184 (looks up `TIMEZONE_ID`). -/
def getTimezone (c : Calendar) : Option Str :=
  (c.propertyValue c!"TIMEZONE_ID").or (c.propertyValue c!"X-WR-TIMEZONE")

/-- `Calendar::ttl`: /repo/src/calendar.rs:187-196. -/
def ttl (c : Calendar) (d : Duration) : Calendar :=
  (c.appendProperty ((Property.new c!"REFRESH-INTERVAL" d.toStr).addParameter c!"VALUE" c!"DURATION")).appendProperty
    (.new c!"X-PUBLISHED-TTL" d.toStr)

/-- `Calendar::get_ttl`: /repo/src/calendar.rs:199-211. -/
def getTtl [Iso8601] (c : Calendar) : Option Duration :=
  (((c.propertyValue c!"REFRESH-INTERVAL").bind Iso8601.read).or
    ((c.propertyValue c!"X-PUBLISHED-TTL").bind Iso8601.read)).bind Iso8601.conv

/-- `Calendar::done`: /repo/src/calendar.rs:215-220. -/
def done (c : Calendar) : Calendar × Calendar := (⟨c.props, c.comps⟩, ⟨[], []⟩)

/-- `FromIterator for Calendar` and `From<[T; N]>`: /repo/src/calendar.rs:272-276, 287-294. -/
def fromIter (l : List CalComp) : Calendar := { new with comps := l }

/-- `From<C> for Calendar`: /repo/src/calendar.rs:278-285. -/
def ofComp (x : CalComp) : Calendar := { new with comps := [x] }

end Calendar

/-- Writing the components of a calendar: /repo/src/calendar.rs:229-231. -/
def fmtComps [Uni] : List CalComp → World → Except Crash Str
  | [], _ => .ok []
  | c :: l, w =>
    match c.fmtWrite (w.sub 0) with
    | .error e => .error e
    | .ok a =>
      match fmtComps l (w.sub 1) with
      | .error e => .error e
      | .ok b => .ok (a ++ b)

/-- `Calendar::fmt_write`, `Display`, `TryInto<String>`: /repo/src/calendar.rs:223-256. -/
def Calendar.fmtWrite [Uni] (c : Calendar) (w : World) : Except Crash Str :=
  match fmtProps c.props (w.sub 0) with
  | .error e => .error e
  | .ok ps =>
    match fmtComps c.comps (w.sub 1) with
    | .error e => .error e
    | .ok cs => .ok (c!"BEGIN:VCALENDAR" ++ crlf ++ ps ++ cs ++ (c!"END:VCALENDAR" ++ crlf))

/-! ### Conversions from parsed trees -/

/-- `MULTIS`: /repo/src/parser/properties.rs:29-43. -/
def multis : List Str :=
  [c!"ATTACH", c!"ATTENDEE", c!"CATEGORIES", c!"COMMENT", c!"CONTACT", c!"EXDATE", c!"FREEBUSY",
   c!"IANA-PROP", c!"RDATE", c!"RELATED", c!"RESOURCES", c!"RSTATUS", c!"X-PROP"]

/-- `is_multi_property`: /repo/src/parser/properties.rs:82-84. -/
def PProp.isMulti (p : PProp) : Bool := multis.contains p.name

/-- `From<parser::Parameter> for Parameter`: /repo/src/parser/parameters.rs:45-52. -/
def PParam.toPair (p : PParam) : Str × Str := (p.key, p.val.getD [])

/-- `From<parser::Property> for Property`: /repo/src/parser/properties.rs:104-116. -/
def PProp.toProperty (p : PProp) : Property :=
  { key := p.name, val := p.val, params := BMap.ofList (p.params.map PParam.toPair) }

/-- The property part of `From<parser::Component> for InnerComponent`:
/repo/src/parser/components.rs:137-142, 147-153. -/
def innerOfProps (props : List PProp) (comps : List Other) : Inner :=
  (props.filter (fun p => p.isMulti)).foldl (fun c p => c.insertMulti p.toProperty)
    { props := BMap.ofList ((props.filter (fun p => !p.isMulti)).map
        (fun p => (p.name, p.toProperty)))
      multi := []
      comps := comps }

mutual
/-- `From<parser::Component> for Other`: /repo/src/parser/components.rs:128-132. -/
def PComp.toOther : PComp → Other
  | .mk name props comps => Other.ofInner name (innerOfProps props (toOthers comps))

/-- `component.components.into_iter().map(Other::from)`: /repo/src/parser/components.rs:143. -/
def toOthers : List PComp → List Other
  | [] => []
  | c :: l => c.toOther :: toOthers l
end

/-- `From<parser::Component> for InnerComponent`: /repo/src/parser/components.rs:134-157. -/
def PComp.toInner (c : PComp) : Inner := innerOfProps c.props (toOthers c.comps)

/-- `From<parser::Component> for CalendarComponent`: /repo/src/parser/components.rs:159-169. -/
def PComp.toCalComp (c : PComp) : CalComp :=
  if c.name = c!"VEVENT" then .event ⟨c.toInner⟩
  else if c.name = c!"VTODO" then .todo ⟨c.toInner⟩
  else if c.name = c!"VVENUE" then .venue ⟨c.toInner⟩
  else .other (Other.ofInner c.name c.toInner)

/-- `From<parser::Calendar> for Calendar`: /repo/src/parser/calendar.rs:43-50. -/
def PCal.toCalendar (c : PCal) : Calendar :=
  { props := c.props.map PProp.toProperty, comps := c.comps.map PComp.toCalComp }

/-- `From<Vec<parser::Component>> for Calendar`: /repo/src/parser/calendar.rs:72-92. -/
def Calendar.ofComponents (l : List PComp) : Calendar :=
  match l with
  | [] => .fromIter []
  | root :: rest =>
    if root.name = c!"VCALENDAR" then .fromIter (root.comps.map PComp.toCalComp)
    else .fromIter ((root :: rest).map PComp.toCalComp)

/-- `FromStr for Calendar`: /repo/src/parser/calendar.rs:94-101. -/
def Calendar.fromStr [Uni] (s : Str) : Option Calendar :=
  (readCalendar (unfold s)).map PCal.toCalendar

/-- `FromStr for CalendarComponent`: /repo/src/parser/components.rs:171-178. -/
def CalComp.fromStr [Uni] (s : Str) : Option CalComp :=
  (readComponent (unfold s)).map PComp.toCalComp

/-- `FromStr for Property`: /repo/src/parser/properties.rs:118-124 (no unfolding). -/
def Property.fromStr [Uni] (s : Str) : Option Property :=
  (readProperty s).map PProp.toProperty

/-! ### Re-serialization of parsed trees -/

/-- One parameter of a re-serialized property: /repo/src/parser/properties.rs:70-76. -/
def PParam.text (p : PParam) : Str :=
  match p.val with
  | some v => [';'] ++ p.key ++ ['='] ++ v
  | none => [';'] ++ p.key

/-- The unfolded content line of a re-serialized property: /repo/src/parser/properties.rs:69-77. -/
def PProp.line (p : PProp) : Str :=
  p.name ++ (p.params.map PParam.text).flatten ++ [':'] ++ p.val

/-- `parser::Property::fmt_write`, `Display`: /repo/src/parser/properties.rs:65-91. -/
def PProp.fmtWrite (p : PProp) : Except Crash Str :=
  match foldLine p.line with
  | .ok s => .ok (s ++ crlf)
  | .error e => .error e

/-- Writing a list of parsed properties. -/
def fmtPProps : List PProp → Except Crash Str
  | [] => .ok []
  | p :: l =>
    match p.fmtWrite with
    | .error e => .error e
    | .ok a =>
      match fmtPProps l with
      | .error e => .error e
      | .ok b => .ok (a ++ b)

/-- The lines added when the component's name is `calendar` in any letter case:
/repo/src/parser/components.rs:72-89. -/
def calendarStamp (name : Str) (props : List PProp) (w : World) : Str :=
  if name.map lowerAscii = c!"calendar" then
    (if props.any (fun p => p.name == c!"DTSTAMP") then []
     else c!"DTSTAMP:" ++ fmtUtc (w.now []) ++ crlf) ++
    (if props.any (fun p => p.name == c!"UID") then []
     else c!"UID:" ++ w.uuid [] ++ crlf)
  else []

mutual
/-- `LikeComponent::fmt_write`: /repo/src/parser/components.rs:69-100. -/
def PComp.fmtWrite : PComp → World → Except Crash Str
  | .mk name props comps, w =>
    match fmtPProps props with
    | .error e => .error e
    | .ok ps =>
      match fmtPComps comps (w.sub 0) with
      | .error e => .error e
      | .ok cs =>
        .ok (c!"BEGIN:" ++ name ++ crlf ++ calendarStamp name props w ++ ps ++ cs
          ++ (c!"END:" ++ name ++ crlf))

/-- Writing the sub-components: /repo/src/parser/components.rs:94-96. -/
def fmtPComps : List PComp → World → Except Crash Str
  | [], _ => .ok []
  | c :: l, w =>
    match c.fmtWrite (w.sub 0) with
    | .error e => .error e
    | .ok a =>
      match fmtPComps l (w.sub 1) with
      | .error e => .error e
      | .ok b => .ok (a ++ b)
end

/-- `Display for parser::Calendar` (`LikeComponent` with name `VCALENDAR`):
/repo/src/parser/calendar.rs:22-41. -/
def PCal.fmtWrite (c : PCal) (w : World) : Except Crash Str :=
  (PComp.mk c!"VCALENDAR" c.props c.comps).fmtWrite w

end Ical
