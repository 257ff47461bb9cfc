import Verif.Spec.Foreign
import Verif.Spec.Calls
import Verif.Spec.EnumTexts
import Verif.Spec.Numerals

/-!
Specification of what the getters of a component return when it was read from a file, in terms of the lines of the file.
Of several lines with the same name the last one counts in a component, and the first one in the calendar itself.
-/

namespace Ical.Spec

open Ical

/-- A line whose value has the default type of its name. -/
def NoValue (ps : List DParam) : Prop := ∀ d ∈ ps, d.key ≠ c!"VALUE"

/-- The parameter of a line with a name, the last if there are several. -/
def paramOf (ps : List DParam) (n : Str) : Option Str := (ps.reverse.find? (fun d => d.key == n)).map DParam.value

/-- A getter returns nothing without a line of the name, and otherwise what the last line says. -/
def LastSays {α : Type} (k : Str) (items : List Item) (r : Option α) (says : List DParam → Str → Prop) : Prop :=
  (linesNamed k items = [] → r = none) ∧
  ∀ before ps raw, linesNamed k items = before ++ [(ps, raw)] → says ps raw

/-- A text: the value with its escapes undone. -/
def TextSays (k : Str) (items : List Item) (r : Option Str) : Prop :=
  LastSays k items r fun ps raw => NoValue ps → NoDoubleRead raw → r = some (readText raw)

/-- A value that is not TEXT: the value as it is. -/
def VerbatimSays (k : Str) (items : List Item) (r : Option Str) : Prop :=
  LastSays k items r fun ps raw => NoValue ps → r = some raw

/-- A number. -/
def NumberSays (k : Str) (most : Nat) (items : List Item) (r : Option Nat) : Prop :=
  LastSays k items r fun _ raw => '\\' ∉ raw → ∀ n, r = some n ↔ Numeral raw n ∧ n ≤ most

/-- One of several texts. -/
def EnumSays {α : Type} (k : Str) (name : α → Str) (items : List Item) (r : Option α) : Prop :=
  LastSays k items r fun _ raw => '\\' ∉ raw → ∀ v, r = some v ↔ raw = name v

/-- A value under a condition, and nothing otherwise. -/
def GivenIf {α : Type} (cond : Prop) (v : α) (r : Option α) : Prop := (cond → r = some v) ∧ (¬ cond → r = none)

/-- A time without its zone, and a time in the zone a parameter names. -/
def timeIn (t : NaiveDateTime) : Option Str → DatePerhapsTime
  | none => .dateTime (.floating t)
  | some z => .dateTime (.zoned t z)

/-- A date, a local time, a time in a zone or a UTC time. -/
def DateSays (k : Str) (items : List Item) (r : Option DatePerhapsTime) : Prop :=
  LastSays k items r fun ps raw =>
    (∀ y m d : Nat, DateText raw y m d → paramOf ps c!"VALUE" = some c!"DATE" →
      GivenIf (DayExists y m d) (.date ⟨y, m, d⟩) r) ∧
    (∀ s t (y m d h mi sec : Nat), raw = s ++ 'T' :: t → DateText s y m d → TimeText t h mi sec →
      paramOf ps c!"VALUE" ≠ some c!"DATE" →
      GivenIf (DayExists y m d ∧ TimeExists h mi sec) (timeIn (timeOn ⟨y, m, d⟩ h mi sec) (paramOf ps c!"TZID")) r) ∧
    (∀ s t (y m d h mi sec : Nat), raw = s ++ 'T' :: t ++ ['Z'] → DateText s y m d → TimeText t h mi sec →
      paramOf ps c!"VALUE" ≠ some c!"DATE" → paramOf ps c!"TZID" = none →
      GivenIf (DayExists y m d ∧ TimeExists h mi sec) (.dateTime (.utc ⟨timeOn ⟨y, m, d⟩ h mi sec⟩)) r)

/-- A UTC time. -/
def UtcSays (k : Str) (items : List Item) (r : Option UtcDateTime) : Prop :=
  LastSays k items r fun _ raw => ∀ s t (y m d h mi sec : Nat), raw = s ++ 'T' :: t ++ ['Z'] → DateText s y m d →
    TimeText t h mi sec → GivenIf (DayExists y m d ∧ TimeExists h mi sec) ⟨timeOn ⟨y, m, d⟩ h mi sec⟩ r

/-- What the getters all components have return. -/
structure GettersSay [Uni] {C : Type} [Component C] (items : List Item) (c : C) : Prop where
  summary : TextSays c!"SUMMARY" items (Component.getSummary c)
  description : TextSays c!"DESCRIPTION" items (Component.getDescription c)
  location : TextSays c!"LOCATION" items (Component.getLocation c)
  uid : TextSays c!"UID" items (Component.getUid c)
  url : VerbatimSays c!"URL" items (Component.getUrl c)
  priority : NumberSays c!"PRIORITY" 10 items (Component.getPriority c)
  sequence : NumberSays c!"SEQUENCE" 4294967295 items (Component.getSequence c)
  class_ : EnumSays c!"CLASS" Call.classText items (Component.getClass c)
  start : DateSays c!"DTSTART" items (Component.getStart c)
  end_ : DateSays c!"DTEND" items (Component.getEnd c)
  timestamp : UtcSays c!"DTSTAMP" items (Component.getTimestamp c)
  created : UtcSays c!"CREATED" items (Component.getCreated c)

/-- What the getters of a component return, by its kind. -/
def ComponentSays [Uni] (items : List Item) : CalComp → Prop
  | .event e => GettersSay items e ∧ EnumSays c!"STATUS" eventStatusText items e.getStatus
  | .todo t => GettersSay items t ∧ EnumSays c!"STATUS" todoStatusText items t.getStatus ∧
      NumberSays c!"PERCENT-COMPLETE" 255 items t.getPercentComplete ∧ DateSays c!"DUE" items t.getDue ∧
      UtcSays c!"COMPLETED" items t.getCompleted
  | .venue v => GettersSay items v ∧ VerbatimSays c!"STREET-ADDRESS" items v.getStreetAddress ∧
      VerbatimSays c!"EXTENDED-ADDRESS" items v.getExtendedAddress ∧ VerbatimSays c!"LOCALITY" items v.getLocality ∧
      VerbatimSays c!"REGION" items v.getRegion ∧ VerbatimSays c!"COUNTRY" items v.getCountry ∧
      VerbatimSays c!"POSTAL-CODE" items v.getPostalCode
  | .other o => GettersSay items o

/-- The components inside a document, with their names. -/
def compsOf : List Item → List (Str × List Item)
  | [] => []
  | .prop _ _ _ :: l => compsOf l
  | .comp _ _ n items :: l => (n, items) :: compsOf l

/-- The components of a calendar are those of the document, in order, each of its kind and with getters that say what
its lines say. -/
def ComponentsSay [Uni] : List (Str × List Item) → List CalComp → Prop
  | [], [] => True
  | i :: l, x :: xs => KindFor i.1 x ∧ ComponentSays i.2 x ∧ ComponentsSay l xs
  | _, _ => False

/-- A getter of the calendar: the first line with the name, or else the first line with the other name. -/
def FirstSays (k k' : Str) (items : List Item) (r : Option Str) (says says' : List DParam → Str → Prop) : Prop :=
  (linesNamed k items = [] → linesNamed k' items = [] → r = none) ∧
  (∀ ps raw after, linesNamed k items = (ps, raw) :: after → says ps raw) ∧
  (∀ ps raw after, linesNamed k items = [] → linesNamed k' items = (ps, raw) :: after → says' ps raw)

/-- What the getters of the calendar return. -/
structure CalendarSays (items : List Item) (c : Calendar) : Prop where
  name : FirstSays c!"NAME" c!"X-WR-CALNAME" items c.getName
    (fun ps raw => NoValue ps → c.getName = some raw) (fun ps raw => NoValue ps → c.getName = some raw)
  description : FirstSays c!"DESCRIPTION" c!"X-WR-CALDESC" items c.getDescription
    (fun ps raw => NoValue ps → NoDoubleRead raw → c.getDescription = some (readText raw))
    (fun ps raw => NoValue ps → c.getDescription = some raw)
  timezone : FirstSays c!"TIMEZONE_ID" c!"X-WR-TIMEZONE" items c.getTimezone
    (fun ps raw => NoValue ps → c.getTimezone = some raw) (fun ps raw => NoValue ps → c.getTimezone = some raw)

end Ical.Spec
