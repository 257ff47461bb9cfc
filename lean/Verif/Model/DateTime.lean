import Verif.Model.Property
import Verif.Model.Parser

/-!
`CalendarDateTime` and `DatePerhapsTime`: /repo/src/components/date_time.rs.
-/

namespace Ical

/-- `naive_date_to_property`: /repo/src/components/date_time.rs:30-34. -/
def naiveDateToProperty (d : NaiveDate) (key : Str) : Property :=
  (Property.new key (fmtDate d)).addParameter c!"VALUE" ValueType.date.toStr

/-- `CalendarDateTime`: /repo/src/components/date_time.rs:46-68. -/
inductive CalDateTime where
  | floating (t : NaiveDateTime)
  | utc (t : UtcDateTime)
  | zoned (t : NaiveDateTime) (tzid : Str)
  deriving DecidableEq, Repr

namespace CalDateTime

/-- `FromStr for CalendarDateTime`: /repo/src/components/date_time.rs:111-117, 231-239. -/
def fromStr (s : Str) : Option CalDateTime :=
  match parseUtc s with
  | some t => some (.utc t)
  | none =>
    match parseDateTime s with
    | some t => some (.floating t)
    | none => none

/-- `CalendarDateTime::from_property`: /repo/src/components/date_time.rs:81-95. -/
def fromProperty (p : Property) : Option CalDateTime :=
  match p.params.get c!"TZID" with
  | some tzid =>
    match parseDateTime p.val with
    | some t => some (.zoned t tzid)
    | none => none
  | none =>
    match parseDateTime p.val with
    | some t => some (.floating t)
    | none => fromStr p.val

/-- `CalendarDateTime::to_property`: /repo/src/components/date_time.rs:97-109. -/
def toProperty (key : Str) : CalDateTime → Property
  | .floating t => .new key (fmtDateTime t)
  | .utc t => .new key (fmtUtc t)
  | .zoned t tzid => (Property.new key (fmtDateTime t)).addParameter c!"TZID" tzid

end CalDateTime

/-- A time zone database as used through chrono-tz: which ids exist, and which instants a local time
denotes in a zone (none: skipped, two: ambiguous). -/
structure TzDb where
  Tz : Type
  parse : Str → Option Tz
  local_ : Tz → NaiveDateTime → List UtcDateTime

/-- `CalendarDateTime::try_into_utc`: /repo/src/components/date_time.rs:121-131. `LocalResult::single`
is `Some` exactly for one candidate. -/
def CalDateTime.tryIntoUtc (db : TzDb) : CalDateTime → Option UtcDateTime
  | .floating _ => none
  | .utc t => some t
  | .zoned t tzid =>
    match db.parse tzid with
    | none => none
    | some tz =>
      match db.local_ tz t with
      | [u] => some u
      | _ => none

/-- The names of the zones of a database (`chrono_tz::Tz::name`); parsing the name of a zone gives the zone. -/
structure TzNames (db : TzDb) where
  name : db.Tz → Str
  parse_name : ∀ tz, db.parse (name tz) = some tz

/-- `chrono::DateTime<chrono_tz::Tz>`: an instant together with its zone and the local time it has there, which
denotes that instant (possibly among others). -/
structure ZonedDateTime (db : TzDb) where
  instant : UtcDateTime
  tz : db.Tz
  localTime : NaiveDateTime
  denotes : instant ∈ db.local_ tz localTime

namespace CalDateTime

/-- `CalendarDateTime::with_timezone` and `From<(NaiveDateTime, Tz)>`:
/repo/src/components/date_time.rs:136-141, 209-217. -/
def withTimezone {db : TzDb} (names : TzNames db) (t : NaiveDateTime) (tz : db.Tz) : CalDateTime :=
  .zoned t (names.name tz)

/-- `CalendarDateTime::from_ymd_hm_tzid` and `ymd_hm_tzid`: /repo/src/components/date_time.rs:145-157, 173-182.
`and_hms_opt(hour, min, 0)` is `Some` exactly for hours below 24 and minutes below 60. -/
def fromYmdHmTzid {db : TzDb} (names : TzNames db) (y : Int) (m d h mi : Nat) (tz : db.Tz) : Option CalDateTime :=
  match fromYmd y m d with
  | none => none
  | some date => if h < 24 ∧ mi < 60 then some (withTimezone names ⟨date, h, mi, 0, 0⟩ tz) else none

/-- `CalendarDateTime::from_date_time`: /repo/src/components/date_time.rs:161-168. -/
def fromDateTime {db : TzDb} (names : TzNames db) (t : ZonedDateTime db) : CalDateTime :=
  .zoned t.localTime (names.name t.tz)

/-- `TryFrom<(NaiveDateTime, &str)>`: /repo/src/components/date_time.rs:219-229. The error text is not
modelled. -/
def tryFromPair {db : TzDb} (names : TzNames db) (t : NaiveDateTime) (id : Str) : Option CalDateTime :=
  match db.parse id with
  | none => none
  | some tz => some (withTimezone names t tz)

end CalDateTime

/-- `DatePerhapsTime`: /repo/src/components/date_time.rs:243-248. -/
inductive DatePerhapsTime where
  | dateTime (t : CalDateTime)
  | date (d : NaiveDate)
  deriving DecidableEq, Repr

namespace DatePerhapsTime

/-- `DatePerhapsTime::from_property`: /repo/src/components/date_time.rs:252-262. -/
def fromProperty [Uni] (p : Property) : Option DatePerhapsTime :=
  if p.valueType = some .date then
    match parseDate p.val with
    | some d => some (.date d)
    | none => none
  else
    match CalDateTime.fromProperty p with
    | some t => some (.dateTime t)
    | none => none

/-- `DatePerhapsTime::to_property`: /repo/src/components/date_time.rs:265-270. -/
def toProperty (key : Str) : DatePerhapsTime → Property
  | .dateTime t => t.toProperty key
  | .date d => naiveDateToProperty d key

/-- `DatePerhapsTime::date_naive`: /repo/src/components/date_time.rs:273-281. -/
def dateNaive : DatePerhapsTime → NaiveDate
  | .date d => d
  | .dateTime (.floating t) => t.date
  | .dateTime (.utc t) => t.naive.date
  | .dateTime (.zoned t _) => t.date

/-- `From<DatePerhapsTime> for NaiveDate`: /repo/src/components/date_time.rs:297-308. -/
def intoNaiveDate : DatePerhapsTime → NaiveDate
  | .date d => d
  | .dateTime (.floating t) => t.date
  | .dateTime (.utc t) => t.naive.date
  | .dateTime (.zoned t _) => t.date

/-- `From<DateTime<Utc>> for DatePerhapsTime`, by way of `CalendarDateTime::Utc`:
/repo/src/components/date_time.rs:185-189, 316-320. -/
def ofUtc (t : UtcDateTime) : DatePerhapsTime := .dateTime (.utc t)

/-- `From<NaiveDateTime> for DatePerhapsTime`, by way of `CalendarDateTime::Floating`:
/repo/src/components/date_time.rs:203-207, 339-343. -/
def ofNaive (t : NaiveDateTime) : DatePerhapsTime := .dateTime (.floating t)

/-- `From<NaiveDate> for DatePerhapsTime`: /repo/src/components/date_time.rs:360-364. -/
def ofDate (d : NaiveDate) : DatePerhapsTime := .date d

/-- `From<chrono::Date<Utc>> for DatePerhapsTime` (deprecated type; its UTC date):
/repo/src/components/date_time.rs:332-337. -/
def ofUtcDate (d : NaiveDate) : DatePerhapsTime := .date d

/-- `with_timezone` (free function), `TryFrom<(NaiveDateTime, &str)>` and `From<(NaiveDateTime, Tz)>`:
/repo/src/components/date_time.rs:285-295, 345-358. -/
def ofZoned {db : TzDb} (names : TzNames db) (t : ZonedDateTime db) : DatePerhapsTime :=
  .dateTime (CalDateTime.fromDateTime names t)

/-- `TryFrom<&parser::Property> for DatePerhapsTime`: /repo/src/components/date_time.rs:367-400. -/
def tryFromParsed (p : PProp) : Option DatePerhapsTime :=
  match parseUtc p.val with
  | some t => some (.dateTime (.utc t))
  | none =>
    match parseDate p.val with
    | some d => some (.date d)
    | none =>
      match parseDateTime p.val with
      | some t =>
        match p.params.find? (fun q => q.key == c!"TZID") with
        | some q =>
          match q.val with
          | some tzid => some (.dateTime (.zoned t tzid))
          | none => none
        | none => some (.dateTime (.floating t))
      | none => none

end DatePerhapsTime

end Ical
