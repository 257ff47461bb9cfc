import Verif.Model.Basic

/-!
Text escaping, parameter quoting and value types.
-/

namespace Ical

/-- `Property::escape_text`: /repo/src/properties.rs:157-163. -/
def escapeText (s : Str) : Str :=
  replaceChar '\n' ['\\', 'N']
    (replaceChar ';' ['\\', ';']
      (replaceChar ',' ['\\', ',']
        (replaceChar '\\' ['\\', '\\'] s)))

/-- `ParseString::unescape_text`: /repo/src/parser/parsed_string.rs:38-57. -/
def unescapeText (s : Str) : Str :=
  if containsStr ['\\', '\\'] s || containsStr ['\\', ','] s || containsStr ['\\', ';'] s ||
     containsStr ['\\', ':'] s || containsStr ['\\', 'N'] s || containsStr ['\\', 'n'] s then
    replaceAll ['\\', 'n'] ['\n']
      (replaceAll ['\\', 'N'] ['\n']
        (replaceAll ['\\', ':'] [':']
          (replaceAll ['\\', ';'] [';']
            (replaceAll ['\\', ','] [',']
              (replaceAll ['\\', '\\'] ['\\'] s)))))
  else s

/-- `Property::quote_if_contains_colon`: /repo/src/properties.rs:165-175. -/
def quoteIfContainsColon (s : Str) : Str :=
  if s.contains ':' || s.contains ';' then ['"'] ++ s ++ ['"'] else s

/-- `ValueType`: /repo/src/value_types.rs:7-36. -/
inductive ValueType
  | binary | boolean | calAddress | date | dateTime | duration | float | integer | period | recur
  | text | time | uri | utcOffset
  deriving DecidableEq, Repr

open ValueType in
/-- The `match` of `ValueType::by_name` as a table: /repo/src/value_types.rs:45-99. -/
def byNameTable : List (Str × ValueType) :=
  [ (c!"CALSCALE", text), (c!"METHOD", text), (c!"PRODID", text), (c!"VERSION", text),
    (c!"ATTACH", uri), (c!"CATEGORIES", text), (c!"CLASS", text), (c!"COMMENT", text),
    (c!"DESCRIPTION", text), (c!"GEO", float), (c!"LOCATION", text), (c!"PERCENT-COMPLETE", integer),
    (c!"PRIORITY", integer), (c!"RESOURCES", text), (c!"STATUS", text), (c!"SUMMARY", text),
    (c!"COMPLETED", dateTime), (c!"DTEND", dateTime), (c!"DUE", dateTime), (c!"DTSTART", dateTime),
    (c!"DURATION", duration), (c!"FREEBUSY", period), (c!"TRANSP", text), (c!"TZID", text),
    (c!"TZNAME", text), (c!"TZOFFSETFROM", utcOffset), (c!"TZOFFSETTO", utcOffset), (c!"TZURL", uri),
    (c!"ATTENDEE", calAddress), (c!"CONTACT", text), (c!"ORGANIZER", calAddress),
    (c!"RECURRENCE-ID", dateTime), (c!"RELATED-TO", text), (c!"URL", uri), (c!"UID", text),
    (c!"EXDATE", dateTime), (c!"RDATE", dateTime), (c!"RRULE", recur), (c!"ACTION", text),
    (c!"REPEAT", integer), (c!"TRIGGER", duration), (c!"CREATED", dateTime), (c!"DTSTAMP", dateTime),
    (c!"LAST-MODIFIED", dateTime), (c!"SEQUENCE", integer), (c!"REQUEST-STATUS", text) ]

/-- `ValueType::by_name`: /repo/src/value_types.rs:39-100. -/
def ValueType.byName [Uni] (name : Str) : Option ValueType :=
  if name.any isLower then none else byNameTable.lookup name

open ValueType in
/-- The `match` of `ValueType::from_str` as a table: /repo/src/value_types.rs:119-135. -/
def fromStrTable : List (Str × ValueType) :=
  [ (c!"BINARY", binary), (c!"BOOLEAN", boolean), (c!"CAL-ADDRESS", calAddress), (c!"DATE", date),
    (c!"DATE-TIME", dateTime), (c!"DURATION", duration), (c!"FLOAT", float), (c!"INTEGER", integer),
    (c!"PERIOD", period), (c!"RECUR", recur), (c!"TEXT", text), (c!"TIME", time), (c!"URI", uri),
    (c!"UTC-OFFSET", utcOffset) ]

/-- `ValueType::from_str`: /repo/src/value_types.rs:118-136 (`Err(())` is `none`). -/
def ValueType.fromStr (s : Str) : Option ValueType := fromStrTable.lookup s

/-- The `VALUE` parameter text of `From<ValueType> for Parameter`: /repo/src/properties.rs:316-338. -/
def ValueType.toStr : ValueType → Str
  | .binary => c!"BINARY"
  | .boolean => c!"BOOLEAN"
  | .calAddress => c!"CAL-ADDRESS"
  | .date => c!"DATE"
  | .dateTime => c!"DATE-TIME"
  | .duration => c!"DURATION"
  | .float => c!"FLOAT"
  | .integer => c!"INTEGER"
  | .period => c!"PERIOD"
  | .recur => c!"RECUR"
  | .text => c!"TEXT"
  | .time => c!"TIME"
  | .uri => c!"URI"
  | .utcOffset => c!"UTC-OFFSET"

/-- `ParseString::unescape_by_value_type`: /repo/src/parser/parsed_string.rs:31-36. -/
def unescapeByValueType (vt : ValueType) (s : Str) : Str :=
  match vt with
  | .text => unescapeText s
  | _ => s

end Ical
