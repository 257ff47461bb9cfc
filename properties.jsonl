{"id": "C01", "title": "Folding is undone by unfolding", "statement": "Whenever serializing a property produces folded text, parser::unfold applied to that text gives back exactly the property's unfolded content line, provided the content line itself contains no line feed followed by a space or tab.", "quantifier": "all content lines: any length, any Unicode text, including lines with embedded CR/LF and whitespace at the fold points; whenever serializing finishes (C03)", "why_tests_cant": "Fold positions depend on byte offsets, character offsets and whitespace all at once; a sample of lines cannot visit every alignment of multi-byte characters, whitespace and fold points.", "anchors": ["src/properties.rs: fold_line, Property::fmt_write", "src/parser/utils.rs: unfold"]}
{"id": "C02", "title": "Emitted physical lines respect the 75-octet limit", "statement": "Every physical line written for a property whose content contains no raw line break is at most 75 octets long, not counting the line break (RFC 5545 section 3.1).", "quantifier": "all content lines of any length and any mix of 1-4 byte characters; whenever serializing finishes (C03)", "why_tests_cant": "The limit is an off-by-one question at every line length; only particular lengths (e.g. 150 octets) reach the boundary of the last fragment.", "anchors": ["src/properties.rs: fold_line (LIMIT, bytes_remaining)"]}
{"id": "C03", "title": "Serializing a property always finishes", "statement": "Serializing a property never panics and never loops forever, whatever its key, parameters and value are.", "quantifier": "all content lines", "why_tests_cant": "Non-termination and slice panics need a specific interplay of multi-byte characters and whitespace at character index equal to a byte index; random text does not hit it.", "anchors": ["src/properties.rs: fold_line (inner while, is_char_boundary, slicing)"]}
{"id": "C04", "title": "Folding only inserts CRLF+space between whole characters", "statement": "The folded text is the content line cut into pieces at character boundaries and joined by exactly CR LF SPACE; no character is lost, reordered, duplicated or split. No piece is empty (the first one provided the line starts with two ASCII characters of which the second is not whitespace, as every property name with its separator does).", "quantifier": "all content lines for which serialization finishes", "why_tests_cant": "Requires every multi-byte alignment at every fold point of every line.", "anchors": ["src/properties.rs: fold_line"]}
{"id": "C05", "title": "Short content lines are written verbatim", "statement": "A content line of at most 75 octets is written unchanged followed by one CRLF; a content line longer than 75 octets always contains at least one fold.", "quantifier": "all content lines", "why_tests_cant": "Boundary behaviour in octets rather than characters must hold for every mix of characters.", "anchors": ["src/properties.rs: fold_line, Property::fmt_write"]}
{"id": "C06", "title": "Unfolding removes exactly the fold markers", "statement": "parser::unfold deletes every line break (LF or CRLF) that is immediately followed by a space or a tab together with that one space or tab, in a single left-to-right pass, and changes nothing else.", "quantifier": "all input strings", "why_tests_cant": "unfold is a cascade of four splits; that the cascade equals one simultaneous deletion needs all overlaps of the four patterns.", "anchors": ["src/parser/utils.rs: unfold"]}
{"id": "C07", "title": "Unfolding is independent of how a document was folded", "statement": "However a text is cut into pieces and rejoined with any mixture of the four legal fold markers (CRLF or LF, then space or tab), unfold restores the text, provided no piece itself contains a marker and no piece followed by an LF marker ends in CR.", "quantifier": "all texts, all cut positions, all marker choices", "why_tests_cant": "Other producers fold anywhere; the number of foldings of one text is exponential.", "anchors": ["src/parser/utils.rs: unfold"]}
{"id": "C08", "title": "Text values survive escaping and unescaping", "statement": "Unescaping the escaped form of a text value (what the serializer writes and the parser reads for TEXT properties) yields the original text.", "quantifier": "all Unicode strings", "why_tests_cant": "The unescape is a sequence of six global replacements; corruptions need particular adjacent characters (backslash before n, N or colon).", "anchors": ["src/properties.rs: Property::escape_text", "src/parser/parsed_string.rs: ParseString::unescape_text"]}
{"id": "C09", "title": "Escaped text is inert", "statement": "The escaped form of a TEXT value contains no line feed, and every comma and semicolon in it is preceded by a backslash that is not itself escaped.", "quantifier": "all Unicode strings", "why_tests_cant": "Statement about every position of every string.", "anchors": ["src/properties.rs: Property::escape_text"]}
{"id": "C10", "title": "Unescaping follows RFC 5545 TEXT", "statement": "Unescaping a TEXT value gives the same result as the RFC 5545 left-to-right reading (\\\\ \\, \\; \\: \\n \\N each read once).", "quantifier": "all strings received from other producers", "why_tests_cant": "The sequential replacements agree with the one-pass reading except on particular inputs; tests pick inputs where they agree.", "anchors": ["src/parser/parsed_string.rs: ParseString::unescape_text"]}
{"id": "C11", "title": "Writer and reader agree on which values are TEXT", "statement": "The value type the serializer uses to decide about escaping a property equals the value type the parser derives from the written line, for every property name and VALUE parameter, whatever order parameters are written in.", "quantifier": "all property names, parameter maps and parameter orders", "why_tests_cant": "Two independent implementations (map lookup vs first match in a list, name table) must agree on the product of all names and parameter sets.", "anchors": ["src/properties.rs: Property::value_type", "src/parser/properties.rs: determin_value_type", "src/value_types.rs: ValueType::by_name, from_str"]}
{"id": "C12", "title": "A serialized property parses back to itself", "statement": "Serializing a property, unfolding the text and parsing it as a property gives back the same key, value and parameters (as a map), for every property whose key and parameter names consist of legal name characters, whose key does not begin with BEGIN or END, whose parameter values are quotable, whose text value has no backslash before n, N or colon, and whose raw line has no CRLF inside the value and no fold marker.", "quantifier": "all well-formed properties with any number of parameters; whenever serializing finishes (C03)", "why_tests_cant": "Product of folding, quoting, escaping and a backtracking parser over unbounded strings.", "anchors": ["src/properties.rs: Property::fmt_write", "src/parser/properties.rs: property", "src/parser/parameters.rs: parameters", "src/parser/utils.rs"]}
{"id": "C13", "title": "Parameter order does not matter", "statement": "Parameters live in a hash map with randomized iteration order: whatever order they are written in, parsing the text gives the same property.", "quantifier": "all well-formed properties (as in C12), all iteration orders of the parameter map; whenever serializing finishes (C03)", "why_tests_cant": "The order is randomized per process; a test run sees one of n! orders.", "anchors": ["src/properties.rs: Property::fmt_write, EntryParameters", "src/parser/properties.rs: From<Property> for crate::Property"]}
{"id": "C14", "title": "Parameter values survive quoting", "statement": "A parameter value written by the serializer is read back unchanged: values with colon or semicolon are quoted on output and unquoted on input.", "quantifier": "all parameter values", "why_tests_cant": "Values containing quotes interact with the quoting rule; the failing shapes are specific.", "anchors": ["src/properties.rs: Property::quote_if_contains_colon", "src/parser/parameters.rs: pair_parameter"]}
{"id": "C15", "title": "A TEXT value cannot inject lines", "statement": "However hostile the text value of a TEXT property is, its serialization unfolds to exactly one content line: one CRLF at the very end and no other line feed, so it can never introduce or remove another property or component.", "quantifier": "all text values, with a key and parameters free of line feeds; whenever serializing finishes (C03)", "why_tests_cant": "Security property over all strings.", "anchors": ["src/properties.rs: Property::fmt_write, escape_text, fold_line"]}
{"id": "C16", "title": "The parser terminates on every input", "statement": "Every parsing entry point (unfold, Property/Component parsing, read_component, read_components, read_calendar, Calendar/CalendarComponent/Property from_str) returns Ok or Err on every input string; each recursive call and each repetition consumes input.", "quantifier": "all input strings, any nesting depth", "why_tests_cant": "Termination over all inputs.", "anchors": ["src/parser/components.rs: component, components", "src/parser/properties.rs: property", "src/parser/parameters.rs: parameters"]}
{"id": "C17", "title": "Every root component of the input is returned", "statement": "Parsing a document that consists of several complete root components returns all of them.", "quantifier": "all sequences of well-formed root components", "why_tests_cant": "Claim about documents with any number of roots.", "anchors": ["src/parser/components.rs: components", "src/parser/mod.rs: read_calendar, read_components"]}
{"id": "C18", "title": "Truncated input is never silently accepted as an empty calendar", "statement": "If a document ends before its root component is closed, parsing reports an error.", "quantifier": "all prefixes of serialized calendars", "why_tests_cant": "Every cut point of every document is a separate test.", "anchors": ["src/parser/components.rs: component (many_till), components", "src/parser/mod.rs: read_calendar"]}
{"id": "C19", "title": "A mismatched END is rejected", "statement": "If the first END line that closes an open component carries a name that does not start with the component's name, the whole parse fails with an error.", "quantifier": "all component names, all well-formed bodies, all nesting depths", "why_tests_cant": "Unbounded names, bodies and depths.", "anchors": ["src/parser/components.rs: component (cut, mismatching end)"]}
{"id": "C20", "title": "Property names beginning with BEGIN or END are rejected", "statement": "A content line inside a component whose name begins with BEGIN or END (and is not a BEGIN:/END: line) makes the whole parse fail rather than being misread.", "quantifier": "all such names, all positions in a component", "why_tests_cant": "Unbounded names and positions.", "anchors": ["src/parser/utils.rs: property_key", "src/parser/properties.rs: property (cut)"]}
{"id": "C21", "title": "Parsed names consist of name characters only", "statement": "In every successfully parsed result, at any depth, every component, property and parameter name consists only of letters, digits and . , / _ - ; values never contain CRLF-terminated content beyond their line.", "quantifier": "all inputs, all nesting depths of the result", "why_tests_cant": "Invariant of every reachable parse result.", "anchors": ["src/parser/utils.rs: valid_key_sequence, valid_key_sequence_cow, property_key", "src/parser/components.rs: component"]}
{"id": "C22", "title": "Reserializing a parsed calendar and parsing again is lossless", "statement": "Printing a parser::Calendar / parser::Component tree and parsing the printed text gives back the same tree.", "quantifier": "all trees the parser can return, any depth", "why_tests_cant": "Any shape and depth of tree, any strings.", "anchors": ["src/parser/properties.rs: Property::fmt_write", "src/parser/components.rs: LikeComponent::fmt_write", "src/parser/calendar.rs: Display"]}
{"id": "C23", "title": "LF and CRLF documents mean the same", "statement": "A document written with LF line breaks throughout parses to the same result as the same document written with CRLF line breaks throughout.", "quantifier": "all component trees, any depth", "why_tests_cant": "The value parser searches for CRLF before LF across the whole rest of the input, so the claim depends on the entire document.", "anchors": ["src/parser/properties.rs: property (take_until)", "src/parser/utils.rs: line, line_separated"]}
{"id": "C24", "title": "BEGIN and END keywords are case-insensitive", "statement": "Changing the letter case of any BEGIN or END keyword in a document does not change the parse result.", "quantifier": "all component trees, all 2^n casings", "why_tests_cant": "Exponentially many casings at every depth.", "anchors": ["src/parser/utils.rs: line (tag_no_case)"]}
{"id": "C25", "title": "A calendar survives serialization and parsing", "statement": "For every calendar made of well-formed properties (as in C12) in which exactly the names the reader takes as repeatable are stored as multi-properties and every component has a UID and DTSTAMP, parsing its serialized text (Calendar::from_str) gives an equal calendar: same calendar properties in order, same components in order and of the same kind, same properties, multi-properties and nested components at any depth.", "quantifier": "all well-formed calendars: any number of properties, parameters, components and any nesting depth; all hash-map iteration orders; whenever serializing finishes (C60)", "why_tests_cant": "This is the headline guarantee; tests check three calendars.", "anchors": ["src/calendar.rs: Calendar::fmt_write", "src/components.rs: Component::fmt_write", "src/parser/calendar.rs: FromStr", "src/parser/components.rs"]}
{"id": "C26", "title": "Missing DTSTAMP and UID are the only difference after a round trip", "statement": "If components lack DTSTAMP or UID, the reparsed calendar differs from the original only by the generated DTSTAMP and UID properties.", "quantifier": "all well-formed calendars, all clock readings and UUIDs; whenever serializing finishes (C60)", "why_tests_cant": "Clock and UUID values are nondeterministic.", "anchors": ["src/components.rs: Component::fmt_write"]}
{"id": "C27", "title": "Parse-serialize-parse is stable", "statement": "Once a calendar has been parsed from its own serialization, serializing and parsing it again any number of times gives the same calendar.", "quantifier": "all well-formed calendars, any number of iterations, different hash orders, clocks and UUIDs in every iteration; whenever serializing finishes (C60)", "why_tests_cant": "Unbounded iterations with fresh nondeterminism each time.", "anchors": ["tests/folding_consistency.rs", "src/calendar.rs", "src/parser/calendar.rs"]}
{"id": "C28", "title": "DTSTAMP and UID appear exactly once per component", "statement": "The serialization of a component contains exactly one DTSTAMP line and exactly one UID line of its own: the user's if set, otherwise a generated one; a set value is never overridden or duplicated.", "quantifier": "all components, all property sets, all nesting depths; whenever serializing finishes (C60)", "why_tests_cant": "Must hold for all combinations of present/absent properties at all depths.", "anchors": ["src/components.rs: Component::fmt_write"]}
{"id": "C29", "title": "Serialized documents are properly nested", "statement": "The unfolded lines of a serialized calendar form a properly nested BEGIN/END structure in which every END matches the innermost open BEGIN by name, the outermost being VCALENDAR; every line ends in CRLF.", "quantifier": "all calendars whose strings carry no raw line feeds; whenever serializing finishes (C60)", "why_tests_cant": "Any depth of nesting.", "anchors": ["src/calendar.rs: fmt_write", "src/components.rs: fmt_write", "src/lib.rs: write_crlf"]}
{"id": "C30", "title": "Component kinds are preserved", "statement": "A VEVENT, VTODO or VVENUE component is parsed as Event, Todo or Venue respectively and any other name is kept as a generic component that serializes under the same name; nothing is dropped.", "quantifier": "all component names", "why_tests_cant": "All strings as names.", "anchors": ["src/parser/components.rs: From<Component> for CalendarComponent", "src/components.rs: component_kind"]}
{"id": "C31", "title": "Repeated properties are all kept", "statement": "When a parsed component contains several properties that RFC 5545 allows to repeat, all of them are kept in order in the resulting component.", "quantifier": "all property lists, all RFC 5545 repeatable names", "why_tests_cant": "All lists of properties, all interleavings.", "anchors": ["src/parser/properties.rs: MULTIS, is_multi_property", "src/parser/components.rs: From<Component> for InnerComponent", "src/components.rs: insert_multi"]}
{"id": "C32", "title": "read_calendar unwraps a VCALENDAR root and nothing else", "statement": "If the (single) root component is VCALENDAR its properties and children become the calendar; otherwise the roots become components of a calendar without properties; no default properties are added.", "quantifier": "all inputs", "why_tests_cant": "All parse results.", "anchors": ["src/parser/mod.rs: read_calendar", "src/parser/calendar.rs: From"]}
{"id": "C33", "title": "Component properties behave like a map", "statement": "After any sequence of property-setting calls on a component, looking up a key gives the value of the last call for that key, keys never set are absent, and setting one key does not affect another.", "quantifier": "all histories of setter calls, all keys", "why_tests_cant": "All call sequences.", "anchors": ["src/components.rs: component_impl append_property, property_value, add_property"]}
{"id": "C34", "title": "Multi-properties keep every value in order", "statement": "After any sequence of append_multi_property calls, the values stored under a key are exactly those appended for that key, in call order, and the ordinary properties are untouched.", "quantifier": "all histories of append_multi_property / append_property calls", "why_tests_cant": "All call sequences.", "anchors": ["src/components.rs: InnerComponent::insert_multi"]}
{"id": "C35", "title": "Properties are written in key order, each once", "statement": "The serialized lines of a component's own single-valued properties appear in strictly increasing byte order of their keys, one line per key, followed by its multi-properties grouped by key in insertion order.", "quantifier": "all components built by any sequence of calls; whenever serializing finishes (C60)", "why_tests_cant": "All insertion orders must give the same output order.", "anchors": ["src/components.rs: fmt_write, BTreeMap"]}
{"id": "C36", "title": "Typed text getters return what was set", "statement": "summary, description, uid, url, location and venue-address setters followed by the matching getter return the given string, regardless of what was set before and of other setters called in between.", "quantifier": "all strings, all prior states, all interleaved calls to other setters", "why_tests_cant": "All strings and histories.", "anchors": ["src/components.rs: summary, description, uid, url, location", "src/components/venue.rs"]}
{"id": "C37", "title": "Priority is clamped to 0..=10", "statement": "After priority(n), get_priority returns min(n,10); get_priority never returns a value above 10 whatever the stored text.", "quantifier": "all u32 values and all stored strings", "why_tests_cant": "2^32 inputs and all strings.", "anchors": ["src/components.rs: priority, get_priority"]}
{"id": "C38", "title": "Numeric properties survive their text form", "statement": "sequence(n)/get_sequence and percent_complete(n)/get_percent_complete return the number that was set.", "quantifier": "all u32 / u8 values", "why_tests_cant": "2^32 inputs.", "anchors": ["src/components.rs: sequence, get_sequence", "src/components/todo.rs: percent_complete"]}
{"id": "C39", "title": "Percent-complete stays within 0..=100", "statement": "get_percent_complete only returns values in 0..=100, as its documentation says.", "quantifier": "all u8 values and all stored strings", "why_tests_cant": "All stored strings.", "anchors": ["src/components/todo.rs: percent_complete, get_percent_complete"]}
{"id": "C40", "title": "Enumerated properties survive their text form", "statement": "class, event status, todo status, alarm action, alarm relation and value type written by a setter are read back as the same variant; any other text is read as none (or Other for actions).", "quantifier": "all variants, all other strings", "why_tests_cant": "All other strings must be rejected.", "anchors": ["src/properties.rs: Class, EventStatus, TodoStatus, From<ValueType>", "src/value_types.rs", "src/components/alarm.rs: Action, Related"]}
{"id": "C41", "title": "done() moves the builder's content", "statement": "done() returns a value with exactly the content built so far and leaves the builder empty.", "quantifier": "all builder histories (component, property, calendar)", "why_tests_cant": "All histories.", "anchors": ["src/components.rs: InnerComponent::done", "src/properties.rs: Property::done", "src/calendar.rs: Calendar::done"]}
{"id": "C42", "title": "A calendar is an append-only sequence of components", "statement": "push, extend, append, collect and From build a calendar whose components are exactly the given ones in order; append empties the other calendar's components and leaves its properties alone.", "quantifier": "all histories of container operations", "why_tests_cant": "All histories.", "anchors": ["src/calendar.rs: push, extend, append, From, FromIterator"]}
{"id": "C43", "title": "Calendar getters return the first value set", "statement": "name/description/timezone followed by the getter returns the value set if none was set before, and otherwise the earliest one; a value only present under the alternative X-WR-* name is found too.", "quantifier": "all histories of calendar property calls", "why_tests_cant": "All histories.", "anchors": ["src/calendar.rs: name, get_name, description, get_description, timezone, get_timezone, property_value"]}
{"id": "C44", "title": "get_timezone reads the property timezone() documents", "statement": "A calendar whose only time zone property is TIMEZONE-ID reports it through get_timezone.", "quantifier": "all calendars", "why_tests_cant": "Name mismatch is invisible to tests that always set both names.", "anchors": ["src/calendar.rs: get_timezone"]}
{"id": "C45", "title": "New calendars carry the default header exactly once", "statement": "Calendars made by new/default/From/collect have exactly VERSION:2.0, PRODID:ICALENDAR-RS and CALSCALE:GREGORIAN in that order; empty() and parsed calendars get nothing added.", "quantifier": "all component collections, all parsed inputs", "why_tests_cant": "All inputs.", "anchors": ["src/calendar.rs: Default, empty, FromIterator", "src/parser/calendar.rs: From<Calendar>"]}
{"id": "C46", "title": "Date and date-time properties survive their text form", "statement": "starts/ends/due with any date or date-time (floating, UTC, with time zone id) followed by the matching getter returns the same value at whole-second precision.", "quantifier": "all valid calendar dates and times chrono can represent, all time zone ids", "why_tests_cant": "All dates including leap days, leap seconds and extreme years.", "anchors": ["src/components/date_time.rs: CalendarDateTime, DatePerhapsTime", "src/components.rs: starts, ends, get_start, get_end"]}
{"id": "C47", "title": "UTC timestamps survive their text form", "statement": "timestamp, created, last_modified and completed followed by the getter return the same instant truncated to whole seconds.", "quantifier": "all UTC instants with year 0..9999", "why_tests_cant": "All instants.", "anchors": ["src/components.rs: timestamp, created, last_modified", "src/components/todo.rs: completed", "src/components/date_time.rs: parse_utc_date_time, format_utc_date_time"]}
{"id": "C48", "title": "Date text is fixed-width and well-formed", "statement": "For years 0..9999 the written date is exactly 8 digits, the date-time exactly 8 digits, T, 6 digits (and Z for UTC); the text determines the value uniquely.", "quantifier": "all valid dates and times", "why_tests_cant": "All dates.", "anchors": ["src/components/date_time.rs: NAIVE_DATE_FORMAT, NAIVE_DATE_TIME_FORMAT, UTC_DATE_TIME_FORMAT"]}
{"id": "C49", "title": "Dates survive a full document round trip through the low-level parser", "statement": "DatePerhapsTime::try_from on the parsed form of a written date property gives the same value as was written.", "quantifier": "all dates, date-times and time zone ids", "why_tests_cant": "All values and ids.", "anchors": ["src/components/date_time.rs: TryFrom<&parser::Property>"]}
{"id": "C50", "title": "Standard LAST-MODIFIED is readable", "statement": "get_last_modified of a component parsed from RFC 5545 text with a LAST-MODIFIED property returns its value.", "quantifier": "all RFC 5545 documents", "why_tests_cant": "Name mismatch (LAST_MODIFIED) is invisible to set/get tests.", "anchors": ["src/components.rs: last_modified, get_last_modified"]}
{"id": "C51", "title": "Discarding time is consistent", "statement": "date_naive and NaiveDate::from agree for every value and, for values read back from a property, equal the first eight digits of the property text.", "quantifier": "all DatePerhapsTime values", "why_tests_cant": "All values.", "anchors": ["src/components/date_time.rs: date_naive, From<DatePerhapsTime> for NaiveDate"]}
{"id": "C52", "title": "UTC conversion never guesses", "statement": "try_into_utc returns the instant itself for UTC values, nothing for floating values, unknown zones, and local times that are skipped or ambiguous in their zone.", "quantifier": "all values, all time zone databases", "why_tests_cant": "All zones and times.", "anchors": ["src/components/date_time.rs: try_into_utc"]}
{"id": "C53", "title": "Alarms always carry their mandatory properties", "statement": "Every alarm created by audio/display has exactly one ACTION and one TRIGGER (and DESCRIPTION for display), and after any sequence of duration_and_repeat calls DURATION and REPEAT are either both present or both absent.", "quantifier": "all triggers, descriptions and call sequences", "why_tests_cant": "All histories.", "anchors": ["src/components/alarm.rs: audio, display, duration_and_repeat"]}
{"id": "C54", "title": "Triggers survive their property form", "statement": "Converting a trigger to a property and back gives the same trigger.", "quantifier": "all durations (positive, zero, negative), relations, and date-times of all three forms", "why_tests_cant": "All values; sign and zone handling are corner cases.", "anchors": ["src/components/alarm.rs: From<Trigger> for Property, TryFrom<&Property> for Trigger", "src/components/date_time.rs: parse_duration"]}
{"id": "C55", "title": "Refresh interval survives its text form", "statement": "ttl(d) followed by get_ttl returns d, also after serializing and parsing the calendar.", "quantifier": "all non-negative whole-second durations below 2^32 s", "why_tests_cant": "All durations.", "anchors": ["src/calendar.rs: ttl, get_ttl"]}
{"id": "C56", "title": "Trigger constructors have the documented sign and relation", "statement": "before_* negates the duration, after_* keeps it, *_start/_end set the relation; the accessors related/as_duration/as_date_time return exactly what the constructor stored.", "quantifier": "all durations and date-times", "why_tests_cant": "All values.", "anchors": ["src/components/alarm.rs: Trigger"]}
{"id": "C57", "title": "Any conforming reader recovers every TEXT value", "statement": "The escaped form the crate writes for a TEXT value is read back, by a reader that follows RFC 5545 section 3.3.11 in one left-to-right pass, as exactly the original value; hence two different TEXT values never have the same written form.", "quantifier": "all strings", "why_tests_cant": "All strings; injectivity is a statement about pairs.", "anchors": ["src/value_types.rs: escape_text", "src/properties.rs: fmt_write"]}
{"id": "C58", "title": "Converting simply parsed components keeps the calendar", "statement": "Converting the component list returned by parser::read_calendar_simple with Calendar::from gives a calendar with the properties and components of the roots.", "quantifier": "all lists of parsed components", "why_tests_cant": "the conversion is exercised on one sample file only; dropped calendar properties need a comparison over all lists", "anchors": ["src/parser/calendar.rs: From<Vec<parser::Component>> for Calendar"]}
{"id": "C59", "title": "Whatever the builder makes is well-formed", "statement": "Any sequence of builder calls on new events, to-dos, venues, alarms and calendars gives well-formed values: typed setters accept every text, number, date and enumerated value (URLs, calendar names and addresses must fit on a line, time zone ids and venue uids must be representable as parameter values), so a calendar built that way of texts that survive escaping (C08) is read back from its text, whenever serializing finishes (C60), with only DTSTAMP and UID added.", "quantifier": "all sequences of builder calls, all arguments", "why_tests_cant": "All call sequences and all texts, nested to any depth.", "anchors": ["src/components.rs: Component, EventLike", "src/components/event.rs", "src/components/todo.rs", "src/components/venue.rs", "src/components/alarm.rs", "src/calendar.rs"]}
{"id": "C60", "title": "Serializing a calendar always finishes", "statement": "Calendar::fmt_write / to_string terminates without panic for every calendar.", "quantifier": "all calendars, any depth, all hash-map iteration orders", "why_tests_cant": "Hangs and panics depend on the distribution of whitespace and multi-byte characters in texts.", "anchors": ["src/calendar.rs: fmt_write", "src/components.rs: fmt_write", "src/properties.rs: fold_line"]}
{"id": "C61", "title": "Getters agree before and after a round trip", "statement": "For a calendar that is written to text and parsed back, get_name, get_description, get_timezone, get_ttl and every typed getter of every event, to-do and venue (start, end, summary, description, location, url, priority, sequence, class, created, last-modified, status, due, completed, percent-complete, address parts) returns the same value on the original and on the parsed calendar; a UID or DTSTAMP that was set is found again.", "quantifier": "all well-formed calendars, all generated identifiers, clocks and hash-map iteration orders; whenever serializing finishes (C60)", "why_tests_cant": "Combines every setter, the escaping, folding, parsing and conversion for all property contents.", "anchors": ["src/components.rs: Component getters", "src/components/event.rs", "src/components/todo.rs", "src/components/venue.rs", "src/calendar.rs: getters", "src/parser/calendar.rs"]}
{"id": "C62", "title": "Serialization is reproducible", "statement": "If every component of a calendar has a DTSTAMP and a UID and no property has more than one parameter, then serializing the calendar gives the same octets every time, and, if it is well-formed and its texts survive escaping (C08), writing what was parsed from that text gives the same octets again. With any number of parameters, two serializations of the same well-formed calendar are parsed as the same calendar.", "quantifier": "all calendars, clocks, UUIDs and hash-map iteration orders; whenever serializing finishes (C60)", "why_tests_cant": "Hash-map order, clock and UUIDs vary between runs; a test sees a few of them.", "anchors": ["src/calendar.rs: fmt_write", "src/components.rs: fmt_write", "src/properties.rs: fmt_write"]}
{"id": "C63", "title": "The order of independent builder calls does not matter", "statement": "Builder calls that set different properties, append different repeatable properties and of which at most one adds a sub-component can be made in any order: the component and its text are the same. Calling a setter twice is the same as calling it once. A component is determined by the last property set per key, the properties appended per key in order, and the sub-components added in order.", "quantifier": "all components, all sequences of builder calls and their permutations", "why_tests_cant": "All permutations of all call sequences with all arguments.", "anchors": ["src/components.rs: Component, EventLike"]}
{"id": "C64", "title": "Parameters behave like a map", "statement": "After any sequence of add_parameter calls on a new property its key and value are unchanged and get_param_as sees, for each name, the value added last; the written line contains each parameter name once, with that value. Adding a ValueType as parameter determines the value type of the property, an unknown VALUE or another parameter does not change it.", "quantifier": "all keys, values, sequences of add_parameter calls and hash-map iteration orders; whenever serializing finishes (C03)", "why_tests_cant": "All sequences with repeated names and all iteration orders.", "anchors": ["src/properties.rs: add_parameter, append_parameter, get_param_as, fmt_write", "src/value_types.rs: TryFrom<Parameter>"]}
{"id": "C65", "title": "Values with a time zone denote the intended instant", "statement": "from_ymd_hm_tzid succeeds exactly for dates of the calendar and times of the day. A (NaiveDateTime, &str) pair is accepted exactly if the zone exists. A value made by from_date_time never converts to another instant than the original with try_into_utc, and converts to it exactly if the local time is not ambiguous; this stays so after starts and get_start for whole seconds and years of four digits.", "quantifier": "all dates, times, zones and time zone databases whose zone names parse to the zone", "why_tests_cant": "All dates, gaps and overlaps of all zones.", "anchors": ["src/components/date_time.rs: from_ymd_hm_tzid, from_date_time, try_into_utc, TryFrom<(NaiveDateTime, &str)>"]}
{"id": "C66", "title": "Documents written by others are read faithfully", "statement": "A well-formed iCalendar document, whoever wrote it and however its lines are folded, is accepted by Calendar::from_str: the calendar has exactly the properties of the document (names, parameters, unescaped TEXT values), in order, and exactly its components, in order, each of the kind its name says and containing exactly what its lines say. The same holds for CalendarComponent::from_str and one component.", "quantifier": "all well-formed documents (any nesting, any parameters, either line ending) and all ways to fold them", "why_tests_cant": "All documents of all producers and all foldings of each.", "anchors": ["src/parser.rs: read_calendar, unfold", "src/parser/components.rs: Component", "src/calendar.rs: FromStr, From<parser::Calendar>"]}
{"id": "C67", "title": "Values cannot inject lines", "statement": "The BEGIN and END lines of a serialized calendar are exactly those of the calendar and of the components that were added to it, in order, whatever texts were put into the properties.", "quantifier": "all calendars, property values, clocks, UUIDs and hash-map iteration orders; whenever serializing finishes (C60)", "why_tests_cant": "An attacker chooses the value; all values of all properties have to be considered.", "anchors": ["src/calendar.rs: fmt_write, name", "src/properties.rs: fmt_write", "src/components.rs: url"]}
{"id": "C68", "title": "Presentation does not matter", "statement": "Two files that present the same document in different ways -- CRLF or LF, blank lines between lines, a missing last line break, different folding -- are parsed as the same calendar.", "quantifier": "all well-formed documents and all their presentations", "why_tests_cant": "All placements of blank lines and folds in all documents.", "anchors": ["src/parser.rs: unfold, read_calendar", "src/parser/utils.rs: line, line_separated", "src/parser/components.rs: component"]}
{"id": "C69", "title": "What is written for a property is its content line", "statement": "Serializing a property writes its name, its parameters in some order (quoted exactly if the value has a colon or semicolon), a colon and its value (escaped exactly if its type is TEXT, otherwise verbatim), cut between characters and rejoined with CRLF and a space, and one CRLF; nothing else.", "quantifier": "all properties, all hash-map iteration orders; whenever serializing finishes (C03)", "why_tests_cant": "All properties, parameter orders and fold positions.", "anchors": ["src/properties.rs: Property::fmt_write, fold_line", "src/parser/parsed_string.rs: escape_text"]}
{"id": "C70", "title": "A serialized calendar consists exactly of its parts", "statement": "Serializing a component writes BEGIN, a DTSTAMP line exactly if it has none, its properties in key order, a UID line exactly if it has none, its multi-properties, its sub-components in order and END; serializing a calendar writes BEGIN, its properties in order, its components in order and END; nothing is left out, added or repeated, at any depth.", "quantifier": "all calendars of any nesting depth, clocks, UUIDs and hash-map iteration orders; whenever serializing finishes (C60)", "why_tests_cant": "All calendars of any depth.", "anchors": ["src/components.rs: Component::fmt_write", "src/calendar.rs: Calendar::fmt_write"]}
{"id": "C71", "title": "The reader neither invents nor drops anything", "statement": "Whenever read_component, read_components or read_calendar return a component, the text they consumed is, up to blank lines and the case of BEGIN and END, the line BEGIN with its name, then line by line exactly its properties and sub-components in the order of the text, and the line END with its name; every returned property has the name, the parameters and the value of its line (TEXT values unescaped). For read_components and read_calendar that is the whole text.", "quantifier": "all input texts whatsoever, well-formed or not", "why_tests_cant": "It is a statement about all texts, also malformed ones with blank lines, lines without colon, unbalanced quotes and nesting of any depth; tests only compare a few documents.", "anchors": ["src/parser/components.rs", "src/parser/properties.rs", "src/parser/parameters.rs", "src/parser/utils.rs", "src/parser/mod.rs"]}
{"id": "C72", "title": "Text that is not a calendar is rejected", "statement": "Parsing a text that does not open a component with BEGIN, or that has other text after its component, is an error and does not silently give an empty calendar.", "quantifier": "all texts", "why_tests_cant": "There are infinitely many texts that are no calendars.", "anchors": ["src/parser/components.rs", "src/parser/mod.rs", "src/parser/calendar.rs"]}
{"id": "C73", "title": "find_prop agrees with the converted component", "statement": "Looking a property up with find_prop in a parsed component gives the same property as the component converted from it holds under that name.", "quantifier": "all parsed components and all names of properties that are not repeatable", "why_tests_cant": "It compares two code paths on all components, including those with the same name several times.", "anchors": ["src/parser/components.rs:56", "src/parser/components.rs:134"]}
{"id": "C74", "title": "Dates and times are read exactly as written", "statement": "A property value of the form YYYYMMDD, YYYYMMDDTHHMMSS or YYYYMMDDTHHMMSSZ is read back as exactly that day or time when it exists in the Gregorian calendar, and is rejected when it does not (30 February, 25 o'clock). Whether it is read as a date, a local time, a UTC time or a time in a zone is decided by VALUE, TZID and the final Z alone. from_ymd_hm_tzid accepts exactly the days that exist.", "quantifier": "all properties whose value is such a text, all years, months, days and times of day", "why_tests_cant": "There are millions of dates, including leap days, century years and leap seconds; tests try a handful.", "anchors": ["src/components/date_time.rs", "src/properties.rs", "src/parser/properties.rs"]}
{"id": "C75", "title": "The two readers of dates agree", "statement": "Reading the date of a parsed property directly and reading it from the property converted from it give the same value.", "quantifier": "all parsed properties", "why_tests_cant": "It compares two code paths for all values and all combinations of parameters.", "anchors": ["src/components/date_time.rs", "src/parser/properties.rs"]}
{"id": "C76", "title": "The value type of a property is the one RFC 5545 gives it", "statement": "The value type of a property is the one named by its VALUE parameter and, without one, the default type RFC 5545 assigns to its name; properties unknown to RFC 5545 have none.", "quantifier": "all properties, all names and all parameters", "why_tests_cant": "It is an equivalence with the table of the RFC for all names, including those not in the table.", "anchors": ["src/value_types.rs", "src/properties.rs"]}
{"id": "C77", "title": "Names are recognised in any case", "statement": "Names of components, properties and parameters are case-insensitive: a text written with lower-case names is read like the one with upper-case names.", "quantifier": "all texts", "why_tests_cant": "It relates the readings of infinitely many pairs of texts.", "anchors": ["src/parser/components.rs", "src/parser/properties.rs", "src/parser/parameters.rs", "src/components.rs"]}
{"id": "C78", "title": "The JSON form of a parsed calendar loses nothing", "statement": "With the serde feature, a parsed calendar or component turned into a JSON value and back is the same, different calendars have different JSON, and a JSON value is accepted exactly if it has every field once, in whatever order and among whatever unknown fields (or is the array of the fields); only the value of a parameter may be null or missing.", "quantifier": "all parsed calendars and components of any depth, all JSON values", "why_tests_cant": "It quantifies over all trees and all JSON values, including permuted, missing, duplicated and unknown fields.", "anchors": ["src/parser/calendar.rs:7", "src/parser/components.rs:36", "src/parser/properties.rs:46", "src/parser/parameters.rs:18", "src/parser/parsed_string.rs:6"]}
{"id": "C79", "title": "Lines are not folded earlier than necessary", "statement": "Folding cuts a line after as many characters as fit into a physical line (one less before whitespace), so that every physical line but the last is nearly full: at least 72 octets.", "quantifier": "all lines", "why_tests_cant": "It quantifies over all texts, character widths and positions of whitespace.", "anchors": ["src/properties.rs:388"]}
{"id": "C80", "title": "Every line may end in LF or in CRLF", "statement": "In one and the same file some lines may end in LF and others in CRLF; the file is read as the document it presents, line by line.", "quantifier": "all documents and all choices of line breaks for their lines", "why_tests_cant": "The number of choices is exponential in the number of lines, and the reader looks for CRLF far beyond the current line.", "anchors": ["src/parser/properties.rs:390", "src/parser/utils.rs:48"]}
{"id": "C81", "title": "Parameters that list several values are read", "statement": "A parameter may list several values separated by commas, each of them plain or in quotes (RFC 5545, 3.1); a line with such parameters is read with its name, its value and all its parameters.", "quantifier": "all content lines, all lists of parameter values", "why_tests_cant": "It quantifies over all lists of quoted and plain values in all places of a line; the tests of the project have single values only.", "anchors": ["src/parser/parameters.rs:130", "src/parser/properties.rs:369"]}
{"id": "C82", "title": "Sizes stay proportional", "statement": "What is read is never larger than its text: all characters of names, values and parameters at all levels, the number of properties, parameters and components, and ten times the nesting depth are bounded by the number of characters of the input. What is written for a property is at most four times its content line.", "quantifier": "all input texts, all properties", "why_tests_cant": "It is a bound over all texts, including hostile ones.", "anchors": ["src/parser/components.rs:247", "src/parser/properties.rs:369", "src/parser/parsed_string.rs:38", "src/properties.rs:388"]}
{"id": "C83", "title": "Exactly what a round trip changes", "statement": "Reading what was written for any well-formed calendar gives that calendar with one change to its TEXT values (a backslash before a colon is lost, a backslash with a following n or N becomes a line feed) and with DTSTAMP and UID generated where missing, at any depth; so a calendar that has these survives exactly if no text contains such a sequence, and repeated round trips are stable from the first on exactly if the first result contains none. The reader's unescaping of any text is given exactly, run of backslashes by run of backslashes.", "quantifier": "all texts, all well-formed calendars, all clocks, UUIDs and hash map orders", "why_tests_cant": "It is an equivalence over all calendars, not a list of samples.", "anchors": ["src/parser/parsed_string.rs:38", "src/properties.rs:157", "src/calendar.rs:223", "src/parser/calendar.rs:94"]}
{"id": "C84", "title": "Reading takes time polynomial in the length of the text", "statement": "Reading any text takes a number of steps (characters looked at, parsers tried, components entered) that is at most quadratic in the length of the text, whatever the text contains.", "quantifier": "all texts", "why_tests_cant": "A test measures one text; the inputs that make a backtracking reader explode are rare and hostile.", "anchors": ["src/parser/components.rs:247", "src/parser/components.rs:250", "src/parser/utils.rs:16", "src/parser/utils.rs:48", "src/parser/properties.rs:391"]}
{"id": "C85", "title": "Reading needs a bounded stack", "statement": "The number of nested calls made while reading a text is bounded, so that no text can exhaust the stack of the reading thread.", "quantifier": "all texts", "why_tests_cant": "Whether the stack suffices depends on the nesting of the text, which is unbounded.", "anchors": ["src/parser/components.rs:247", "src/parser/components.rs:252"]}
{"id": "C86", "title": "Writing a property takes time proportional to its length", "statement": "The number of steps (characters looked at) taken to fold the line of a property while it is written is at most proportional to the length of the line.", "quantifier": "all properties, at any time", "why_tests_cant": "A test writes lines of a few lengths; how the cost grows is a statement about all of them.", "anchors": ["src/properties.rs:388", "src/properties.rs:398"]}
{"id": "C87", "title": "Well-formed calendars are read in linear time", "statement": "Reading a well-formed component with CRLF line breaks, folded in any way, takes a number of steps that is at most proportional to the length of the text. In particular this holds for every text that the library writes for a calendar.", "quantifier": "all well-formed texts with CRLF line breaks, all foldings of them; all calendars that can be read back", "why_tests_cant": "How the cost grows with nesting, parameters and folding is a statement about all texts.", "anchors": ["src/parser/components.rs:247", "src/parser/properties.rs:391", "src/parser/parameters.rs:215", "src/parser/utils.rs:16"]}
{"id": "C88", "title": "A component survives its own text form", "statement": "The text of a single well-formed component, parsed as a CalendarComponent, gives the component again, except that a missing DTSTAMP or UID has been generated; this also holds when further lines follow. What print() writes to standard output for a component or a calendar is read exactly like its text.", "quantifier": "all well-formed components and calendars, all clocks, UUIDs and hash map orders, all following texts", "why_tests_cant": "The component and what follows it are arbitrary, and DTSTAMP, UID and parameter order vary from run to run.", "anchors": ["src/components.rs:94", "src/components.rs:127", "src/components.rs:213", "src/calendar.rs:237", "src/parser/components.rs:171"]}
{"id": "C89", "title": "Triggers in properties written by others", "statement": "A property is read as a trigger exactly by its name TRIGGER and its VALUE parameter: without VALUE or with VALUE=DURATION it is a duration, RELATED=START or END says from where it counts and any other RELATED is ignored; with VALUE=DATE-TIME it is the existing UTC or floating time its text names; a bare date, a non-existing time, another name or another VALUE is no trigger.", "quantifier": "all properties, parameters, date and time texts, and durations of whole seconds below 2^32", "why_tests_cant": "The name, parameters and text come from other programs and are arbitrary.", "anchors": ["src/components/alarm.rs:516", "src/components/date_time.rs:24"]}
{"id": "C90", "title": "Error messages point into the text", "statement": "Reading a text gives an error message exactly if it is rejected. The message is a list of places, from the inside outwards, each given by line number, line and column, and all of them are places of the text: a wrong END, a line with BEGIN or END where none can be, or the components around it; for a single component also a missing BEGIN or a place where no line starts; for a property only BEGIN or END at its start.", "quantifier": "all texts", "why_tests_cant": "It characterises the message for every rejected text, with any nesting and any line breaks.", "anchors": ["src/parser/mod.rs:59", "src/parser/components.rs:240", "src/parser/components.rs:247", "src/parser/properties.rs:93", "src/parser/properties.rs:369"]}
{"id": "C91", "title": "Error messages name the line that is wrong", "statement": "If one line of an otherwise well-formed text is the reason why it is rejected, the first place named by the error message is on that line.", "quantifier": "all nested components, all elements before the wrong line and all text after it", "why_tests_cant": "The line may be at any depth, after any number of lines, and anything may follow.", "anchors": ["src/parser/components.rs:247", "src/parser/properties.rs:369", "src/parser/mod.rs:59"]}
{"id": "C92", "title": "Different calendars have different texts", "statement": "Two calendars whose components have DTSTAMP and UID are never serialized to the same text unless they are equal; the same holds for single components (their text also tells their kind) and for single properties.", "quantifier": "all pairs of well-formed calendars, components and properties, any TEXT values (also those the own reader does not recover), all clocks, UUIDs and hash map orders on either side", "why_tests_cant": "It compares all pairs of values, under all orders of their parameters, and includes the texts for which reading back is not lossless.", "anchors": ["src/calendar.rs:223", "src/properties.rs:178", "src/components.rs:94", "src/properties.rs:157"]}
{"id": "C93", "title": "Streams of several calendars are not lost", "statement": "Parsing the texts of several calendars one after the other (a stream as in RFC 5545, section 3.4) gives their contents or an error.", "quantifier": "all sequences of serialized calendars", "why_tests_cant": "The calendars are arbitrary and anything may follow them.", "anchors": ["src/parser/mod.rs:59", "src/parser/components.rs:518", "src/parser/calendar.rs:93"]}
{"id": "C94", "title": "What is read can be written and read again", "statement": "Whatever text a calendar was read from (written by any program), serializing it gives a text that is read as the same calendar: every property, parameter, repeated property and nested component, at any depth, with DTSTAMP and UID generated where they are missing and with TEXT values changed only as described in C83.", "quantifier": "all texts that are read as a calendar, all clocks, UUIDs and hash map orders", "why_tests_cant": "It is about every text the reader accepts, not about the texts of the own writer; the accepted language includes blank lines, lines without values, either line break and any nesting.", "anchors": ["src/parser/calendar.rs:94", "src/parser/components.rs:134", "src/parser/properties.rs:104", "src/calendar.rs:223", "src/properties.rs:178"]}
{"id": "C95", "title": "Typed setters write what RFC 5545 allows", "statement": "After any history of calls of the typed setters of events, to-dos and alarms, every property has a name of the form RFC 5545 gives (letters, digits, dashes) and a value of the form and range RFC 5545 gives for it: DTSTAMP, CREATED, LAST-MODIFIED and COMPLETED are UTC date-times, DTSTART, DTEND and DUE are dates with VALUE=DATE or date-times, PRIORITY is 0 to 9, PERCENT-COMPLETE 0 to 100, SEQUENCE and REPEAT non-negative integers, STATUS one of the states of the component, DURATION and TRIGGER durations, or for TRIGGER a UTC date-time.", "quantifier": "all histories of calls with all arguments", "why_tests_cant": "The arguments range over all dates, integers and durations and the calls over all sequences; a test sees a few of them, and the RFC grammar is checked by no test at all.", "anchors": ["src/components.rs:188", "src/components.rs:257", "src/components.rs:289", "src/components/todo.rs:28", "src/components/alarm.rs:180", "src/components/alarm.rs:543", "src/components/date_time.rs:20"]}
{"id": "C96", "title": "Printing a parsed tree writes what was read and nothing else", "statement": "The text of a parsed component is its BEGIN line, one line per property in order (name, parameters and value as they were read, cut only by CRLF and space), its sub-components in order, and its END line. Only a component called calendar (in upper or lower case letters) gets further lines: DTSTAMP and UID, each if and only if it has none. A parsed calendar gets no further lines.", "quantifier": "all parsed trees of any depth, all clocks and UUIDs", "why_tests_cant": "Trees, names in any letter case, and presence of the two properties are unbounded; the tests print a few fixtures.", "anchors": ["src/parser/components.rs:69", "src/parser/properties.rs:65", "src/parser/calendar.rs:22"]}
{"id": "C97", "title": "Generated UIDs are distinct", "statement": "Every component without UID, at any depth, gets a UID of its own when a calendar is serialized: if no two generated UUIDs are equal, then no two of the UIDs that components have gained after reading the text back are equal.", "quantifier": "all well-formed calendars, all sources of distinct UUIDs", "why_tests_cant": "UUIDs are random; a test cannot tell one UUID per component from one per calendar for all trees.", "anchors": ["src/components.rs:103", "src/components.rs:107"]}
{"id": "C98", "title": "Generated DTSTAMP and UID lines appear only where RFC 5545 allows them", "statement": "Serializing a calendar and reading it back adds DTSTAMP and UID properties only to components for which RFC 5545 has these properties (VEVENT, VTODO, VJOURNAL, VFREEBUSY), never to time zones, their STANDARD and DAYLIGHT parts, or alarms.", "quantifier": "all well-formed calendars of any depth, all clocks and UUIDs", "why_tests_cant": "Which components gain lines depends on all components of the tree; the tests look at events.", "anchors": ["src/components.rs:97", "src/components.rs:106"]}
{"id": "C99", "title": "A calendar can be read, changed and written", "statement": "A calendar read from a text without the odd parts named in C94 can be changed in any way (calendar methods, builder methods on any of its components, removing and replacing components), written and read again: the result is the changed calendar. In particular, calls on one component leave all other components and the calendar's own properties as they were, and of that component exactly the properties that were set get another value; only DTSTAMP and UID are generated where they are missing, and TEXT values change only as described in C83.", "quantifier": "all texts that are read as a calendar without odd parts, all sequences of changes with well-formed arguments, all clocks, UUIDs and hash map orders", "why_tests_cant": "It combines every text the reader accepts with every sequence of calls; the tests either read or build.", "anchors": ["src/calendar.rs:68", "src/calendar.rs:110", "src/components.rs:399", "src/parser/calendar.rs", "src/parser/components.rs"]}
{"id": "C100", "title": "Lists of texts keep their elements", "statement": "A property whose value is a list of texts (CATEGORIES, RESOURCES, parts of REQUEST-STATUS) lists the same texts after a calendar is read and written again. Violated by the code when there are several: the separators are escaped, and the list becomes one text. Proved: the list is kept if and only if it has one element (and C10 does not interfere); a value set by the API is always written as one text, whatever commas and semicolons it contains; lists of other types are written as they were read.", "quantifier": "all TEXT lines that are read, all clocks, UUIDs and hash map orders", "why_tests_cant": "It is an equivalence over all texts and separators; the tests compare only documents without lists.", "anchors": ["src/properties.rs:157", "src/parser/parsed_string.rs:31", "src/value_types.rs"]}
{"id": "C101", "title": "Texts of dates sort in the order of the dates", "statement": "For the years that RFC 5545 can express (0 to 9999), the written texts of two dates, of two UTC times or of two floating times compare, character by character, as the dates or times do, to the second; and they are equal only for the same date or second. Users may thus sort or compare DTSTART, DTEND, DTSTAMP and so on as texts. Outside these years the texts do not sort (shown by example).", "quantifier": "all pairs of valid dates and times in the years 0 to 9999, including leap seconds", "why_tests_cant": "It is about all pairs of dates; the tests format single ones.", "anchors": ["src/components/date_time.rs:7", "src/components/date_time.rs:20", "src/components/date_time.rs:30", "src/components/date_time.rs:97"]}
{"id": "C102", "title": "Events end after they start", "statement": "RFC 5545 (3.8.2.2) asks that the end of an event be of the same type as its start and later. An event given a start and an end has a DTEND of the type, zone and form of its DTSTART and with a later text if and only if the two values are of the same form (two dates, two UTC times, two floating times, or two times in the same zone) and the first is before the second; an all-day event covers its day. Violated by all_day for every date: it writes the same date for both, although the end is exclusive.", "quantifier": "all components, all earlier calls, all pairs of valid values in the years 0 to 9999", "why_tests_cant": "It ranges over all pairs of values of every form; the tests fix the output of all_day for one date without asking whether it covers the day.", "anchors": ["src/components.rs:316", "src/components.rs:324", "src/components.rs:332"]}
{"id": "C103", "title": "The order of lines within a component does not matter", "statement": "Two calendar files are read as the same calendar if they have the same own lines, and their components are, one by one and at every depth, the same up to the order of lines: for each repeatable name the same lines in the same order, for each other name the same last line, and the same sub-components in the same order, mixed with the lines in any way. In particular two neighbouring lines of different names can be swapped, and a line and a sub-component. The same holds for single components. Line breaks, blank lines and folding may differ as well.", "quantifier": "all pairs of well-formed documents that differ in this way, all presentations", "why_tests_cant": "There are as many orders as permutations; the tests read each document in one order.", "anchors": ["src/parser/components.rs:134", "src/parser/components.rs:159", "src/parser/calendar.rs:43"]}
{"id": "C104", "title": "Small changes make small differences", "statement": "Setting a property (other than DTSTAMP and UID) changes the text of a component only in that the line of the property is added or replaces the previous line of that name; adding a repeatable property or a sub-component adds its lines; pushing a component to a calendar inserts its block before the last line, and replacing a component replaces its block. All other octets stay the same, in the same order (given the same clock, UUIDs and parameter orders), so that calendars can be kept under version control and compared as texts.", "quantifier": "all components and calendars, all changes, all clocks and UUIDs, all parameter orders that do not change between the writes", "why_tests_cant": "It compares two texts for every pair of component and change; the tests look at single texts.", "anchors": ["src/components.rs:94", "src/components.rs:399", "src/components.rs:407", "src/components.rs:413", "src/calendar.rs:140", "src/calendar.rs:223"]}
{"id": "C105", "title": "A component is read the same wherever it stands", "statement": "A component of a calendar file is read as the same component as from a file of its own, whatever else the calendar contains and however the two files are laid out; the same for components within components, such as alarms. Pasting, replacing or cutting out the blocks of some components changes neither the calendar's own properties nor how the other components are read, nor their order. So blocks can be copied from file to file.", "quantifier": "all well-formed documents and all components in them at any depth, all presentations", "why_tests_cant": "It relates every component to every context; the tests read fixed files.", "anchors": ["src/parser/components.rs:171", "src/parser/components.rs:247", "src/parser/components.rs:288", "src/parser/calendar.rs:94"]}
{"id": "C106", "title": "Exactly which texts are read as numbers", "statement": "get_sequence, get_percent_complete and get_priority return a number exactly if the stored text consists of decimal digits, at least one, after an optional plus sign, and the number they stand for is in range (32 bits, 8 bits, at most ten); they return nothing for empty texts, signs alone, negative numbers, blanks, fractions and numbers out of range, and never a wrong number.", "quantifier": "all components, all stored texts", "why_tests_cant": "It says what is returned for every text; the tests read numbers that the setters wrote.", "anchors": ["src/components.rs:203", "src/components.rs:262", "src/components/todo.rs:35"]}
{"id": "C107", "title": "Only texts of RFC 5545 are read as dates and times", "statement": "The getters of dates and times return a value only for a text of the form RFC 5545 prescribes (YYYYMMDD, YYYYMMDDTHHMMSS, with a final Z for UTC times). Violated by the code: blanks before the numbers, missing digits and signed years are accepted. Proved: the exact set of texts that are read, by each getter, and as which value; and that texts without blanks and of the prescribed length have the prescribed form.", "quantifier": "all texts, all properties, all components", "why_tests_cant": "It says what is returned for every text; the tests read well-formed texts.", "anchors": ["src/components/date_time.rs:8", "src/components/date_time.rs:81", "src/components/date_time.rs:252", "src/components.rs:171", "src/components/todo.rs:48"]}
{"id": "C108", "title": "Exactly which texts are read, as what, and which are rejected", "statement": "There is an unambiguous grammar of properties, components and calendars such that parsing a text returns a tree if and only if the text stands for that tree, and fails if and only if the text is broken: after some elements of a component there is an END with another name, or a line that starts with END or BEGIN in capitals without ending or starting a component. The grammar says what comes first where a text could be taken in several ways: the longest name, a value up to the next CRLF in all of the remaining text and only otherwise to the next LF, a keyword before a property. A calendar that is not closed, or followed by anything, is read as an empty one.", "quantifier": "all texts, without bound on length or depth, all trees", "why_tests_cant": "It is an equivalence over all texts, in both directions, for acceptance and for rejection; the tests read some dozens of documents.", "anchors": ["src/parser/components.rs:247", "src/parser/properties.rs:369", "src/parser/parameters.rs:130", "src/parser/utils.rs:16", "src/parser/mod.rs:59", "src/parser/calendar.rs:94"]}
{"id": "C109", "title": "Failing writers are reported and have received a beginning of the text", "statement": "Writing a calendar or component, or a parsed calendar, component or property, into any fmt::Write offers the same pieces in the same order whatever the writer does, stops at the first piece the writer refuses, and reports that refusal. The writer then holds a beginning of the text that to_string gives, and the whole of it if and only if success is reported. A fixed-size buffer succeeds if and only if the text fits. Where folding crashes, the writer has refused a piece before or holds complete lines only.", "quantifier": "all calendars, components and parsed trees; all writers, whatever they refuse and when; all clocks, UUIDs and hash orders", "why_tests_cant": "Tests write into Strings, which never refuse anything. The claim is about every writer and every place where it may refuse.", "anchors": ["src/calendar.rs:223", "src/components.rs:94", "src/properties.rs:178", "src/parser/components.rs:69", "src/parser/properties.rs:65", "src/lib.rs:25", "src/calendar/calendar_component.rs:60"]}
{"id": "C110", "title": "Exactly what readers that follow RFC 5545 to the letter recover", "statement": "A text is a sequence of RFC 5545 content lines (section 3.1: unfolding CRLF followed by a space or tab, names, parameters with lists of plain or quoted values, a value) in at most one way. From what is written for a property, component or calendar, a reader of these lines recovers every name, every parameter with its one value, every value (TEXT unescaped) and the nesting, if and only if each property is made of characters RFC 5545 has a place for: names of letters, digits and dashes, no quotes or control characters in parameters, no comma in a parameter without a colon or semicolon, no control characters in values except line feeds in TEXT; component names must be names.", "quantifier": "all properties, components and calendars, at any depth; all clocks, UUIDs and hash orders; all texts for uniqueness", "why_tests_cant": "Tests read back with the library itself, which is more lenient than RFC 5545. The claim is about every conforming reader and covers every combination of characters in names, parameters and values.", "anchors": ["src/properties.rs:165", "src/properties.rs:178", "src/components.rs:94", "src/calendar.rs:223", "src/lib.rs:25", "src/value_types.rs:7"]}
{"id": "C111", "title": "Durations are written exactly", "statement": "The text written for a duration (trigger of an alarm, duration between its repetitions, time to live of a calendar) is P0D for the empty one, else PT, the whole seconds, a decimal fraction of one to nine digits without trailing zeros if there is one, and S, after a minus sign if it is negative. The text determines the duration to the nanosecond: different durations are written differently. It is a duration of RFC 5545 if and only if it is of whole seconds.", "quantifier": "all durations (any number of nanoseconds of either sign), all uses of them", "why_tests_cant": "Tests write a few whole durations. The claim covers all of them, including fractions with leading and trailing zeros, where figures are easily lost.", "anchors": ["src/components/alarm.rs:543", "src/properties.rs:355", "src/calendar.rs:187", "src/components/alarm.rs:516"]}
{"id": "C112", "title": "Every document of RFC 5545 is read, as what it says", "statement": "A text that is, after unfolding CRLF followed by a space or tab, a VCALENDAR of RFC 5545 content lines and nested components is read as a calendar: its own lines become the properties of the calendar one by one, its components those of the calendar, in order and of the right kinds, each with the lines it contains (of each name the last one, or all if the name is repeatable).", "quantifier": "all documents of the RFC 5545 grammar of content lines and components: all names, parameters, values, nesting depths and ways of folding", "why_tests_cant": "Tests read a handful of sample files. The claim is about every document another program may write by the book.", "anchors": ["src/parser/mod.rs:59", "src/parser/components.rs:247", "src/parser/properties.rs:369", "src/parser/parameters.rs:130", "src/parser/utils.rs:82", "src/calendar/calendar_component.rs:60"]}
{"id": "C113", "title": "Reading and writing again does not amplify", "statement": "What is written for a component or a calendar takes at most the room of its parts: for each component twice its name and 85 characters, for each property four times its line and two characters. A calendar that was read from a text of n characters is written with at most 16 n + 32 characters.", "quantifier": "all calendars and components at any depth, all texts that can be read, all clock readings, all identifiers of 36 characters, all hash orders", "why_tests_cant": "It is a bound over all inputs, including hostile ones chosen to make a service that normalises calendars run out of memory.", "anchors": ["src/components.rs:94", "src/calendar.rs:223", "src/properties.rs:177", "src/parser/calendar.rs:94", "src/parser/components.rs:134"]}
{"id": "C114", "title": "Which arguments of builder calls other programs understand", "statement": "A program that reads by RFC 5545 recovers from the written text exactly the component or calendar that was built if the calls were given texts without control characters other than line feeds, single-line values without control characters, and parameter values (time zone ids, venue uids) without quotes, control characters and commas (unless there is a colon or semicolon). Numbers, times, durations, statuses, classes and triggers can be any. For a single call and for all histories of calendar calls the condition is also necessary; last_modified is never understood, because it writes LAST_MODIFIED. Properties that are replaced by later calls do not matter.", "quantifier": "all histories of builder calls of components, events, todos, venues, alarms and calendars, all arguments, all worlds", "why_tests_cant": "Tests read back with the library itself, on a few values. Which arguments survive in programs that implement the RFC is a statement about all of them and about another reader.", "anchors": ["src/components.rs:122", "src/components.rs:289", "src/components/event.rs:23", "src/components/todo.rs:28", "src/components/venue.rs:20", "src/components/alarm.rs:100", "src/calendar.rs:147", "src/components/date_time.rs:200"]}
{"id": "C115", "title": "A property's own text is read back as the property", "statement": "p.to_string().parse() gives back p for every property with a legal ASCII name that does not start with BEGIN or END, legal parameters, and a value that the escaping preserves. (Not so: Property::from_str does not unfold. What it gives is classified exactly: the property itself if the line was not folded; otherwise the value cut off at the first fold, possibly with a backslash more, or only a beginning of the name, or a line break in a parameter value; it never fails.)", "quantifier": "all properties with legal names, parameters and values, all worlds", "why_tests_cant": "Unit tests parse short lines. Where the fold falls depends on the lengths and escapes of name, parameters and value; that every long property is silently cut, except for two corner cases, is a statement about all of them.", "anchors": ["src/parser/properties.rs:121", "src/properties.rs:178", "src/parser/utils.rs:82"]}
{"id": "C116", "title": "Folded documents given to the readers that do not unfold are noticed", "statement": "If a document obeys the folding rules and is given to read_calendar, read_calendar_simple or read_component without unfolding it, an error is reported, as the documentation of the module suggests. (Not so: documents without folds are read the same either way, and a folded line whose rest has no colon after a name is rejected inside nested components; but a rest that looks like a content line is read as a property of its own, so the text of a description can add properties or merge events; and after a fold in the root component read_calendar gives an empty calendar.)", "quantifier": "all documents: any opened components with any content, any rest of a folded line and any text after it", "why_tests_cant": "What happens depends on where the fold falls in the text and what the rest of the line looks like. Tests of folded documents unfold them first.", "anchors": ["src/parser/mod.rs:15", "src/parser/mod.rs:58", "src/parser/components.rs:247", "src/parser/properties.rs:369"]}
{"id": "C117", "title": "Time zones a calendar refers to are defined in it", "statement": "For every TZID parameter in a calendar built with the library there is a VTIMEZONE component with that TZID in the calendar (RFC 5545, 3.2.19: one MUST be specified; the documentation of CalendarDateTime::WithTimezone says the id is that of a definition in a VTIMEZONE). (Not so: the library never adds one, so every event with a zoned time in a calendar to which no definition was added by hand violates it. What a component refers to is exactly what the surviving setters, appended properties and added components mention; writing and reading back changes neither references nor definitions.)", "quantifier": "all calendars, all histories of builder calls on events, to-dos and other components, all zones, all worlds", "why_tests_cant": "Tests look at the DTSTART line of one event. That no history of calls can produce the definition, and that rewriting never loses or invents a reference at any depth, are statements about all histories and calendars.", "anchors": ["src/components/date_time.rs:61", "src/components/date_time.rs:97", "src/components.rs:316", "src/calendar.rs:140"]}
{"id": "C118", "title": "Exactly which properties survive being written and read", "statement": "A property written by Property::fmt_write and read back (unfold, parser::property, conversion) is the property it was if and only if: its name and the names of its parameters consist of name characters and the property name does not start with END or BEGIN; a TEXT value has no backslash before a colon, n or N and any other value no CR LF; and the written text is, after unfolding, its content line with values of parameters that can be told: one with a colon or semicolon has no quote, any other one that starts with exactly one quote is followed by no further quote in the line. For lines of at most 75 octets the last condition about unfolding says that nothing in the line looks like a fold; if no value starts with a quote, the order of the parameters does not matter.", "quantifier": "all properties (any key, value and parameter map), all iteration orders of the parameters", "why_tests_cant": "Which properties are NOT read back as they were is a statement about every property outside the condition: parameters that are read as others, swallowed quotes, lost backslashes and joined lines could compensate each other, and only a proof over all texts shows they never do.", "anchors": ["src/properties.rs:178", "src/parser/properties.rs:369", "src/parser/parameters.rs:130", "src/parser/parsed_string.rs:38", "src/parser/utils.rs:82"]}
{"id": "C119", "title": "Exactly which calendars survive being written and read", "statement": "A calendar in which no property without parameters is called begin or end (in any case) is, when serialized and read back, the calendar it was if and only if all of the following hold. Names: all names consist of name characters and no property name starts with END or BEGIN. Storage: properties are stored under their own name and as repeatable ones exactly if they are, no repeatable property has an empty list, and a generic component does not have the name of a typed one. Values: TEXT values have no backslash before a colon, n or N, and other values have no CR LF. Stamps: every component at any depth has DTSTAMP and UID. Text: the output with the folding taken back is the content lines of the calendar in order (so no value looks like a folded line), and in it no parameter value with a colon or semicolon has a quote, and one that starts with a quote, but not with two, is followed by no other quote in the whole output. For calendars in which no parameter value starts with a quote and nothing looks like a folded line, the last condition is just that parameter values with a colon or semicolon have no quote; whatever text such a calendar was read from, it meets the conditions on names and storage. The same holds for the text of a single component.", "quantifier": "all calendars of any depth without a parameterless property called begin or end, all texts they are read from, all clocks, UUIDs and hash map orders", "why_tests_cant": "That every calendar outside the condition comes back changed is a claim about all of them: a quote in one property can swallow lines of another component, a dropped or moved property in one place could be made up by another, and only a proof over all nestings excludes it.", "anchors": ["src/calendar.rs:223", "src/parser/calendar.rs:94", "src/components.rs:120", "src/parser/components.rs:134", "src/parser/properties.rs:104"]}
{"id": "C120", "title": "Exactly what the error message for a rejected text says", "statement": "A calendar text is rejected with a message if and only if, after line breaks, it is a component in which reading fails, and the message lists exactly: for an END with another name, the place behind that END: twice; for a word END or BEGIN in capitals where an element is expected, that word, then three times the text from the white space before it; and for each component around it, innermost first, where it starts. A component text is rejected in addition with the place where BEGIN is missing, or with the place where no further element is found. Each place is shown with its line number, its line and a caret. Line numbers count lines of the unfolded text: in the file the place is as many lines further down as there are folds before it.", "quantifier": "all texts (all Unicode strings), all nestings", "why_tests_cant": "The message depends on everything before the place that is wrong, at any depth; that no other message is ever given and that nothing is missing is a claim about all texts.", "anchors": ["src/parser/components.rs:247", "src/parser/properties.rs:369", "src/parser/mod.rs:59", "src/parser/calendar.rs:97"]}
{"id": "C121", "title": "Exactly which texts are read as a parameter", "statement": "Parameter::try_from reads a parameter from a text if and only if the text starts with the text of that parameter: a semicolon, blanks, a name of name characters, and nothing, or an equals sign with no value, a value in quotes, or a value up to the next colon or semicolon; what comes behind is dropped. A text is rejected if and only if it does not start with a semicolon, and the message shows its beginning. A parameter as it is written into a property is read back unchanged if and only if its name consists of name characters and quotes in its value cannot be mistaken for quotes around it.", "quantifier": "all texts (all Unicode strings), all parameter names and values", "why_tests_cant": "The tests read eight fixed parameters; which of all texts are read, as what, and what is silently dropped is a statement about all strings.", "anchors": ["src/parser/parameters.rs:34", "src/parser/parameters.rs:130", "src/parser/parameters.rs:136", "src/parser/parameters.rs:159"]}
{"id": "C122", "title": "The simple reader fails where the detailed reader says", "statement": "read_calendar_simple returns the components read_components returns, and an error for the same texts. The error is the innermost place of what the detailed reader reports: its input is the rest of the text from that place on and its code says what was expected there. It is either what follows an END: that names another component (Tag), or a text starting with END or BEGIN where a property should be (Satisfy), and the detailed message begins with the line and column of that place and the same code.", "quantifier": "all texts (all Unicode strings)", "why_tests_cant": "The tests never look at an error of the simple reader. That two readers built from the same generic parsers with different error types agree on which errors there are and where, is a statement about all texts and all nestings.", "anchors": ["src/parser/mod.rs:50", "src/parser/mod.rs:94", "src/parser/components.rs:247", "src/parser/utils.rs:16"]}
{"id": "C123", "title": "Enumerated values are recognised in any letter case", "statement": "Values of CLASS, STATUS, VALUE and RELATED are case-insensitive (RFC 5545, section 2): a component or property whose value is the name of a variant in any letter case is read as that variant by get_class, get_status, value_type, get_start/get_end/get_due and Trigger::try_from.", "quantifier": "all components and properties, all texts that are a name up to letter case", "why_tests_cant": "Every test writes the names in capitals. In which of the letter cases of every name each reader recognises it, and what it reads otherwise, is a statement about all of them.", "anchors": ["src/properties.rs:219", "src/properties.rs:257", "src/properties.rs:283", "src/value_types.rs:118", "src/components/alarm.rs:516", "src/components/date_time.rs:252"]}
{"id": "C124", "title": "Blanks and byte order marks around a calendar do not matter", "statement": "The text of a calendar with a byte order mark, white space or blank lines before it, or white space, blank lines or an end-of-file character after it, is read by Calendar::from_str as the calendar.", "quantifier": "all writable calendars, all texts before them without the letter b, all texts after them", "why_tests_cant": "The fixtures start with BEGIN and end with END; which texts around a calendar change what is read is a question about all of them.", "anchors": ["src/parser/components.rs:515", "src/parser/components.rs:247", "src/parser/mod.rs:59", "src/parser/utils.rs:16"]}
{"id": "C125", "title": "A content line is read by itself", "statement": "What Property::from_str reads from a text that starts with a content line and a line break depends only on that line, not on the text after the line break.", "quantifier": "all lines without CR or LF, all texts after them", "why_tests_cant": "The tests read single properties, or well-formed lines one after another; which lines take in text from the lines after them is a question about all lines and all texts after them.", "anchors": ["src/parser/parameters.rs:130", "src/parser/parameters.rs:172", "src/parser/properties.rs:121", "src/parser/properties.rs:369"]}
{"id": "C126", "title": "Unfolding can be repeated", "statement": "Unfolding a text that has been unfolded changes nothing, so a text given to Calendar::from_str is read the same whether or not it went through parser::unfold before.", "quantifier": "all texts", "why_tests_cant": "The tests unfold each text once; whether removing fold markers can leave new ones is a question about all texts.", "anchors": ["src/parser/utils.rs:82", "src/parser/calendar.rs:97"]}
{"id": "C127", "title": "A calendar survives its JSON text", "statement": "What serde_json::to_string or serde_json::to_string_pretty writes for a calendar from the parser, serde_json::from_str reads back as the same calendar; so does any other JSON text of the same value, whatever its white space, the spelling of its characters, the order of its fields and its unknown fields; a text that is not JSON (RFC 8259) is rejected. Different calendars have different texts, and the text of serde_json::to_string is one line.", "quantifier": "all parsed calendars and all texts", "why_tests_cant": "No test reads JSON; whether every text, control characters and characters outside the basic plane included, survives escaping, and how deep components may be nested before the reader gives up, are questions about all calendars.", "anchors": ["examples/ical_to_json.rs:13", "examples/json_to_ical.rs:7", "src/parser/calendar.rs:8", "src/parser/components.rs:37", "src/parser/properties.rs:47", "src/parser/parameters.rs:19", "src/parser/parsed_string.rs:7"]}
{"id": "C128", "title": "UIDs stay apart and references to venues can be followed", "statement": "After a calendar was written and read back, two components have the same UID only if they had the same UID before, and a venue that an event refers to with venue() is still found by its UID if it was before.", "quantifier": "all well-formed calendars, all clocks, UUIDs and hash map orders", "why_tests_cant": "A UID is written as an escaped text and a reference to it as a quoted parameter; whether the two always stay equal, and different UIDs different, depends on the text.", "anchors": ["src/components.rs:247", "src/components.rs:339", "src/properties.rs:157", "src/parser/parsed_string.rs:38"]}
{"id": "C129", "title": "Properties occur as often as RFC 5545 requires and allows", "statement": "What is written for an event, a to-do or a calendar made by the builder has the properties RFC 5545 requires (DTSTAMP, UID and DTSTART of an event, DTSTAMP and UID of a to-do, VERSION, PRODID and a component of a calendar), none of those that may occur once more often, and not both of a pair that excludes each other (DTEND or DUE with DURATION).", "quantifier": "all histories of builder calls with all arguments, all clocks, UUIDs and hash map orders; whenever serializing finishes (C60)", "why_tests_cant": "What is written depends on the whole history of calls, of which any may set, replace or repeat a property.", "anchors": ["src/components.rs:94", "src/components.rs:399", "src/components.rs:413", "src/calendar.rs:86", "src/components/event.rs:10"]}
{"id": "C130", "title": "A file has one reading", "statement": "No text can be taken for two different sequences of lines and components, and no file is a folded form of two different documents or of one with CRLF and one with LF line breaks. What from_str returns for a well-formed calendar file is therefore what any other program must find in it, whatever kinds of names, parameters, quoting and nesting occur.", "quantifier": "all texts, all ways to fold them, both kinds of line breaks, all properties, parameters and components nested to any depth", "why_tests_cant": "A test can show one reading of one file; that no second one exists for any file is a statement about all pairs of documents.", "anchors": ["src/parser/components.rs:247", "src/parser/properties.rs:369", "src/parser/parameters.rs:215", "src/parser/utils.rs:82", "src/parser/calendar.rs:97"]}
{"id": "C131", "title": "Editing lines of a file changes only the properties of these names", "statement": "If lines of some names are added, removed or replaced in one component of a file, at any depth, then what is read changes only in the properties of these names of that component: all other properties, single or repeated, of this and of all other components, the components, their kinds and their order stay the same; among the calendar's own properties exactly the ones at that place change. So files can be edited line by line with tools that know nothing of calendars.", "quantifier": "all pairs of well-formed documents that differ in this way, all names, all depths, all presentations (line breaks, blank lines, folding)", "why_tests_cant": "It relates two runs on files of which everything but the edited lines is arbitrary.", "anchors": ["src/parser/components.rs:134", "src/parser/components.rs:247", "src/parser/calendar.rs:43", "src/components.rs:24"]}
{"id": "C132", "title": "Writing a calendar takes time at most quadratic in its size", "statement": "The number of steps taken to write a calendar (octets of lines that are written, characters looked at while properties are folded) is at most proportional to the octets written times the room of the longest property, and so at most quadratic in the octets written; every octet written is counted. Reading a text whose components are opened in upper case letters and writing the calendar again takes a number of steps at most quadratic in the length of the text, so a service that reads and writes calendars of others cannot be kept busy for long by a small one.", "quantifier": "all calendars at any depth, all texts that can be read, all clock readings, identifiers and hash orders; whenever serializing finishes (C60)", "why_tests_cant": "A time bound holds for all sizes; a test measures some.", "anchors": ["src/properties.rs:388", "src/components.rs:94", "src/calendar.rs:223", "src/parser/components.rs:247"]}
{"id": "C133", "title": "The getters return what the lines of a file say", "statement": "For a calendar read from a well-formed file, however it is folded and whatever blank lines and line breaks it has, each getter of each event, to-do, venue or other component returns what the last line of its name directly inside that component says, and nothing without such a line: a text with its escapes undone (apart from the doubly read ones of C10), an address as it is, a number if it is one in range, a class or status if it is one of the RFC's, a day or a time exactly if it exists, of the kind VALUE, TZID and the final Z ask for. The same holds for components inside components, at any depth, and for the triggers of alarms (a number of seconds from the start or the end, or an existing time). The name, description and time zone of the calendar are those of the first line of the name, or else of the first X-WR line.", "quantifier": "all well-formed files of any size, depth, folding and layout; all getters of calendars, events, to-dos, venues and other components", "why_tests_cant": "It is a statement about every file other programs may write; a test reads some files.", "anchors": ["src/components.rs:80", "src/components/event.rs:28", "src/components/todo.rs:35", "src/components/venue.rs", "src/calendar.rs:154", "src/parser/mod.rs"]}
{"id": "C134", "title": "Calendars can be merged, filtered and split", "statement": "A calendar put together from components of calendars that were read (any selection, any order, any number of files), with the properties of one of them or the default ones, is written as a text that is read as exactly this calendar: nothing is lost, added or mixed up. Appending the calendar of one well-formed file to that of another gives the calendar that is read from the file in which the components of the one have been inserted after those of the other, whatever presentation the files have. Writing each component of a calendar to a file of its own, reading all these files and appending the calendars gives the calendar back.", "quantifier": "all numbers of files, all texts read without the odd parts of C94, all selections and orders, all clocks, UUIDs and hash map orders", "why_tests_cant": "It is about every combination of files and every selection of their components; a test merges two.", "anchors": ["src/calendar.rs:110", "src/calendar.rs:130", "src/calendar.rs:223", "src/parser/calendar.rs:94"]}
{"id": "C135", "title": "Error messages are at most proportional to the text", "statement": "The error message for a text that is rejected, by the calendar, component or property reader, has at most 24 octets for each octet of the text and 380 more, however deep the components are nested at the place of the error and however long the lines are: although each component around the error quotes a line of the text, the message never quotes the text over and over. What the error of the simple reader shows is at most 18 octets longer than the text.", "quantifier": "all rejected texts of less than 10^19 octets (every string of a program), all classifications of characters", "why_tests_cant": "A message that grows with the square of the text is only seen for texts that are nested and long at once, and no test shows that there is no such text.", "anchors": ["src/parser/mod.rs:59", "src/parser/components.rs:240", "src/parser/components.rs:247", "src/parser/properties.rs:93", "src/parser/calendar.rs:97"]}
{"id": "C136", "title": "A calendar survives the programs its file passes through", "statement": "A calendar is written, and then any number of programs work on the file in turn: each replaces it by a file that says the same, or reads it with this library and writes it again. A file says the same if the lines within components are reordered without changing what is said for a name, or if the parameters of lines are in another order or quoted differently, TEXT is escaped differently and keywords are in other letters, in any layout: folded anywhere, with CRLF or LF line breaks, with blank lines. Whatever file comes out at the end, parsing it gives exactly the calendar that was written at first. Two files that say the same line by line are always read as the same calendar.", "quantifier": "all calendars that can be written and read back (see C01), all files, all chains of such steps of any length, all clocks, UUIDs and hash map orders, all classifications of characters", "why_tests_cant": "There are unboundedly many chains of programs and layouts; a difference only appears for a particular combination of spelling and order.", "anchors": ["src/parser/calendar.rs:94", "src/parser/properties.rs:42", "src/parser/properties.rs:104", "src/parser/parameters.rs:45", "src/parser/utils.rs:82"]}
{"id": "C137", "title": "The line breaks of calendar files can be converted", "statement": "If no line of a calendar file has a CR or LF in it, then replacing every CRLF of the file by LF (dos2unix), wherever the file is folded, gives a file with LF line breaks that presents the same document and is read as the same calendar; and replacing every LF of a file with LF line breaks by CRLF (unix2dos) gives one with CRLF line breaks that is read as the same calendar. A written calendar is read unchanged from the converted file, and from the file converted back, if no value or parameter has a CR and only TEXT values have a LF.", "quantifier": "all documents of which the lines have no CR or LF, all files that present them with any folding and blank lines; all calendars that can be written and read back without CR, and LF only in TEXT", "why_tests_cant": "Folding may put a line break between any two characters, even within another line break, and the conversion changes all of them at once.", "anchors": ["src/parser/calendar.rs:94", "src/parser/utils.rs:82", "src/parser/components.rs:240", "src/properties.rs:178"]}
{"id": "C138", "title": "Programs that work on octets see the same lines", "statement": "A program that handles calendar files as octets (UTF-8) without decoding them first sees the same structure: cutting the octets of any text at CRLF gives exactly the octets of its physical lines, so every physical line is valid UTF-8 by itself, and unfolding the octets gives the octets of the unfolded text. For a written property these are the octets of its content line, in physical lines of at most 75 octets, the last at most 76. Octets that another program folded inside of a character are not valid UTF-8 and so never reach the reader as a different text; once the octets are unfolded first they are the text again, and a written calendar whose octets were folded again anywhere is read unchanged from it.", "quantifier": "all texts; all characters and all places inside of them; all octet foldings of texts without fold markers; all properties and calendars that can be written and read back (see C12, C25)", "why_tests_cant": "Whether an octet of a line break may be part of another character depends on all of Unicode, and folds may be at any octet.", "anchors": ["src/properties.rs:388", "src/parser/utils.rs:82", "src/parser/calendar.rs:94", "fixtures/icalendar-rb-bad-utf8/README.md"]}
{"id": "C139", "title": "Files folded inside of characters are still read after lossy decoding", "statement": "Some programs fold by octets and cut characters in two; such a file is not valid UTF-8, and the way to read it is to decode it lossily (String::from_utf8_lossy), as the tests of the library do. If the octets of a file that presents a calendar with names in ASCII were folded again anywhere, also inside of characters, the decoded text is always read, as the same calendar: the same components, properties and parameters in the same order, of the same kinds and value types, with the same values except that some characters are damaged. A damaged character is one that is not in ASCII and became two or more U+FFFD, not more than it has octets; there are at most as many damaged characters as folds. Values in ASCII, such as dates, numbers and identifiers, are never changed, no value becomes empty, and no character in ASCII appears in a value or disappears from it. In particular this holds for every written calendar. Text that was not cut is decoded to itself.", "quantifier": "all files that present documents with names in ASCII, all foldings of their octets, with CRLF or LF; all calendars that can be written and read back (see C12) with names in ASCII; all octet sequences for the decoding; all classifications of characters", "why_tests_cant": "Folds may be at any octet of any file; a test reads one fixture with one damaged character and only checks that it is accepted.", "anchors": ["tests/parse_fixtures.rs:67", "fixtures/icalendar-rb-bad-utf8/README.md", "src/parser/calendar.rs:94", "src/parser/utils.rs:82", "src/parser/parameters.rs:45"]}
{"id": "C140", "title": "Converting a file to another character set leaves the calendar intact", "statement": "Programs that convert files to another character set replace characters that are not in ASCII: by a question mark, or by a transliteration such as ae for a with diaeresis. Take any replacement that keeps ASCII and turns every other character into one or more characters, none of which is a quotation mark, backslash, colon, semicolon, CR or LF. If a file presents a calendar whose names and VALUE parameters are in ASCII, then the converted file is read as the same calendar, with the same components, properties and parameters in the same order and of the same kinds, in which every value is the converted value. The only conditions are that no replacement puts a space or tab directly after a line feed of the file, and none puts a comma, n or N directly after a backslash of the unfolded file; replacements that never start with these characters, such as the question mark, always fulfil them. Unfolding and unescaping can be exchanged with the replacement. In particular this holds for every written calendar.", "quantifier": "all replacements of characters, all files that present documents with names and types in ASCII, with CRLF or LF, folded anywhere; all calendars that can be written and read back (see C12) with names and types in ASCII; all classifications of characters", "why_tests_cant": "There is no end of replacements and of texts; a single character after a backslash or a line break makes the difference.", "anchors": ["src/parser/utils.rs:82", "src/parser/properties.rs:390", "src/parser/parameters.rs:144", "src/parser/parsed_string.rs:38", "src/parser/calendar.rs:94"]}
{"id": "C141", "title": "Removing the blanks at the ends of lines does no harm to a calendar file", "statement": "Editors and tools remove spaces and tabs at the ends of lines when they save a file. A calendar file stays the same calendar when that happens: as long as no line consists of blanks only, and none ends in a backslash or a lone CR followed by blanks, and no parameter value starts with a blank, the file without the blanks at its line ends is read as the same calendar, with the same components, properties and parameters, and with the same values.", "quantifier": "all files that present documents, with CRLF or LF, folded anywhere; all calendars that can be written and read back (see C12); all classifications of characters", "why_tests_cant": "Whether a blank stands at the end of a line depends on where the octets of a text happen to reach the limit for folding; only some texts are affected.", "anchors": ["src/properties.rs:388", "src/parser/utils.rs:82", "src/parser/properties.rs:390", "src/parser/calendar.rs:94"]}
{"id": "C142", "title": "Merging two changes of a calendar file line by line merges the calendars", "statement": "Two people change copies of a calendar file, and a program that knows nothing of calendars merges the changes line by line, as version control does. If stretches of lines and of whole components, at any depth, are changed by one of them each (or by both in the same way), and within one component no two stretches with lines of the same name are changed by different people, then the merged file is a calendar file, and what is read from it is the merge of what is read from the other files: every property of every component and every component has the value it has for the one who changed it. The condition on names is needed: if both add a line of the same name in different places of a component, for a name that is not repeatable, then the merge keeps both lines without a conflict but only the later one is read.", "quantifier": "all documents and all changes of this kind; all files that present them, with CRLF or LF, folded anywhere; all classifications of characters", "why_tests_cant": "There are arbitrarily many ways to change two copies of a file; a test merges a few of them.", "anchors": ["src/parser/components.rs:134", "src/parser/calendar.rs:43", "src/components.rs:24"]}
{"id": "C143", "title": "Searching a calendar file for a word finds the values that contain it", "statement": "A program searches calendar files for a word, without knowing their format. For words without backslashes, commas, semicolons, colons and line feeds: the word stands in the value of a property of the calendar, or of a component at any depth, exactly if it is found behind the name and the parameters in the line of that property, in the unfolded file and in the file as it is.", "quantifier": "all calendars whose properties are written as one line each and that can be written; all such words; all worlds (clock, UUIDs, orders of hash maps) and classifications of characters", "why_tests_cant": "Whether a word is found depends on where lines are folded and on what stands before the word; a test tries a few words in a few calendars.", "anchors": ["src/properties.rs:157", "src/properties.rs:178", "src/properties.rs:388", "src/components.rs:94"]}
{"id": "C144", "title": "Removing the lines of a property from a file removes the property", "statement": "A program removes from a calendar file every line that starts with the name of a property (followed by a colon or a semicolon), without knowing the format, as when descriptions are to be kept private. Then the file is read as the same calendar without the properties of this name, in the calendar and in the components at any depth: nothing of the removed values is left and nothing else is changed.", "quantifier": "all names; all files that present a document whose values have no line breaks; all calendars that can be written and are read back; all worlds (clock, UUIDs, orders of hash maps) and classifications of characters", "why_tests_cant": "Whether a value is removed depends on where its line is folded, hence on the number of octets before every character; a test tries a few short values.", "anchors": ["src/properties.rs:157", "src/properties.rs:388", "src/parser/utils.rs:82", "src/components.rs:94"]}
{"id": "C145", "title": "Counting the lines that begin components counts the components", "statement": "A program that only looks for lines that start with BEGIN: or END:, in any letter case, sees exactly the beginnings and ends of the calendar and of its components at any depth, with their names and in their order: in a written file as it is, without unfolding, and in a file of others after unfolding. So the number of lines BEGIN:VEVENT is the number of events, whatever the values say and wherever lines are folded.", "quantifier": "all calendars that can be written and whose properties are written as one line each; all files that present a document whose values have no line breaks; all names; all worlds (clock, UUIDs, orders of hash maps) and classifications of characters", "why_tests_cant": "A value may have the text of such a line at any place, and where the line is folded depends on the number of octets before it; a test tries a few values.", "anchors": ["src/properties.rs:157", "src/properties.rs:388", "src/parser/utils.rs:82", "src/components.rs:94"]}
{"id": "C146", "title": "Looking for the lines of a name finds the properties of this name", "statement": "A program looks, without unfolding the file, for the lines that start with the name of a property and a colon or semicolon, to list for example all UIDs or titles. It finds exactly one line for each property of this name, in the calendar and in the components at any depth and in their order, each line is the whole content line of the property, and it finds nothing else.", "quantifier": "all names; all calendars that can be written and whose properties are written as one line each; all worlds (clock, UUIDs, orders of hash maps) and classifications of characters", "why_tests_cant": "Whether a line is found, and how much of it, depends on where it is folded, which depends on all octets before and on white space in the value; a test tries a few values.", "anchors": ["src/properties.rs:178", "src/properties.rs:388", "src/properties.rs:408", "src/components.rs:94"]}
{"id": "C147", "title": "Filtering the components of a file line by line filters the calendar", "statement": "A program copies the file of a calendar line by line, without unfolding it, and leaves out some of the components of the calendar: it holds lines back from a line that starts with BEGIN: to the line that starts with END: at the same depth, and copies them or not, whatever it decides by. What it writes is a text written for the calendar with the same properties and the components that were copied, in their order, and is read as exactly this calendar. So files can be split and filtered with tools that know nothing of folding, properties and values.", "quantifier": "all calendars that can be written and whose properties are written as one line each (for reading: that are read back unchanged); all ways to decide by the text of a component; all worlds (clock, UUIDs, orders of hash maps) and classifications of characters", "why_tests_cant": "Values can have the text of lines that begin or end components at any place, lines can be folded anywhere, and components are nested to any depth; a test tries a few files.", "anchors": ["src/calendar.rs:223", "src/components.rs:94", "src/properties.rs:178", "src/properties.rs:388"]}
{"id": "C148", "title": "Filtering the components of a file of others line by line filters what is read", "statement": "A program unfolds the file of another program and copies it line by line without some of the components of the calendar; it only knows that components start with a line BEGIN: and end with a line END:, in any letter case. From what it writes the calendar is read that is read from the file, with the same properties, also those between and after components, and with exactly the components that were copied, in order. What it decides by is the text of a component: put in a calendar alone it is read as this component alone. The file need not be unfolded either, if no line that begins or ends a component is continued on the next line and no other line is continued within its first six characters.", "quantifier": "all documents whose lines are not broken, with CRLF or LF line breaks, all files that present them (blank lines, letter case of BEGIN and END, folding, the last line break missing); all ways to decide by the text of a component; all classifications of characters", "why_tests_cant": "Files of others are arranged and folded in infinitely many ways, components are nested to any depth, and values can have the text of any line; a test tries a few files.", "anchors": ["src/parser/mod.rs:59", "src/parser/components.rs:117", "src/parser/components.rs:240", "src/calendar.rs:223"]}
{"id": "C149", "title": "A component can be taken out of a file by a line of it", "statement": "A program copies the file of a calendar without the components among whose lines is a given one, such as UID: and the UID of an event, or copies only these; it compares whole lines and knows nothing but the lines that begin and end components. From what it writes exactly the calendar is read without (or with only) the components that have this property, themselves or in a component inside of them: no other value, however similar, no part of a longer text and no other property is mistaken for the line, and none is missed.", "quantifier": "all calendars that are read back unchanged, whose properties are written as one line each and whose lines of the given name have at most 75 octets; all names and values; all worlds (clock, UUIDs, orders of hash maps) and classifications of characters", "why_tests_cant": "Any other line of any component, and any part of a folded line, could be equal to the line; a test tries a few calendars.", "anchors": ["src/calendar.rs:223", "src/components.rs:94", "src/properties.rs:178", "src/properties.rs:388"]}
{"id": "C150", "title": "Files can be put together from parts of files", "statement": "A program takes files of calendars apart, line by line and without unfolding them: the head, which is the first line and those before the next line that begins or ends a component, and the text of each component from its line BEGIN: to its line END:. A file consists of its head, one text for each component of its calendar, and its last line. From a file that is put together from the head of a file, texts of components of this and of other files, in any order and any number, and the last line, the calendar is read that has the properties of the head and exactly the components whose texts were used, in this order. So files can be sorted, merged, split and deduplicated with tools for lines.", "quantifier": "all calendars that are read back unchanged and whose properties are written as one line each, and any number of files of them; all choices and orders of the texts of components; all worlds (clock, UUIDs, orders of hash maps) and classifications of characters", "why_tests_cant": "Values can have the text of any line, lines can be folded anywhere, components are nested to any depth, and there are infinitely many ways to put texts together; a test tries a few.", "anchors": ["src/calendar.rs:223", "src/components.rs:94", "src/properties.rs:178", "src/parser/mod.rs:59"]}
{"id": "C151", "title": "Adding a line to the components of a file adds a property to them", "statement": "A program adds the line of a property to every component of a name in a calendar file, behind each line that begins such a component or before each line that ends one; it knows nothing but these lines and does not unfold the file. Then the file is read as the calendar with this property added to all components of this name, at any depth (or to the calendar itself), and nothing else changed: a property that can occur several times is added to the others, first or last; of a property that can occur once, the one in the last line counts, so that a line added at the beginning is a default and one added at the end replaces. This holds for written files, with the line as the library writes it, folded or not; and for files of others that are unfolded, or in which the lines that begin and end components are not folded.", "quantifier": "all calendars that are read back unchanged and whose properties are written as one line each, all such properties; all documents of others in the sense of C66 and all their presentations; all names of components; all worlds (clock, UUIDs, orders of hash maps) and classifications of characters", "why_tests_cant": "Values can have the text of any line, lines can be folded anywhere and components are nested to any depth; a test adds a line to a few files.", "anchors": ["src/parser/components.rs:247", "src/parser/components.rs:263", "src/components.rs:94", "src/properties.rs:178"]}
{"id": "C152", "title": "Replacing the lines of a name in a file replaces the properties", "statement": "A program puts the line of a property in place of each line that starts with its name and a colon or semicolon, and does not unfold the file. If no line of this name is continued on the next line, then the file is read as the calendar with this property in place of each property of its name, at any depth, and nothing else changed: no property is added where there was none, where a name occurs several times each occurrence is replaced, and values that contain the name are left alone. In a written calendar no line of the name is continued if they have at most 75 octets; the new line may have any length and is put in as the library writes it.", "quantifier": "all calendars that are read back unchanged and whose properties are written as one line each, all such properties; all documents of others in the sense of C66 and all their presentations in which no line of the name is continued; all worlds (clock, UUIDs, orders of hash maps) and classifications of characters", "why_tests_cant": "Values can have the text of any line, lines can be folded anywhere and components are nested to any depth; a test replaces lines in a few files.", "anchors": ["src/parser/properties.rs:369", "src/parser/components.rs:247", "src/components.rs:94", "src/properties.rs:178"]}
{"id": "C153", "title": "Renaming the lines of a name in a file renames the properties", "statement": "A program puts another name in place of the name of each line that starts with it and a colon or semicolon, and does not unfold the file. If no line that ends within the name is continued on the next line, then the file is read as the calendar with the properties of this name under the other one, at any depth, with the same values and parameters, and nothing else changed; the lines themselves may be folded. The other name must not have occurred before, and both names must be used in the same way: both are those of TEXT or neither is, and both can occur several times or neither can. In a written calendar no line ends within a name if the names have at most 73 ASCII characters and neither values nor names of parameters begin with white space.", "quantifier": "all pairs of names, all calendars that are read back unchanged and whose properties are written as one line each; all documents of others in the sense of C66 and all their presentations in which the name is not cut; all worlds (clock, UUIDs, orders of hash maps) and classifications of characters", "why_tests_cant": "Values can have the text of any line, lines can be folded anywhere and components are nested to any depth; a test renames lines in a few files. That the library cuts between name and colon before a value of no-break spaces is found by proof.", "anchors": ["src/properties.rs:388", "src/parser/properties.rs:369", "src/parser/components.rs:247", "src/components.rs:94"]}
{"id": "C154", "title": "Removing or replacing folded lines of a name in a file removes or replaces the properties", "statement": "A program that does not unfold the file removes each line that starts with a name and a colon or semicolon, together with the lines after it that begin with a space or tab; or it puts the line of a property, folded or not, in their place. If no line that ends within the name is continued on the next line, then the file is read as the calendar without the properties of this name, or with the new property in place of them, at any depth, and nothing else changed. This is so for each name in a written calendar if the names have at most 73 ASCII characters and neither values nor names of parameters begin with white space; unlike in C144 and C152 the lines may be of any length.", "quantifier": "all names, all calendars that are read back unchanged and whose properties are written as one line each, all properties to put in; all documents of others in the sense of C66 and all their presentations in which the name is not cut; all worlds (clock, UUIDs, orders of hash maps) and classifications of characters", "why_tests_cant": "Lines can be folded anywhere and into any number of lines, continuations can have the text of any line and components are nested to any depth; a test removes lines from a few files.", "anchors": ["src/properties.rs:388", "src/parser/properties.rs:369", "src/parser/components.rs:247", "src/components.rs:94"]}
{"id": "C155", "title": "Removing the components of a name from a file by ranges of lines removes them from the calendar", "statement": "A program that does not unfold the file removes all lines from one that is BEGIN: and a name to the next one that is END: and the name, for instance to get rid of all alarms. If no component of this name contains another one, and no line that ends within such a first or last line is continued, then the file is read as the calendar without the components of this name, at any depth: properties, kinds, order and all other components stay as they were. This is so for each calendar that is written, whatever its values contain, if the names of its properties have at most 73 ASCII characters and neither values nor names of parameters begin with white space.", "quantifier": "all names other than VCALENDAR, all calendars that are read back unchanged and whose properties are written as one line each; all documents of others in the sense of C66 and all their presentations in which these lines are not cut; all worlds (clock, UUIDs, orders of hash maps) and classifications of characters", "why_tests_cant": "Values can have the text of any line and lines can be folded so that what follows looks like the begin of a component; components are nested to any depth. A test removes alarms from a few files.", "anchors": ["src/components.rs:94", "src/parser/components.rs:247", "src/properties.rs:388", "src/calendar.rs:223"]}
{"id": "C156", "title": "Giving the components of a name another name in a file by replacing lines does so in the calendar", "statement": "A program that does not unfold the file replaces each line that is BEGIN: or END: and a name by one with another name, for instance to make events of tasks. If no line that ends within such a line is continued, then the file is read as the calendar with the other name for the components of this name, at any depth: they are of the kind of their new name, and their properties, their order and all other components stay as they were. This is so for each calendar that is written, whatever its values contain and however components are nested, if the names of its properties have at most 73 ASCII characters and neither values nor names of parameters begin with white space.", "quantifier": "all pairs of names of which the first is not VCALENDAR, all calendars that are read back unchanged and whose properties are written as one line each; all documents of others in the sense of C66 and all their presentations in which these lines are not cut; all worlds (clock, UUIDs, orders of hash maps) and classifications of characters", "why_tests_cant": "Values can have the text of any line and lines can be folded so that what follows looks like the begin of a component; components are nested to any depth. A test renames components in a few files.", "anchors": ["src/components.rs:94", "src/parser/components.rs:247", "src/properties.rs:388", "src/calendar.rs:223"]}
