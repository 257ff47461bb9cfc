{
 "claims": [
  {
   "property": "C01",
   "status": "proved",
   "theorems": [
    "Ical.fold_unfold",
    "Ical.written_unfold"
   ],
   "note": "for every line without an embedded fold marker for which folding finishes"
  },
  {
   "property": "C02",
   "status": "partial",
   "theorems": [
    "Ical.fold_octets_partial",
    "Ical.written_octets_partial",
    "Ical.fold_octets_violated",
    "Ical.fold_too_long_iff",
    "Ical.fold_too_long_iff_partial",
    "Ical.fold_too_long_cuts_partial"
   ],
   "note": "The code writes a 76-octet last line for some inputs (fold_octets_violated); proved: all lines but the last <= 75, last <= 76; for every line exactly when this happens, in terms of where the line is cut (fold_too_long_iff); for ASCII lines and lines without whitespace exactly when this happens (fold_too_long_cuts_partial; in octets, fold_too_long_iff_partial)."
  },
  {
   "property": "C03",
   "status": "partial",
   "theorems": [
    "Ical.fold_finishes_ascii_partial",
    "Ical.fold_finishes_width_partial",
    "Ical.fold_finishes_window_partial",
    "Ical.fold_finishes_noWs_partial",
    "Ical.whitespace_table",
    "Ical.fold_finishes_iff",
    "Ical.fold_hangs_iff",
    "Ical.fold_panics_iff",
    "Ical.fold_diverges",
    "Ical.fold_panics"
   ],
   "note": "The full claim is false: fold_diverges and fold_panics give inputs on which the code loops forever / panics. For every line exactly when it finishes, loops and panics (fold_finishes_iff, fold_hangs_iff, fold_panics_iff). Proved to finish for ASCII lines and for lines of characters of at most k octets with less than 74/k whitespace characters in any 74 consecutive characters."
  },
  {
   "property": "C04",
   "status": "proved",
   "theorems": [
    "Ical.fold_pieces",
    "Ical.written_property"
   ],
   "note": ""
  },
  {
   "property": "C05",
   "status": "proved",
   "theorems": [
    "Ical.fold_short",
    "Ical.fold_long",
    "Ical.written_short"
   ],
   "note": ""
  },
  {
   "property": "C06",
   "status": "proved",
   "theorems": [
    "Ical.unfold_spec"
   ],
   "note": ""
  },
  {
   "property": "C07",
   "status": "proved",
   "theorems": [
    "Ical.unfold_any_folding"
   ],
   "note": ""
  },
  {
   "property": "C08",
   "status": "partial",
   "theorems": [
    "Ical.text_roundtrip_partial",
    "Ical.text_roundtrip_violated"
   ],
   "note": "The code does not round-trip every text value (text_roundtrip_violated). Proved: it round-trips exactly those without the two-character sequences backslash-colon, backslash-n, backslash-N (text_roundtrip_partial is an iff)."
  },
  {
   "property": "C09",
   "status": "proved",
   "theorems": [
    "Ical.escape_inert"
   ],
   "note": ""
  },
  {
   "property": "C10",
   "status": "partial",
   "theorems": [
    "Ical.unescape_rfc_partial",
    "Ical.unescape_rfc_violated"
   ],
   "note": "The sequential replacement differs from RFC 5545 reading on doubly-read texts (unescape_rfc_violated); proved equal exactly on the others (iff)."
  },
  {
   "property": "C11",
   "status": "proved",
   "theorems": [
    "Ical.value_type_agreement",
    "Ical.value_type_agreement_written"
   ],
   "note": ""
  },
  {
   "property": "C12",
   "status": "proved",
   "theorems": [
    "Ical.property_roundtrip",
    "Ical.property_from_str"
   ],
   "note": "for every property for which folding finishes (see C03)"
  },
  {
   "property": "C13",
   "status": "proved",
   "theorems": [
    "Ical.parameter_order"
   ],
   "note": ""
  },
  {
   "property": "C14",
   "status": "partial",
   "theorems": [
    "Ical.param_value_partial",
    "Ical.param_value_empty",
    "Ical.param_value_violated"
   ],
   "note": "False for the code when the value contains a double quote together with a colon or semicolon (param_value_violated). param_value_partial is an iff: it characterises the surviving values exactly."
  },
  {
   "property": "C15",
   "status": "proved",
   "theorems": [
    "Ical.text_one_line",
    "Ical.text_isolated"
   ],
   "note": ""
  },
  {
   "property": "C16",
   "status": "proved",
   "theorems": [
    "Ical.component_terminates",
    "Ical.repetition_terminates",
    "Ical.repeated_parsers_shrink"
   ],
   "note": ""
  },
  {
   "property": "C17",
   "status": "partial",
   "theorems": [
    "Ical.one_root_partial",
    "Ical.two_roots_violated",
    "Ical.at_most_one_root",
    "Ical.roots_read_iff_partial"
   ],
   "note": "False for the code: two roots are read as an empty list (two_roots_violated) and no input ever gives more than one root. Proved: a single root is returned, and exactly what is returned for every text (roots_read_iff_partial)."
  },
  {
   "property": "C18",
   "status": "partial",
   "theorems": [
    "Ical.truncated_exact_partial",
    "Ical.cut_file_exact_partial",
    "Ical.cut_output_partial",
    "Ical.truncated_nested_partial",
    "Ical.truncated_anywhere_partial",
    "Ical.truncated_root_violated",
    "Ical.root_closed_partial"
   ],
   "note": "False for the code: an unclosed root is read as an empty calendar (truncated_root_violated). truncated_exact_partial says for every place of the cut whether the rest is rejected, read as empty or read in full; cut_file_exact_partial says it for folded files, cuts inside a fold marker included, and cut_output_partial for what the library writes. Also proved: error when a nested component is open at a line boundary; a document cut anywhere never gives a calendar with a part of its content; a non-empty result needs a closed root."
  },
  {
   "property": "C19",
   "status": "proved",
   "theorems": [
    "Ical.mismatched_end"
   ],
   "note": ""
  },
  {
   "property": "C20",
   "status": "proved",
   "theorems": [
    "Ical.keyword_names_rejected"
   ],
   "note": ""
  },
  {
   "property": "C21",
   "status": "proved",
   "theorems": [
    "Ical.parsed_names",
    "Ical.name_char_ascii"
   ],
   "note": ""
  },
  {
   "property": "C22",
   "status": "partial",
   "theorems": [
    "Ical.reprint_partial",
    "Ical.print_parsed_partial",
    "Ical.reprint_component_partial",
    "Ical.reprint_iff_partial",
    "Ical.reprint_component_iff_partial",
    "Ical.reprint_exactly",
    "Ical.reprint_component_exactly",
    "Ical.reprint_violated"
   ],
   "note": "Proved for trees of any depth whose parameter values need no quotes and whose TEXT values contain no escape sequences; the printer neither quotes nor escapes, so the full claim is false (reprint_violated). Exact: a tree whose lines are printed each as one line (no fold marker inside, no property called BEGIN or END, no component called calendar, no parameter value starting with a quote) survives if and only if it has no such parameter values and texts (reprint_iff_partial). Exact with nothing assumed of the tree (reprint_exactly): it survives if and only if the printed text without the line breaks of folding is the lines of the tree and the lines can be told from each other; for a single component the same if nothing is added to it in printing (reprint_component_exactly)."
  },
  {
   "property": "C23",
   "status": "proved",
   "theorems": [
    "Ical.lf_crlf_same",
    "Ical.lf_crlf_from_str"
   ],
   "note": ""
  },
  {
   "property": "C24",
   "status": "proved",
   "theorems": [
    "Ical.keyword_case",
    "Ical.lowerAscii_table"
   ],
   "note": ""
  },
  {
   "property": "C25",
   "status": "proved",
   "theorems": [
    "Ical.calendar_roundtrip"
   ],
   "note": "for every calendar for which folding finishes (see C03); CalendarOk and CalendarSafe say what well-formed means"
  },
  {
   "property": "C26",
   "status": "proved",
   "theorems": [
    "Ical.missing_stamps"
   ],
   "note": "for every calendar for which folding finishes (see C03)"
  },
  {
   "property": "C27",
   "status": "partial",
   "theorems": [
    "Ical.reread_stable_partial",
    "Ical.reread_eventually_stable",
    "Ical.reread_stable_iff",
    "Ical.reread_stable_violated"
   ],
   "note": "False for the code when a TEXT value read back still has a backslash before a colon, n or N: each reading changes it again (reread_stable_violated). Proved: stable at once exactly without such values (reread_stable_iff), and stable after finitely many rounds always."
  },
  {
   "property": "C28",
   "status": "partial",
   "theorems": [
    "Ical.stamps_once_partial",
    "Ical.stamps_once_calendar_partial",
    "Ical.stamps_count_partial",
    "Ical.stamps_once_violated"
   ],
   "note": "False for the code when DTSTAMP or UID was added as a multi-property (stamps_once_violated). Proved at all depths when it was not, and in general the exact number of lines (stamps_count_partial)."
  },
  {
   "property": "C29",
   "status": "proved",
   "theorems": [
    "Ical.properly_nested"
   ],
   "note": "for every calendar for which folding finishes (see C03)"
  },
  {
   "property": "C30",
   "status": "proved",
   "theorems": [
    "Ical.kinds_preserved",
    "Ical.kinds_observed"
   ],
   "note": ""
  },
  {
   "property": "C31",
   "status": "partial",
   "theorems": [
    "Ical.repeated_kept_partial",
    "Ical.repeated_single",
    "Ical.repeated_kept_violated",
    "Ical.repeated_kept_iff"
   ],
   "note": "False for the code for RELATED-TO and REQUEST-STATUS, which its list does not contain (repeated_kept_violated). Proved for all other names, and that a name is kept exactly if it is in the list or occurs at most once (repeated_kept_iff)."
  },
  {
   "property": "C32",
   "status": "proved",
   "theorems": [
    "Ical.read_calendar_unwraps",
    "Ical.read_calendar_doc"
   ],
   "note": ""
  },
  {
   "property": "C33",
   "status": "proved",
   "theorems": [
    "Ical.component_map",
    "Ical.last_set_wins",
    "Ical.unset_key",
    "Ical.specific_calls"
   ],
   "note": ""
  },
  {
   "property": "C34",
   "status": "proved",
   "theorems": [
    "Ical.multi_keeps_all",
    "Ical.multi_independent",
    "Ical.sub_components"
   ],
   "note": ""
  },
  {
   "property": "C35",
   "status": "proved",
   "theorems": [
    "Ical.key_order",
    "Ical.strCmp_utf8"
   ],
   "note": "strCmp_utf8 shows that the order used is the order of the UTF-8 bytes"
  },
  {
   "property": "C36",
   "status": "proved",
   "theorems": [
    "Ical.text_getters",
    "Ical.venue_getters"
   ],
   "note": ""
  },
  {
   "property": "C37",
   "status": "proved",
   "theorems": [
    "Ical.priority_clamped",
    "Ical.priority_bounded"
   ],
   "note": ""
  },
  {
   "property": "C38",
   "status": "proved",
   "theorems": [
    "Ical.sequence_roundtrip",
    "Ical.percent_roundtrip"
   ],
   "note": ""
  },
  {
   "property": "C39",
   "status": "partial",
   "theorems": [
    "Ical.percent_bounded_partial",
    "Ical.percent_violated",
    "Ical.percent_bounded_iff"
   ],
   "note": "False for the code: values from 101 to 255 are stored and read back (percent_violated). Proved: the value read is the value given and fits in a byte, so the bound holds exactly if what was set last is within it (percent_bounded_iff)."
  },
  {
   "property": "C40",
   "status": "proved",
   "theorems": [
    "Ical.enum_setters",
    "Ical.enum_texts",
    "Ical.action_texts"
   ],
   "note": ""
  },
  {
   "property": "C41",
   "status": "proved",
   "theorems": [
    "Ical.done_moves"
   ],
   "note": ""
  },
  {
   "property": "C42",
   "status": "proved",
   "theorems": [
    "Ical.calendar_history",
    "Ical.calendar_constructors"
   ],
   "note": ""
  },
  {
   "property": "C43",
   "status": "proved",
   "theorems": [
    "Ical.calendar_getters",
    "Ical.calendar_timezone",
    "Ical.calendar_timezone_earliest",
    "Ical.calendar_getters_earliest"
   ],
   "note": "Both theorems about time zones exclude later appended properties called TIMEZONE_ID, which the getter prefers"
  },
  {
   "property": "C44",
   "status": "partial",
   "theorems": [
    "Ical.timezone_id_violated",
    "Ical.timezone_id_partial",
    "Ical.timezone_exact_partial"
   ],
   "note": "False for the code: the getter looks up TIMEZONE_ID. Proved: exactly what the getter finds (timezone_exact_partial)."
  },
  {
   "property": "C45",
   "status": "proved",
   "theorems": [
    "Ical.calendar_header",
    "Ical.parsed_header"
   ],
   "note": ""
  },
  {
   "property": "C46",
   "status": "partial",
   "theorems": [
    "Ical.date_getters_partial",
    "Ical.chrono_starts",
    "Ical.all_day",
    "Ical.date_getters_violated"
   ],
   "note": "False for the code outside the years 0 to 9999 (date_getters_violated); date_getters_partial says exactly what is read back for every year."
  },
  {
   "property": "C47",
   "status": "proved",
   "theorems": [
    "Ical.utc_getters",
    "Ical.utc_getters_outside"
   ],
   "note": "utc_getters covers all years: the instant is read back in the years 0 to 9999 of the claim, nothing is read back outside."
  },
  {
   "property": "C48",
   "status": "proved",
   "theorems": [
    "Ical.date_text_form",
    "Ical.date_text_injective"
   ],
   "note": ""
  },
  {
   "property": "C49",
   "status": "partial",
   "theorems": [
    "Ical.date_document_partial",
    "Ical.date_document_violated"
   ],
   "note": "False for the code with an empty time zone id (date_document_violated) and outside the years 0 to 9999. date_document_partial says for every date exactly what is read back, if the zone id is writable as a parameter value."
  },
  {
   "property": "C50",
   "status": "partial",
   "theorems": [
    "Ical.last_modified_partial",
    "Ical.last_modified_violated",
    "Ical.last_modified_ignored_violated",
    "Ical.last_modified_exact_partial"
   ],
   "note": "False for the code: it stores and looks up LAST_MODIFIED (last_modified_violated), and a LAST-MODIFIED property never has an effect (last_modified_ignored_violated). Proved: exactly what is returned for a parsed component (last_modified_exact_partial)."
  },
  {
   "property": "C51",
   "status": "partial",
   "theorems": [
    "Ical.date_naive_agrees",
    "Ical.date_naive_text_exact_partial",
    "Ical.date_naive_text_partial",
    "Ical.date_naive_text_violated"
   ],
   "note": "The part about the first eight characters is false for texts that chrono reads leniently (date_naive_text_violated); proved: it holds exactly if these are eight digits."
  },
  {
   "property": "C52",
   "status": "proved",
   "theorems": [
    "Ical.try_into_utc_spec"
   ],
   "note": ""
  },
  {
   "property": "C53",
   "status": "proved",
   "theorems": [
    "Ical.alarm_mandatory"
   ],
   "note": ""
  },
  {
   "property": "C54",
   "status": "partial",
   "theorems": [
    "Ical.trigger_roundtrip_partial",
    "Ical.trigger_dateTime_exact",
    "Ical.alarm_trigger",
    "Ical.alarm_follows",
    "Ical.trigger_roundtrip_violated",
    "Ical.trigger_duration_exact"
   ],
   "note": "False for the code for negative durations and zoned date-times (trigger_roundtrip_violated). Proved for non-negative whole seconds below 2^32 s and for floating and UTC date-times in the years 0 to 9999; for date-times exactly what is read back (trigger_dateTime_exact), and for durations in terms of what the crate iso8601 reads (trigger_duration_exact)."
  },
  {
   "property": "C55",
   "status": "proved",
   "theorems": [
    "Ical.ttl_roundtrip",
    "Ical.ttl_fallback",
    "Ical.ttl_document",
    "Ical.ttl_negative"
   ],
   "note": "On a calendar without a refresh interval; the iso8601 crate is trusted for the texts parse_zero/parse_secs. Outside the range a negative interval is not read back (ttl_negative)."
  },
  {
   "property": "C56",
   "status": "proved",
   "theorems": [
    "Ical.trigger_constructors"
   ],
   "note": ""
  },
  {
   "property": "C57",
   "status": "proved",
   "theorems": [
    "Ical.escape_conforming",
    "Ical.escape_injective"
   ],
   "note": ""
  },
  {
   "property": "C58",
   "status": "partial",
   "theorems": [
    "Ical.simple_conversion_partial",
    "Ical.simple_reader_partial",
    "Ical.simple_conversion_violated"
   ],
   "note": "False for the code: calendar properties and further roots are dropped (simple_conversion_violated). Proved: the components of the root are kept in order, and for every text the result is the calendar Calendar::from_str gives with its header replaced by the default one."
  },
  {
   "property": "C59",
   "status": "proved",
   "theorems": [
    "Ical.built_component_ok",
    "Ical.specific_args_ok",
    "Ical.built_alarm_ok",
    "Ical.built_calendar_ok",
    "Ical.built_roundtrip",
    "Ical.built_events_roundtrip"
   ],
   "note": "reading back is proved for texts that survive escaping (C08) and when folding finishes (C60)"
  },
  {
   "property": "C60",
   "status": "partial",
   "theorems": [
    "Ical.writing_finishes_partial",
    "Ical.writing_finishes_iff",
    "Ical.total_roundtrip",
    "Ical.writing_finishes_violated"
   ],
   "note": "False for the code: some summaries with many non-ASCII spaces make it hang or panic (writing_finishes_violated). Proved when every property is ASCII or, with characters of at most k octets, has less than 74/k whitespace characters in any 74 consecutive characters; total_roundtrip combines this with the round trip. For every calendar exactly when it is always written: if and only if every line its properties can be written as can be folded (writing_finishes_iff, with the condition of C03)."
  },
  {
   "property": "C61",
   "status": "proved",
   "theorems": [
    "Ical.getters_survive",
    "Ical.event_getters_survive",
    "Ical.todo_getters_survive",
    "Ical.venue_getters_survive"
   ],
   "note": "For well-formed calendars (CalendarOk, CalendarSafe; see C59 for what the builder makes) whose serialization finishes."
  },
  {
   "property": "C62",
   "status": "proved",
   "theorems": [
    "Ical.serialization_reproducible",
    "Ical.serializations_equivalent",
    "Ical.rewrite_identical"
   ],
   "note": "The last two need a well-formed calendar whose serialization finishes (C60); rewrite_identical also texts that survive escaping (C08)."
  },
  {
   "property": "C63",
   "status": "proved",
   "theorems": [
    "Ical.calls_determined",
    "Ical.call_order_irrelevant",
    "Ical.call_idempotent"
   ],
   "note": ""
  },
  {
   "property": "C64",
   "status": "proved",
   "theorems": [
    "Ical.parameters_map",
    "Ical.parameters_written_once",
    "Ical.value_type_parameter"
   ],
   "note": "parameters_written_once: for names and values that can be written (see C14) and when folding finishes (C03)."
  },
  {
   "property": "C65",
   "status": "proved",
   "theorems": [
    "Ical.from_ymd_hm_tzid_spec",
    "Ical.try_from_pair_spec",
    "Ical.from_date_time_instant",
    "Ical.zoned_start_instant"
   ],
   "note": "Relative to a time zone database in which the name of each zone parses to that zone (TzNames)."
  },
  {
   "property": "C66",
   "status": "proved",
   "theorems": [
    "Ical.foreign_document",
    "Ical.foreign_component"
   ],
   "note": "Well-formed: Item.Ok of Spec/Document (the grammar the parser supports); with bare LF line ends the document has no CR."
  },
  {
   "property": "C67",
   "status": "partial",
   "theorems": [
    "Ical.no_injection_partial",
    "Ical.no_injection_violated",
    "Ical.inject_anything",
    "Ical.no_injection_iff",
    "Ical.harmless_iff"
   ],
   "note": "Holds when no property that is written unescaped has a line feed; false in general: calendar names, URLs and time zone ids are written unescaped (no_injection_violated), and whatever properties and components an attacker chooses can be added through one such value (inject_anything). Exactly: no such line is ever added if and only if no property alone is ever written with one (no_injection_iff), that is, if no line of its content is one (harmless_iff)."
  },
  {
   "property": "C68",
   "status": "proved",
   "theorems": [
    "Ical.presentation_irrelevant",
    "Ical.presentation_content"
   ],
   "note": ""
  },
  {
   "property": "C69",
   "status": "proved",
   "theorems": [
    "Ical.written_property"
   ],
   "note": ""
  },
  {
   "property": "C70",
   "status": "proved",
   "theorems": [
    "Ical.written_component",
    "Ical.written_calendar"
   ],
   "note": "The order of the keys is the subject of C35."
  },
  {
   "property": "C71",
   "status": "proved",
   "theorems": [
    "Ical.read_component_sound",
    "Ical.read_components_sound",
    "Ical.read_calendar_sound",
    "Ical.read_property_sound"
   ],
   "note": "TEXT values are what C83 says the reader makes of their raw text; where C10 does not interfere that is the left-to-right reading."
  },
  {
   "property": "C72",
   "status": "partial",
   "theorems": [
    "Ical.not_calendar_partial",
    "Ical.not_calendar_violated",
    "Ical.trailing_text_violated",
    "Ical.empty_calendar_iff_partial"
   ],
   "note": "False for the code: Calendar::from_str gives an empty calendar for every text that does not open a component and for every component followed by other text (the violated theorems hold for all such texts). Proved: CalendarComponent::from_str rejects the former, and exactly which texts are read as an empty calendar (empty_calendar_iff_partial)."
  },
  {
   "property": "C73",
   "status": "partial",
   "theorems": [
    "Ical.find_prop_partial",
    "Ical.find_prop_iff_partial",
    "Ical.find_prop_violated"
   ],
   "note": "False for the code when a name occurs more than once: find_prop returns the first, the component holds the last. Proved for names occurring at most once, and exactly when they agree (find_prop_iff_partial)."
  },
  {
   "property": "C74",
   "status": "proved",
   "theorems": [
    "Ical.date_value_read",
    "Ical.date_time_value_read",
    "Ical.utc_value_read",
    "Ical.date_kind_read",
    "Ical.parsed_date_read",
    "Ical.from_ymd_hm_tzid_days"
   ],
   "note": "chrono is modelled by its documented behaviour (DESIGN.md)."
  },
  {
   "property": "C75",
   "status": "partial",
   "theorems": [
    "Ical.date_readers_agree_exact_partial",
    "Ical.date_readers_agree_partial",
    "Ical.date_readers_violated"
   ],
   "note": "False for the code: the direct reader ignores VALUE and reads a final Z in spite of a TZID. Proved: exactly on which properties the two agree (any text, any parameters), and an equivalence for values whose kind is the one the parameters ask for, with TZID at most once."
  },
  {
   "property": "C76",
   "status": "proved",
   "theorems": [
    "Ical.value_type_rfc"
   ],
   "note": "The table of the RFC is restated in the specification."
  },
  {
   "property": "C77",
   "status": "partial",
   "theorems": [
    "Ical.name_case_exact_partial",
    "Ical.lowercase_table",
    "Ical.name_case_partial",
    "Ical.name_case_violated"
   ],
   "note": "False for the code: lower-case names are kept as written and mean nothing to it. Proved: such lines are read verbatim, nothing is lost. Exactly: two documents that differ in the case of names only are read as the same only if no name differs, and as the same up to the case of names if and only if no value with escapes belongs to a property that is TEXT in only one of them."
  },
  {
   "property": "C78",
   "status": "proved",
   "theorems": [
    "Ical.json_roundtrip",
    "Ical.json_component_roundtrip",
    "Ical.json_injective",
    "Ical.json_read",
    "Ical.json_component_read"
   ],
   "note": "At the level of serde_json::Value; the code generated by the serde derives is transcribed (DESIGN.md)."
  },
  {
   "property": "C79",
   "status": "partial",
   "theorems": [
    "Ical.fold_cuts_partial",
    "Ical.fold_exact",
    "Ical.cuts_unique",
    "Ical.fold_fill_partial",
    "Ical.fold_fill_violated",
    "Ical.whitespace_table"
   ],
   "note": "False for the code: in non-ASCII lines with whitespace the walk back to a character boundary looks at the wrong characters and may go on past boundaries. Proved: the exact cuts for ASCII lines and for lines without whitespace, and for every line where each search for a cut ends (fold_exact)."
  },
  {
   "property": "C80",
   "status": "partial",
   "theorems": [
    "Ical.mixed_breaks_exact_partial",
    "Ical.mixed_breaks_partial",
    "Ical.mixed_breaks_violated",
    "Ical.lf_line_swallows"
   ],
   "note": "False for the code: a content line that ends in LF swallows everything up to the next CRLF anywhere in the file (lf_line_swallows holds for all texts). Proved: a file is read as the elements of its document exactly if no CRLF follows a content line ending in LF."
  },
  {
   "property": "C81",
   "status": "partial",
   "theorems": [
    "Ical.param_lists_partial",
    "Ical.rfc_line_read_iff",
    "Ical.quoted_list_dropped",
    "Ical.list_colon_misread",
    "Ical.quoted_list_rejected",
    "Ical.quoted_list_emptied"
   ],
   "note": "False for the code: a quoted value followed by a comma makes the line lose its parameters and value (quoted_list_dropped), makes a file be rejected (quoted_list_rejected) or be read as an empty calendar (quoted_list_emptied), whatever follows; a colon in quotes after the first value of a list ends the parameters, and the rest is taken for the value (list_colon_misread). Proved: lists of plain values and single quoted values are read; and, for every content line of RFC 5545, exactly when it is read as what it is (rfc_line_read_iff)."
  },
  {
   "property": "C82",
   "status": "proved",
   "theorems": [
    "Ical.read_calendar_size",
    "Ical.read_component_size",
    "Ical.write_property_size"
   ],
   "note": "Sizes in characters. Memory of the implementation besides the texts is not modelled."
  },
  {
   "property": "C83",
   "status": "proved",
   "theorems": [
    "Ical.unescape_exact",
    "Ical.text_reread",
    "Ical.calendar_reread",
    "Ical.calendar_survives_iff",
    "Ical.reread_stable_iff"
   ],
   "note": "Well-formed as in C25: keys and parameters that can be written, values that are not TEXT without line ends."
  },
  {
   "property": "C84",
   "status": "partial",
   "theorems": [
    "Ical.measured_parts",
    "Ical.measured_reader",
    "Ical.read_steps_partial",
    "Ical.read_steps_any_partial",
    "Ical.read_steps_tight",
    "Ical.read_steps_violated",
    "Ical.read_steps_no_polynomial_violated"
   ],
   "note": "False in general: a component opened in lower case letters that is not closed is read again as a property, with everything after it, so n lines \"begin:A\" take 2^(n-1) steps, and no polynomial bounds the steps (read_steps_violated, read_steps_no_polynomial_violated). Proved when the lines that open a component do so in upper case letters; then the bound is quadratic, and well-formed texts with LF line breaks need that (read_steps_tight). For every text the steps are at most cubic, times two for each place with BEGIN: (read_steps_any_partial). Steps are counted by measured versions of the parsers whose results are those of the model."
  },
  {
   "property": "C85",
   "status": "partial",
   "theorems": [
    "Ical.read_depth_partial",
    "Ical.read_depth_exact_partial",
    "Ical.read_depth_written_partial",
    "Ical.read_depth_violated"
   ],
   "note": "False: well-formed calendars can be nested to any depth, and each level is a nested call (read_depth_violated). Proved: the number of levels is at most one more than the number of places with BEGIN: in the text; for well-formed documents it is exactly the number of levels of the document (read_depth_exact_partial), so for a written calendar two more than its components are nested (read_depth_written_partial)."
  },
  {
   "property": "C86",
   "status": "partial",
   "theorems": [
    "Ical.write_steps_partial",
    "Ical.write_steps_tight",
    "Ical.write_steps_violated",
    "Ical.nth_counted"
   ],
   "note": "False: for each piece of a folded line, the position of the next cut is looked up by counting characters from the start of the line, so that the steps grow with the square of the length, for every ASCII line (write_steps_tight); a long enough summary takes more than k steps for each octet written, whatever k is (write_steps_violated). Proved: the steps are at most quadratic."
  },
  {
   "property": "C87",
   "status": "proved",
   "theorems": [
    "Ical.read_steps_linear",
    "Ical.read_steps_written"
   ],
   "note": "At most thirty steps for each character of the text. Texts with LF line breaks need quadratic time (read_steps_tight, C84)."
  },
  {
   "property": "C88",
   "status": "proved",
   "theorems": [
    "Ical.component_roundtrip",
    "Ical.component_missing_stamps",
    "Ical.print_calendar",
    "Ical.print_component"
   ],
   "note": "The reader drops whatever follows the first component without an error."
  },
  {
   "property": "C89",
   "status": "proved",
   "theorems": [
    "Ical.trigger_duration_read",
    "Ical.trigger_date_time_read",
    "Ical.trigger_nothing_else",
    "Ical.trigger_read_iff"
   ],
   "note": "The duration texts are those assumed of the crate iso8601 in Model/Chrono.lean."
  },
  {
   "property": "C90",
   "status": "proved",
   "theorems": [
    "Ical.error_iff_rejected",
    "Ical.calendar_error_message",
    "Ical.component_error_message",
    "Ical.component_error_empty",
    "Ical.property_error_message",
    "Ical.blamed_places",
    "Ical.message_unique",
    "Ical.isPlace_unique",
    "Ical.whitespace_table"
   ],
   "note": "nom is modelled by its documented behaviour (DESIGN.md). Texts are those given to the reader, that is, unfolded ones."
  },
  {
   "property": "C91",
   "status": "partial",
   "theorems": [
    "Ical.mismatched_end_message_partial",
    "Ical.missing_end_message_partial",
    "Ical.keyword_name_message_partial",
    "Ical.unreadable_line_violated",
    "Ical.unreadable_root_violated",
    "Ical.calendar_report_iff",
    "Ical.folded_number_violated"
   ],
   "note": "False for the code: a line that cannot be read is reported as an error of the BEGIN line of its component, and not at all in the root component; and in a folded file line numbers are too small by the number of folds before the place. C120 says exactly what is reported. Proved: wrong END lines, missing END lines (reported at the BEGIN line) and names that start like BEGIN or END are reported where they are."
  },
  {
   "property": "C92",
   "status": "proved",
   "theorems": [
    "Ical.write_injective",
    "Ical.write_component_injective",
    "Ical.write_property_injective"
   ],
   "note": "Components without DTSTAMP or UID are excluded because the generated ones can coincide with those of another calendar (example in Props/Injective.lean)."
  },
  {
   "property": "C93",
   "status": "partial",
   "theorems": [
    "Ical.stream_partial",
    "Ical.stream_violated"
   ],
   "note": "False for the code: two or more calendars are read as a calendar without properties and components, without an error. Proved: a stream of one calendar, also with blank lines after it."
  },
  {
   "property": "C94",
   "status": "partial",
   "theorems": [
    "Ical.rewrite_exactly",
    "Ical.rewrite_partial",
    "Ical.rewrite_clean_partial",
    "Ical.clean_read_ok",
    "Ical.reread_property_iff",
    "Ical.rewrite_same_iff",
    "Ical.parsed_calendar_ok",
    "Ical.parsed_component_ok",
    "Ical.rewrite_violated"
   ],
   "note": "False for the code in four corners, each shown by an example: a parameter value with a single double quote, a property called begin or end (read after a lone carriage return), a parameter given twice, and fold markers around fold markers. Proved for all texts without these (rewrite_partial), for all texts at all that are read as a calendar without them (rewrite_clean_partial), and for single properties exactly (reread_property_iff). `rewrite_exactly` says for every text without a parameterless property called begin or end exactly when the claim is true: values other than TEXT are in one line, and the output without the folding is the content lines of the calendar with quotes that cannot be mixed up."
  },
  {
   "property": "C95",
   "status": "partial",
   "theorems": [
    "Ical.call_conforms_iff",
    "Ical.trigger_conforms_iff",
    "Ical.setters_conform_partial",
    "Ical.event_conforms_partial",
    "Ical.todo_conforms_partial",
    "Ical.alarm_conforms_partial",
    "Ical.setters_conform_violated"
   ],
   "note": "False for arguments outside the ranges of RFC 5545 and for last_modified, whose property is called LAST_MODIFIED; the exact set of calls that conform is given by call_conforms_iff and trigger_conforms_iff."
  },
  {
   "property": "C96",
   "status": "proved",
   "theorems": [
    "Ical.parsed_component_text",
    "Ical.parsed_components_text",
    "Ical.parsed_calendar_text"
   ],
   "note": ""
  },
  {
   "property": "C97",
   "status": "proved",
   "theorems": [
    "Ical.generated_uids_distinct"
   ],
   "note": ""
  },
  {
   "property": "C98",
   "status": "partial",
   "theorems": [
    "Ical.stamps_gained",
    "Ical.stamps_allowed_partial",
    "Ical.stamps_allowed_violated",
    "Ical.stamps_allowed_iff"
   ],
   "note": "False for the code: exactly the components that lack a DTSTAMP or UID gain one (stamps_gained), also VTIMEZONE, STANDARD, DAYLIGHT and VALARM. Proved when these have both already, and only then (stamps_allowed_iff)."
  },
  {
   "property": "C99",
   "status": "proved",
   "theorems": [
    "Ical.edits_ok",
    "Ical.read_edit_write",
    "Ical.read_set_write"
   ],
   "note": "Conditions as in C94 (each shown necessary there by rewrite_violated) and C59 (arguments that fit on a line)."
  },
  {
   "property": "C100",
   "status": "partial",
   "theorems": [
    "Ical.text_list_written_partial",
    "Ical.text_list_iff_partial",
    "Ical.other_list_written",
    "Ical.text_list_violated"
   ],
   "note": "Missing: lists of several texts, which the code turns into one text (text_list_violated: CATEGORIES:WORK,HOME is written as CATEGORIES:WORK\\,HOME). text_list_iff_partial says exactly which lines are kept."
  },
  {
   "property": "C101",
   "status": "proved",
   "theorems": [
    "Ical.date_text_order",
    "Ical.time_text_order",
    "Ical.date_text_order_violated"
   ],
   "note": "Stated for the years RFC 5545 can express; date_text_order_violated shows that the condition is needed."
  },
  {
   "property": "C102",
   "status": "partial",
   "theorems": [
    "Ical.spans_iff",
    "Ical.event_span_partial",
    "Ical.all_day_span_violated"
   ],
   "note": "Missing: all_day, which always writes an end equal to the start (all_day_span_violated, for every component and date)."
  },
  {
   "property": "C103",
   "status": "proved",
   "theorems": [
    "Ical.line_order_irrelevant",
    "Ical.line_order_component",
    "Ical.swap_lines"
   ],
   "note": "Examples show that the order of lines of the same name counts."
  },
  {
   "property": "C104",
   "status": "proved",
   "theorems": [
    "Ical.set_is_local",
    "Ical.add_multi_is_local",
    "Ical.add_component_is_local",
    "Ical.push_is_local",
    "Ical.replace_is_local",
    "Ical.steadyOrder_of_few"
   ],
   "note": "SteadyOrder (parameters of the other properties are written in the same order both times) holds in particular without properties of several parameters (steadyOrder_of_few); it is not needed when a property is replaced."
  },
  {
   "property": "C105",
   "status": "proved",
   "theorems": [
    "Ical.component_alone",
    "Ical.subcomponent_alone",
    "Ical.others_unaffected"
   ],
   "note": ""
  },
  {
   "property": "C106",
   "status": "proved",
   "theorems": [
    "Ical.parseUnsigned_iff",
    "Ical.priority_read",
    "Ical.sequence_read",
    "Ical.percent_read",
    "Ical.numeral_unique"
   ],
   "note": ""
  },
  {
   "property": "C107",
   "status": "partial",
   "theorems": [
    "Ical.parseDate_iff",
    "Ical.parseDateTime_iff",
    "Ical.parseUtc_iff",
    "Ical.parsed_date_iff",
    "Ical.date_read_iff",
    "Ical.date_getters_iff",
    "Ical.utc_getters_iff",
    "Ical.completed_iff",
    "Ical.date_strict",
    "Ical.only_rfc_dates_partial",
    "Ical.only_rfc_dates_violated"
   ],
   "note": "The code accepts more than RFC 5545 allows (only_rfc_dates_violated); the exact set of accepted texts is proved, and the claim for texts without blanks and of the prescribed length."
  },
  {
   "property": "C108",
   "status": "proved",
   "theorems": [
    "Ical.property_read_iff",
    "Ical.property_rejected_iff",
    "Ical.component_read_iff",
    "Ical.component_rejected_iff",
    "Ical.calendar_read_iff",
    "Ical.calendar_rejected_iff",
    "Ical.text_unambiguous",
    "Ical.text_exclusive"
   ],
   "note": ""
  },
  {
   "property": "C109",
   "status": "proved",
   "theorems": [
    "Ical.written_piecewise",
    "Ical.writer_gets_prefix",
    "Ical.writer_crash_lines",
    "Ical.writer_string",
    "Ical.writer_buffer_iff",
    "Ical.calendar_writer"
   ],
   "note": ""
  },
  {
   "property": "C110",
   "status": "proved",
   "theorems": [
    "Ical.strict_unique",
    "Ical.strict_property_iff",
    "Ical.strict_component_iff",
    "Ical.strict_calendar_iff"
   ],
   "note": ""
  },
  {
   "property": "C111",
   "status": "proved",
   "theorems": [
    "Ical.duration_text",
    "Ical.duration_text_unique",
    "Ical.duration_injective",
    "Ical.duration_rfc_iff",
    "Ical.duration_properties"
   ],
   "note": ""
  },
  {
   "property": "C112",
   "status": "partial",
   "theorems": [
    "Ical.rfc_document_read_iff_partial",
    "Ical.rfc_document_means_partial",
    "Ical.rfc_document_exact",
    "Ical.rfc_written_read_iff",
    "Ical.rfc_document_read_violated"
   ],
   "note": "The code rejects documents with a property name that starts with BEGIN or END (rfc_document_read_violated). Proved for documents of which every parameter has one non-empty value: they are read if and only if no name starts that way, and as what they say; For every document of the grammar, lists of values included, rfc_document_exact says exactly when it is read as the tree it stands for: if and only if each of its lines is read on its own (C81). TEXT values are those of the left-to-right reading unless C10 gets in the way."
  },
  {
   "property": "C113",
   "status": "proved",
   "theorems": [
    "Ical.write_component_size",
    "Ical.write_calendar_size",
    "Ical.rewrite_size"
   ],
   "note": ""
  },
  {
   "property": "C114",
   "status": "proved",
   "theorems": [
    "Ical.built_sayable_iff",
    "Ical.built_said",
    "Ical.call_said_iff",
    "Ical.kinds_said",
    "Ical.alarm_sayable_iff",
    "Ical.calendar_said_iff"
   ],
   "note": ""
  },
  {
   "property": "C115",
   "status": "partial",
   "theorems": [
    "Ical.own_text_partial",
    "Ical.own_text_read",
    "Ical.own_text_iff",
    "Ical.own_text_violated",
    "Ical.property_from_str"
   ],
   "note": "The code violates the claim: Property::from_str does not unfold, so a long property is cut at the first fold (own_text_violated). own_text_partial classifies what is read for every property; own_text_iff says exactly when reading with and without unfolding agree."
  },
  {
   "property": "C116",
   "status": "partial",
   "theorems": [
    "Ical.not_folded_partial",
    "Ical.folded_line_rejected_partial",
    "Ical.folded_root_line_partial",
    "Ical.folded_line_split",
    "Ical.folded_line_violated",
    "Ical.folded_events_merged_violated"
   ],
   "note": "The code violates the claim: a rest of a folded line that looks like a content line is read as a property (folded_line_split, for every such text; folded_line_violated and folded_events_merged_violated are written calendars). not_folded_partial, folded_line_rejected_partial and folded_root_line_partial are what holds."
  },
  {
   "property": "C117",
   "status": "partial",
   "theorems": [
    "Ical.calls_zones",
    "Ical.zones_kept",
    "Ical.zones_push_partial",
    "Ical.zones_none_partial",
    "Ical.zoneless_calls_partial",
    "Ical.zones_defined_violated"
   ],
   "note": "The code violates the claim: no call adds a VTIMEZONE, so a zoned start in any calendar without a hand-made definition refers to an undefined zone (zones_defined_violated, for every calendar and every history). calls_zones and zones_push_partial say exactly what is referred to and when adding a component is fine; zones_kept that writing and reading back changes nothing."
  },
  {
   "property": "C118",
   "status": "proved",
   "theorems": [
    "Ical.property_survives_iff",
    "Ical.plain_property_survives_iff",
    "Ical.short_property_survives_iff",
    "Ical.reread_property_iff"
   ],
   "note": "Both directions. The model keeps the parameters of a property as a list sorted by name (hypothesis of the theorems, as for every map)."
  },
  {
   "property": "C119",
   "status": "proved",
   "theorems": [
    "Ical.calendar_survives_exactly",
    "Ical.component_survives_exactly",
    "Ical.clean_survives_iff",
    "Ical.clean_read_ok"
   ],
   "note": "Both directions. `calendar_survives_exactly` is the whole claim, `component_survives_exactly` the same for the text of a single component; the other two are the simpler form for clean calendars. Calendars with a parameterless property called begin or end are outside of it: such a property can survive if no component can be read from its line (shown beside the theorem)."
  },
  {
   "property": "C120",
   "status": "proved",
   "theorems": [
    "Ical.calendar_report_iff",
    "Ical.component_report_iff",
    "Ical.reports_unique",
    "Ical.folded_number_violated"
   ],
   "note": "Both directions. The empty component text is reported as such (component_error_empty, C90). The last theorem is the sentence about line numbers: it is what the code does, and contradicts C91 for folded files."
  },
  {
   "property": "C121",
   "status": "proved",
   "theorems": [
    "Ical.parameter_read_iff",
    "Ical.parameter_rejected_iff",
    "Ical.parameter_survives_iff"
   ],
   "note": "Both directions of all three. The message is stated for texts that are not empty."
  },
  {
   "property": "C122",
   "status": "proved",
   "theorems": [
    "Ical.simple_reads",
    "Ical.simple_error_iff",
    "Ical.simple_error_place",
    "Ical.simple_error_message"
   ],
   "note": ""
  },
  {
   "property": "C123",
   "status": "partial",
   "theorems": [
    "Ical.value_case_partial",
    "Ical.value_date_case_violated",
    "Ical.related_case_violated",
    "Ical.trigger_case_violated"
   ],
   "note": "The code violates the claim: names are compared exactly. value_case_partial says exactly what is read: the variant if the name is in capitals, otherwise nothing (for VALUE the default kind of the property). value_date_case_violated: a day with VALUE=date is read as no date. related_case_violated: RELATED=end is dropped, which moves the alarm from the end to the start. trigger_case_violated: a trigger with VALUE=date-time is not read."
  },
  {
   "property": "C124",
   "status": "partial",
   "theorems": [
    "Ical.around_exact_partial",
    "Ical.around_violated"
   ],
   "note": "The code violates the claim: anything but blank lines before or after the calendar, a byte order mark or a single space before it included, makes it an empty calendar without an error (around_violated, for every calendar). around_exact_partial says for all texts around it exactly what is read."
  },
  {
   "property": "C125",
   "status": "partial",
   "theorems": [
    "Ical.line_alone_partial",
    "Ical.line_alone_violated"
   ],
   "note": "The code violates the claim: a parameter without a colon or semicolon after it, or with an opening quote that is not closed, goes on in the next line, and a blank line is skipped (line_alone_violated, for any line that ends in a parameter: the next line up to its colon becomes part of the value of the parameter). line_alone_partial says exactly which lines are read the same way whatever follows."
  },
  {
   "property": "C126",
   "status": "partial",
   "theorems": [
    "Ical.unfold_twice_iff",
    "Ical.unfold_first_partial",
    "Ical.unfold_written_partial",
    "Ical.unfold_twice_violated"
   ],
   "note": "The code violates the claim: a line feed and a blank become a marker when markers between them are removed, so a blank line before an indented one makes a difference (unfold_twice_violated). unfold_twice_iff says exactly for which texts a second unfolding changes nothing; what is written for a calendar is among them (unfold_written_partial)."
  },
  {
   "property": "C127",
   "status": "partial",
   "theorems": [
    "Ical.json_text_read",
    "Ical.json_text_exact",
    "Ical.json_text_compact",
    "Ical.json_text_pretty",
    "Ical.json_text_partial",
    "Ical.json_text_deep_partial",
    "Ical.json_text_injective",
    "Ical.json_text_one_line",
    "Ical.json_text_violated"
   ],
   "note": "The claim fails for deeply nested calendars: serde_json gives up at 128 nested arrays and objects, so 63 components inside one another are written but not read (json_text_violated). json_text_exact says exactly which texts are read and as what: the JSON texts (RFC 8259) of the values of a calendar (Spec/Json.lean) that is Shallow, i.e. with no component below level 61, or 62 without properties. serde_json itself is modelled from its documentation."
  },
  {
   "property": "C128",
   "status": "partial",
   "theorems": [
    "Ical.uids_apart_iff",
    "Ical.uids_apart_partial",
    "Ical.uids_apart_violated",
    "Ical.venues_known_iff",
    "Ical.venues_known_partial",
    "Ical.venue_refers",
    "Ical.venues_known_violated"
   ],
   "note": "The code violates the claim for UIDs in which a backslash stands before a colon, an n or an N: two such UIDs become one (uids_apart_violated), and a reference, which is written as a parameter and not escaped, no longer names its venue (venues_known_violated). uids_apart_iff and venues_known_iff say exactly when UIDs are the same and references can be followed; for all other UIDs the claim holds (the partial theorems)."
  },
  {
   "property": "C129",
   "status": "partial",
   "theorems": [
    "Ical.occurs_built",
    "Ical.event_occurs_iff",
    "Ical.event_typed_partial",
    "Ical.todo_occurs_iff",
    "Ical.todo_typed_partial",
    "Ical.calendar_occurs_iff",
    "Ical.occurs_violated"
   ],
   "note": "The code does not ask for DTSTART or for a component, lets add_multi_property repeat any property and append_property any property of a calendar (occurs_violated). occurs_built says for every history of calls how often each property occurs; the iff theorems say exactly which histories give what RFC 5545 asks for. By typed calls alone an event is complete if and only if one of them says when it starts, and a to-do always (the partial theorems)."
  },
  {
   "property": "C130",
   "status": "proved",
   "theorems": [
    "Ical.items_unique",
    "Ical.file_one_component",
    "Ical.one_reading"
   ],
   "note": "Well-formed means that no property name starts with BEGIN or END or is one of them in other letters, that parameters are written in one of the ways the reader knows, and that raw values stop at the end of their line. Files with LF line breaks must not contain CR (as in C66)."
  },
  {
   "property": "C131",
   "status": "proved",
   "theorems": [
    "Ical.component_edited",
    "Ical.calendar_edited"
   ],
   "note": ""
  },
  {
   "property": "C132",
   "status": "proved",
   "theorems": [
    "Ical.write_calendar_steps",
    "Ical.write_calendar_quadratic",
    "Ical.write_calendar_counted",
    "Ical.rewrite_steps"
   ],
   "note": "Steps are counted by versions of the writers of the model that return numbers (Model/WriteWork.lean). The quadratic growth is real for a single long line (C86). Texts that open components in lower case letters can take exponential time to read (C84)."
  },
  {
   "property": "C133",
   "status": "proved",
   "theorems": [
    "Ical.file_getters",
    "Ical.file_alarms"
   ],
   "note": "TEXT values and addresses are specified for lines without VALUE parameter; numbers and names for values without backslashes. get_last_modified and TIMEZONE-ID look for names nobody writes (C50, C44)."
  },
  {
   "property": "C134",
   "status": "proved",
   "theorems": [
    "Ical.taken_reread",
    "Ical.merged_reread",
    "Ical.merged_file",
    "Ical.split_merge"
   ],
   "note": "Texts change as in C83 and DTSTAMP and UID are generated where they are missing (taken_reread, merged_reread); split_merge is for calendars that have the stamps and texts that survive (C25)."
  },
  {
   "property": "C135",
   "status": "proved",
   "theorems": [
    "Ical.calendar_message_size",
    "Ical.component_message_size",
    "Ical.property_message_size",
    "Ical.simple_message_size",
    "Ical.file_message_size"
   ],
   "note": "From the exact messages of C90 and C120: the lines quoted for the components around an error are different lines. The bound 10^19 only limits the digits of line numbers."
  },
  {
   "property": "C136",
   "status": "proved",
   "theorems": [
    "Ical.respelt_same",
    "Ical.replaced_same",
    "Ical.becomes_read",
    "Ical.written_presents"
   ],
   "note": "Induction on the chain; each step keeps what is read. written_presents shows that what is written is a file of the kind the steps start from."
  },
  {
   "property": "C137",
   "status": "proved",
   "theorems": [
    "Ical.to_lf",
    "Ical.to_crlf",
    "Ical.written_converted"
   ],
   "note": "Converting commutes with unfolding, also for a line break folded in the middle. Examples/Breaks.lean shows that a line with a LF in a CRLF file does not survive."
  },
  {
   "property": "C138",
   "status": "proved",
   "theorems": [
    "Ical.octets_text",
    "Ical.octet_programs",
    "Ical.split_character",
    "Ical.octet_folded",
    "Ical.written_octet_lines",
    "Ical.refolded_octets"
   ],
   "note": "The octets of a character are those of RFC 3629 (Spec/Octets.lean), proved equal to the encoder of Lean. The 76 octets of the last line are the subject of C02."
  },
  {
   "property": "C139",
   "status": "proved",
   "theorems": [
    "Ical.lossy_function",
    "Ical.lossy_text",
    "Ical.damaged_read",
    "Ical.lossy_document",
    "Ical.lossy_calendar",
    "Ical.lossy_written"
   ],
   "note": "Lossy decoding is specified as the substitution of maximal subparts (Spec/Lossy.lean), which the documentation of Rust refers to; that the standard library does this is trusted. Names that are not in ASCII are excluded: U+FFFD is not a name character."
  },
  {
   "property": "C140",
   "status": "proved",
   "theorems": [
    "Ical.mild_replacement",
    "Ical.replaced_text",
    "Ical.replaced_document",
    "Ical.replaced_calendar",
    "Ical.replaced_written"
   ],
   "note": "Replacements by nothing are not covered: a parameter value can become empty, which is not read in quotes."
  },
  {
   "property": "C141",
   "status": "partial",
   "theorems": [
    "Ical.stripped_same",
    "Ical.stripped_text",
    "Ical.stripped_document",
    "Ical.stripped_calendar",
    "Ical.stripped_written",
    "Ical.stripped_violated"
   ],
   "note": "The values are not the same: fold_line looks for white space after the place where it cuts and not before it, so that it writes lines that end in a blank (stripped_violated: an ordinary sentence loses a space between two words). Proved is that nothing else happens: the stripped file is read as the same calendar with nothing but some blanks missing in values, and the file does not change at all exactly if no blank is followed by a line break or the end of the file."
  },
  {
   "property": "C142",
   "status": "proved",
   "theorems": [
    "Ical.merged_lines",
    "Ical.lines_of_text",
    "Ical.merged_ok",
    "Ical.calendar_merged",
    "Ical.merged_same_name"
   ],
   "note": "That the merge of the documents is a merge of their lines is merged_lines; merged_same_name shows that the condition on names is needed."
  },
  {
   "property": "C143",
   "status": "partial",
   "theorems": [
    "Ical.search_value",
    "Ical.search_lines",
    "Ical.search_finds",
    "Ical.search_folded",
    "Ical.search_short",
    "Ical.search_violated"
   ],
   "note": "The code violates the claim twice (search_violated): in the file as it is, a word is missed where its line is folded, and as a line feed is written as backslash and N, a word that starts with N is found where a value has a line feed and the rest of the word. Proved: exactly when a word is found in a line of the unfolded file (search_value, search_lines), that no value is missed there (search_finds), and that none is missed in the file as it is if its line has at most 75 octets (search_short); exactly when a word is found in the text of a property as it is (search_folded)."
  },
  {
   "property": "C144",
   "status": "partial",
   "theorems": [
    "Ical.redacted_unfold",
    "Ical.redacted_document",
    "Ical.redacted_calendar",
    "Ical.redacted_written",
    "Ical.redacted_leak",
    "Ical.name_not_cut",
    "Ical.written_notContinued",
    "Ical.redacted_short",
    "Ical.redacted_violated"
   ],
   "note": "The code violates the claim for lines that are folded (redacted_violated): the rest of the removed value is left and becomes part of the value before. Proved: what is left if a removed line is continued (redacted_leak), the claim for all files in which no removed line is continued (redacted_unfold, redacted_document, redacted_calendar, redacted_written), and that this holds in what is written if the lines of the removed properties have at most 75 octets (written_notContinued, redacted_short; folding never cuts a name of at most 74 ASCII characters, name_not_cut)."
  },
  {
   "property": "C145",
   "status": "proved",
   "theorems": [
    "Ical.brackets_read",
    "Ical.brackets_written",
    "Ical.brackets_count",
    "Ical.count_written"
   ],
   "note": ""
  },
  {
   "property": "C146",
   "status": "partial",
   "theorems": [
    "Ical.lines_of_name",
    "Ical.lines_found",
    "Ical.lines_whole",
    "Ical.lines_violated"
   ],
   "note": "The code violates the claim twice (lines_violated): of lines with more than 75 octets only the beginning is found, and with white space beyond ASCII at certain places a line is cut before the colon behind its name, so that it is not found at all. Proved: nothing but beginnings of lines of properties of the name is found (lines_of_name), exactly one for each if the name has at most 73 ASCII characters and no white space follows the colon or semicolon (lines_found), and the whole lines if they have at most 75 octets (lines_whole). For DTSTAMP and UID the components must have them, as they are generated otherwise."
  },
  {
   "property": "C147",
   "status": "proved",
   "theorems": [
    "Ical.selected_written",
    "Ical.selected_read"
   ],
   "note": ""
  },
  {
   "property": "C148",
   "status": "proved",
   "theorems": [
    "Ical.selected_file",
    "Ical.selected_unfold",
    "Ical.selected_folded"
   ],
   "note": "Examples/FileBlocks.lean shows that a part is left of a folded END line."
  },
  {
   "property": "C149",
   "status": "proved",
   "theorems": [
    "Ical.taken_out",
    "Ical.taken_only"
   ],
   "note": ""
  },
  {
   "property": "C150",
   "status": "proved",
   "theorems": [
    "Ical.file_parts",
    "Ical.recombined"
   ],
   "note": ""
  },
  {
   "property": "C151",
   "status": "proved",
   "theorems": [
    "Ical.added_file",
    "Ical.added_unfold",
    "Ical.added_written"
   ],
   "note": ""
  },
  {
   "property": "C152",
   "status": "proved",
   "theorems": [
    "Ical.restated_unfold",
    "Ical.restated_document",
    "Ical.restated_calendar",
    "Ical.restated_written",
    "Ical.restated_short"
   ],
   "note": ""
  },
  {
   "property": "C153",
   "status": "proved",
   "theorems": [
    "Ical.renamed_unfold",
    "Ical.renamed_document",
    "Ical.renamed_calendar",
    "Ical.written_notCut",
    "Ical.plain_findable",
    "Ical.renamed_written",
    "Ical.renamed_violated"
   ],
   "note": "renamed_violated shows what happens without the condition: a value that begins with no-break spaces is cut behind the name, so the line is not renamed"
  },
  {
   "property": "C154",
   "status": "proved",
   "theorems": [
    "Ical.removed_folded",
    "Ical.replaced_folded",
    "Ical.removed_calendar",
    "Ical.removed_written",
    "Ical.exchanged_calendar",
    "Ical.exchanged_written"
   ],
   "note": ""
  },
  {
   "property": "C155",
   "status": "proved",
   "theorems": [
    "Ical.unblocked_unfold",
    "Ical.unblocked_document",
    "Ical.unblocked_calendar",
    "Ical.unblocked_written",
    "Ical.unblocked_violated"
   ],
   "note": ""
  },
  {
   "property": "C156",
   "status": "proved",
   "theorems": [
    "Ical.retitled_unfold",
    "Ical.retitled_document",
    "Ical.retitled_calendar",
    "Ical.retitled_written",
    "Ical.retitled_violated"
   ],
   "note": ""
  }
 ]
}