import Verif.Props.Acceptance
import Verif.Props.AddLines
import Verif.Props.Alarms
import Verif.Props.Alone
import Verif.Props.Around
import Verif.Props.Blocks
import Verif.Props.Brackets
import Verif.Props.Breaks
import Verif.Props.Builders
import Verif.Props.Built
import Verif.Props.Calendars
import Verif.Props.CallOrder
import Verif.Props.Clean
import Verif.Props.ContentLine
import Verif.Props.Corners
import Verif.Props.CutFile
import Verif.Props.DateOrder
import Verif.Props.DateReaders
import Verif.Props.DateText
import Verif.Props.Dates
import Verif.Props.Durations
import Verif.Props.EditFolded
import Verif.Props.Edits
import Verif.Props.Errors
import Verif.Props.Escaping
import Verif.Props.FileAlarms
import Verif.Props.FileBlocks
import Verif.Props.FileGetters
import Verif.Props.Finishes
import Verif.Props.FoldExact
import Verif.Props.FoldFill
import Verif.Props.FoldWork
import Verif.Props.Folding
import Verif.Props.Foreign
import Verif.Props.Getters
import Verif.Props.Grammar
import Verif.Props.Grep
import Verif.Props.Injection
import Verif.Props.InjectionExact
import Verif.Props.Injective
import Verif.Props.Json
import Verif.Props.JsonText
import Verif.Props.Kinds
import Verif.Props.Layout
import Verif.Props.LineAlone
import Verif.Props.LineEdits
import Verif.Props.LineOrder
import Verif.Props.Lists
import Verif.Props.Locality
import Verif.Props.LooseDates
import Verif.Props.Lossy
import Verif.Props.MeasuredParts
import Verif.Props.Merge
import Verif.Props.MessageSize
import Verif.Props.Mixed
import Verif.Props.MixedExact
import Verif.Props.NameCase
import Verif.Props.Names
import Verif.Props.Nesting
import Verif.Props.NotUnfolded
import Verif.Props.NthWork
import Verif.Props.Numerals
import Verif.Props.Occurs
import Verif.Props.Octets
import Verif.Props.Order
import Verif.Props.OwnLine
import Verif.Props.OwnText
import Verif.Props.ParamLists
import Verif.Props.Parameter
import Verif.Props.Params
import Verif.Props.Parsing
import Verif.Props.Passing
import Verif.Props.Presentation
import Verif.Props.Print
import Verif.Props.PropertyRoundtrip
import Verif.Props.Recombine
import Verif.Props.Redact
import Verif.Props.Rename
import Verif.Props.ReplaceLines
import Verif.Props.Replaced
import Verif.Props.Report
import Verif.Props.Reprint
import Verif.Props.ReprintAll
import Verif.Props.ReprintExact
import Verif.Props.Reproducible
import Verif.Props.Reread
import Verif.Props.Retitle
import Verif.Props.Rewrite
import Verif.Props.RewriteExact
import Verif.Props.Rfc
import Verif.Props.Roundtrip
import Verif.Props.SameBut
import Verif.Props.SayCalls
import Verif.Props.Search
import Verif.Props.SimpleErrors
import Verif.Props.Sizes
import Verif.Props.Spans
import Verif.Props.Stamps
import Verif.Props.Streams
import Verif.Props.Strict
import Verif.Props.StrictDocs
import Verif.Props.StripBlocks
import Verif.Props.Stripped
import Verif.Props.Survives
import Verif.Props.TakeOut
import Verif.Props.ThreeWay
import Verif.Props.TriggerTexts
import Verif.Props.Triggers
import Verif.Props.Truncated
import Verif.Props.Uids
import Verif.Props.UnfoldTwice
import Verif.Props.Unique
import Verif.Props.ValueCase
import Verif.Props.Values
import Verif.Props.Venues
import Verif.Props.Work
import Verif.Props.WriteSizes
import Verif.Props.WriteWork
import Verif.Props.Writers
import Verif.Props.Writes
import Verif.Props.Written
import Verif.Props.ZoneRefs
import Verif.Props.Zones

/-!
The axioms every theorem listed in MANIFEST.json depends on, printed at build time.
-/

#print axioms Ical.fold_unfold
#print axioms Ical.written_unfold
#print axioms Ical.fold_octets_partial
#print axioms Ical.written_octets_partial
#print axioms Ical.fold_octets_violated
#print axioms Ical.fold_too_long_iff
#print axioms Ical.fold_too_long_iff_partial
#print axioms Ical.fold_too_long_cuts_partial
#print axioms Ical.fold_finishes_ascii_partial
#print axioms Ical.fold_finishes_width_partial
#print axioms Ical.fold_finishes_window_partial
#print axioms Ical.fold_finishes_noWs_partial
#print axioms Ical.whitespace_table
#print axioms Ical.fold_finishes_iff
#print axioms Ical.fold_hangs_iff
#print axioms Ical.fold_panics_iff
#print axioms Ical.fold_diverges
#print axioms Ical.fold_panics
#print axioms Ical.fold_pieces
#print axioms Ical.written_property
#print axioms Ical.fold_short
#print axioms Ical.fold_long
#print axioms Ical.written_short
#print axioms Ical.unfold_spec
#print axioms Ical.unfold_any_folding
#print axioms Ical.text_roundtrip_partial
#print axioms Ical.text_roundtrip_violated
#print axioms Ical.escape_inert
#print axioms Ical.unescape_rfc_partial
#print axioms Ical.unescape_rfc_violated
#print axioms Ical.value_type_agreement
#print axioms Ical.value_type_agreement_written
#print axioms Ical.property_roundtrip
#print axioms Ical.property_from_str
#print axioms Ical.parameter_order
#print axioms Ical.param_value_partial
#print axioms Ical.param_value_empty
#print axioms Ical.param_value_violated
#print axioms Ical.text_one_line
#print axioms Ical.text_isolated
#print axioms Ical.component_terminates
#print axioms Ical.repetition_terminates
#print axioms Ical.repeated_parsers_shrink
#print axioms Ical.one_root_partial
#print axioms Ical.two_roots_violated
#print axioms Ical.at_most_one_root
#print axioms Ical.roots_read_iff_partial
#print axioms Ical.truncated_exact_partial
#print axioms Ical.cut_file_exact_partial
#print axioms Ical.cut_output_partial
#print axioms Ical.truncated_nested_partial
#print axioms Ical.truncated_anywhere_partial
#print axioms Ical.truncated_root_violated
#print axioms Ical.root_closed_partial
#print axioms Ical.mismatched_end
#print axioms Ical.keyword_names_rejected
#print axioms Ical.parsed_names
#print axioms Ical.name_char_ascii
#print axioms Ical.reprint_partial
#print axioms Ical.print_parsed_partial
#print axioms Ical.reprint_component_partial
#print axioms Ical.reprint_iff_partial
#print axioms Ical.reprint_component_iff_partial
#print axioms Ical.reprint_exactly
#print axioms Ical.reprint_component_exactly
#print axioms Ical.reprint_violated
#print axioms Ical.lf_crlf_same
#print axioms Ical.lf_crlf_from_str
#print axioms Ical.keyword_case
#print axioms Ical.lowerAscii_table
#print axioms Ical.calendar_roundtrip
#print axioms Ical.missing_stamps
#print axioms Ical.reread_stable_partial
#print axioms Ical.reread_eventually_stable
#print axioms Ical.reread_stable_iff
#print axioms Ical.reread_stable_violated
#print axioms Ical.stamps_once_partial
#print axioms Ical.stamps_once_calendar_partial
#print axioms Ical.stamps_count_partial
#print axioms Ical.stamps_once_violated
#print axioms Ical.properly_nested
#print axioms Ical.kinds_preserved
#print axioms Ical.kinds_observed
#print axioms Ical.repeated_kept_partial
#print axioms Ical.repeated_single
#print axioms Ical.repeated_kept_violated
#print axioms Ical.repeated_kept_iff
#print axioms Ical.read_calendar_unwraps
#print axioms Ical.read_calendar_doc
#print axioms Ical.component_map
#print axioms Ical.last_set_wins
#print axioms Ical.unset_key
#print axioms Ical.specific_calls
#print axioms Ical.multi_keeps_all
#print axioms Ical.multi_independent
#print axioms Ical.sub_components
#print axioms Ical.key_order
#print axioms Ical.strCmp_utf8
#print axioms Ical.text_getters
#print axioms Ical.venue_getters
#print axioms Ical.priority_clamped
#print axioms Ical.priority_bounded
#print axioms Ical.sequence_roundtrip
#print axioms Ical.percent_roundtrip
#print axioms Ical.percent_bounded_partial
#print axioms Ical.percent_violated
#print axioms Ical.percent_bounded_iff
#print axioms Ical.enum_setters
#print axioms Ical.enum_texts
#print axioms Ical.action_texts
#print axioms Ical.done_moves
#print axioms Ical.calendar_history
#print axioms Ical.calendar_constructors
#print axioms Ical.calendar_getters
#print axioms Ical.calendar_timezone
#print axioms Ical.calendar_timezone_earliest
#print axioms Ical.calendar_getters_earliest
#print axioms Ical.timezone_id_violated
#print axioms Ical.timezone_id_partial
#print axioms Ical.timezone_exact_partial
#print axioms Ical.calendar_header
#print axioms Ical.parsed_header
#print axioms Ical.date_getters_partial
#print axioms Ical.chrono_starts
#print axioms Ical.all_day
#print axioms Ical.date_getters_violated
#print axioms Ical.utc_getters
#print axioms Ical.utc_getters_outside
#print axioms Ical.date_text_form
#print axioms Ical.date_text_injective
#print axioms Ical.date_document_partial
#print axioms Ical.date_document_violated
#print axioms Ical.last_modified_partial
#print axioms Ical.last_modified_violated
#print axioms Ical.last_modified_ignored_violated
#print axioms Ical.last_modified_exact_partial
#print axioms Ical.date_naive_agrees
#print axioms Ical.date_naive_text_exact_partial
#print axioms Ical.date_naive_text_partial
#print axioms Ical.date_naive_text_violated
#print axioms Ical.try_into_utc_spec
#print axioms Ical.alarm_mandatory
#print axioms Ical.trigger_roundtrip_partial
#print axioms Ical.trigger_dateTime_exact
#print axioms Ical.alarm_trigger
#print axioms Ical.alarm_follows
#print axioms Ical.trigger_roundtrip_violated
#print axioms Ical.trigger_duration_exact
#print axioms Ical.ttl_roundtrip
#print axioms Ical.ttl_fallback
#print axioms Ical.ttl_document
#print axioms Ical.ttl_negative
#print axioms Ical.trigger_constructors
#print axioms Ical.escape_conforming
#print axioms Ical.escape_injective
#print axioms Ical.simple_conversion_partial
#print axioms Ical.simple_reader_partial
#print axioms Ical.simple_conversion_violated
#print axioms Ical.built_component_ok
#print axioms Ical.specific_args_ok
#print axioms Ical.built_alarm_ok
#print axioms Ical.built_calendar_ok
#print axioms Ical.built_roundtrip
#print axioms Ical.built_events_roundtrip
#print axioms Ical.writing_finishes_partial
#print axioms Ical.writing_finishes_iff
#print axioms Ical.total_roundtrip
#print axioms Ical.writing_finishes_violated
#print axioms Ical.getters_survive
#print axioms Ical.event_getters_survive
#print axioms Ical.todo_getters_survive
#print axioms Ical.venue_getters_survive
#print axioms Ical.serialization_reproducible
#print axioms Ical.serializations_equivalent
#print axioms Ical.rewrite_identical
#print axioms Ical.calls_determined
#print axioms Ical.call_order_irrelevant
#print axioms Ical.call_idempotent
#print axioms Ical.parameters_map
#print axioms Ical.parameters_written_once
#print axioms Ical.value_type_parameter
#print axioms Ical.from_ymd_hm_tzid_spec
#print axioms Ical.try_from_pair_spec
#print axioms Ical.from_date_time_instant
#print axioms Ical.zoned_start_instant
#print axioms Ical.foreign_document
#print axioms Ical.foreign_component
#print axioms Ical.no_injection_partial
#print axioms Ical.no_injection_violated
#print axioms Ical.inject_anything
#print axioms Ical.no_injection_iff
#print axioms Ical.harmless_iff
#print axioms Ical.presentation_irrelevant
#print axioms Ical.presentation_content
#print axioms Ical.written_component
#print axioms Ical.written_calendar
#print axioms Ical.read_component_sound
#print axioms Ical.read_components_sound
#print axioms Ical.read_calendar_sound
#print axioms Ical.read_property_sound
#print axioms Ical.not_calendar_partial
#print axioms Ical.not_calendar_violated
#print axioms Ical.trailing_text_violated
#print axioms Ical.empty_calendar_iff_partial
#print axioms Ical.find_prop_partial
#print axioms Ical.find_prop_iff_partial
#print axioms Ical.find_prop_violated
#print axioms Ical.date_value_read
#print axioms Ical.date_time_value_read
#print axioms Ical.utc_value_read
#print axioms Ical.date_kind_read
#print axioms Ical.parsed_date_read
#print axioms Ical.from_ymd_hm_tzid_days
#print axioms Ical.date_readers_agree_exact_partial
#print axioms Ical.date_readers_agree_partial
#print axioms Ical.date_readers_violated
#print axioms Ical.value_type_rfc
#print axioms Ical.name_case_exact_partial
#print axioms Ical.lowercase_table
#print axioms Ical.name_case_partial
#print axioms Ical.name_case_violated
#print axioms Ical.json_roundtrip
#print axioms Ical.json_component_roundtrip
#print axioms Ical.json_injective
#print axioms Ical.json_read
#print axioms Ical.json_component_read
#print axioms Ical.fold_cuts_partial
#print axioms Ical.fold_exact
#print axioms Ical.cuts_unique
#print axioms Ical.fold_fill_partial
#print axioms Ical.fold_fill_violated
#print axioms Ical.mixed_breaks_exact_partial
#print axioms Ical.mixed_breaks_partial
#print axioms Ical.mixed_breaks_violated
#print axioms Ical.lf_line_swallows
#print axioms Ical.param_lists_partial
#print axioms Ical.rfc_line_read_iff
#print axioms Ical.quoted_list_dropped
#print axioms Ical.list_colon_misread
#print axioms Ical.quoted_list_rejected
#print axioms Ical.quoted_list_emptied
#print axioms Ical.read_calendar_size
#print axioms Ical.read_component_size
#print axioms Ical.write_property_size
#print axioms Ical.unescape_exact
#print axioms Ical.text_reread
#print axioms Ical.calendar_reread
#print axioms Ical.calendar_survives_iff
#print axioms Ical.measured_parts
#print axioms Ical.measured_reader
#print axioms Ical.read_steps_partial
#print axioms Ical.read_steps_any_partial
#print axioms Ical.read_steps_tight
#print axioms Ical.read_steps_violated
#print axioms Ical.read_steps_no_polynomial_violated
#print axioms Ical.read_depth_partial
#print axioms Ical.read_depth_exact_partial
#print axioms Ical.read_depth_written_partial
#print axioms Ical.read_depth_violated
#print axioms Ical.write_steps_partial
#print axioms Ical.write_steps_tight
#print axioms Ical.write_steps_violated
#print axioms Ical.nth_counted
#print axioms Ical.read_steps_linear
#print axioms Ical.read_steps_written
#print axioms Ical.component_roundtrip
#print axioms Ical.component_missing_stamps
#print axioms Ical.print_calendar
#print axioms Ical.print_component
#print axioms Ical.trigger_duration_read
#print axioms Ical.trigger_date_time_read
#print axioms Ical.trigger_nothing_else
#print axioms Ical.trigger_read_iff
#print axioms Ical.error_iff_rejected
#print axioms Ical.calendar_error_message
#print axioms Ical.component_error_message
#print axioms Ical.component_error_empty
#print axioms Ical.property_error_message
#print axioms Ical.blamed_places
#print axioms Ical.message_unique
#print axioms Ical.isPlace_unique
#print axioms Ical.mismatched_end_message_partial
#print axioms Ical.missing_end_message_partial
#print axioms Ical.keyword_name_message_partial
#print axioms Ical.unreadable_line_violated
#print axioms Ical.unreadable_root_violated
#print axioms Ical.calendar_report_iff
#print axioms Ical.folded_number_violated
#print axioms Ical.write_injective
#print axioms Ical.write_component_injective
#print axioms Ical.write_property_injective
#print axioms Ical.stream_partial
#print axioms Ical.stream_violated
#print axioms Ical.rewrite_exactly
#print axioms Ical.rewrite_partial
#print axioms Ical.rewrite_clean_partial
#print axioms Ical.clean_read_ok
#print axioms Ical.reread_property_iff
#print axioms Ical.rewrite_same_iff
#print axioms Ical.parsed_calendar_ok
#print axioms Ical.parsed_component_ok
#print axioms Ical.rewrite_violated
#print axioms Ical.call_conforms_iff
#print axioms Ical.trigger_conforms_iff
#print axioms Ical.setters_conform_partial
#print axioms Ical.event_conforms_partial
#print axioms Ical.todo_conforms_partial
#print axioms Ical.alarm_conforms_partial
#print axioms Ical.setters_conform_violated
#print axioms Ical.parsed_component_text
#print axioms Ical.parsed_components_text
#print axioms Ical.parsed_calendar_text
#print axioms Ical.generated_uids_distinct
#print axioms Ical.stamps_gained
#print axioms Ical.stamps_allowed_partial
#print axioms Ical.stamps_allowed_violated
#print axioms Ical.stamps_allowed_iff
#print axioms Ical.edits_ok
#print axioms Ical.read_edit_write
#print axioms Ical.read_set_write
#print axioms Ical.text_list_written_partial
#print axioms Ical.text_list_iff_partial
#print axioms Ical.other_list_written
#print axioms Ical.text_list_violated
#print axioms Ical.date_text_order
#print axioms Ical.time_text_order
#print axioms Ical.date_text_order_violated
#print axioms Ical.spans_iff
#print axioms Ical.event_span_partial
#print axioms Ical.all_day_span_violated
#print axioms Ical.line_order_irrelevant
#print axioms Ical.line_order_component
#print axioms Ical.swap_lines
#print axioms Ical.set_is_local
#print axioms Ical.add_multi_is_local
#print axioms Ical.add_component_is_local
#print axioms Ical.push_is_local
#print axioms Ical.replace_is_local
#print axioms Ical.steadyOrder_of_few
#print axioms Ical.component_alone
#print axioms Ical.subcomponent_alone
#print axioms Ical.others_unaffected
#print axioms Ical.parseUnsigned_iff
#print axioms Ical.priority_read
#print axioms Ical.sequence_read
#print axioms Ical.percent_read
#print axioms Ical.numeral_unique
#print axioms Ical.parseDate_iff
#print axioms Ical.parseDateTime_iff
#print axioms Ical.parseUtc_iff
#print axioms Ical.parsed_date_iff
#print axioms Ical.date_read_iff
#print axioms Ical.date_getters_iff
#print axioms Ical.utc_getters_iff
#print axioms Ical.completed_iff
#print axioms Ical.date_strict
#print axioms Ical.only_rfc_dates_partial
#print axioms Ical.only_rfc_dates_violated
#print axioms Ical.property_read_iff
#print axioms Ical.property_rejected_iff
#print axioms Ical.component_read_iff
#print axioms Ical.component_rejected_iff
#print axioms Ical.calendar_read_iff
#print axioms Ical.calendar_rejected_iff
#print axioms Ical.text_unambiguous
#print axioms Ical.text_exclusive
#print axioms Ical.written_piecewise
#print axioms Ical.writer_gets_prefix
#print axioms Ical.writer_crash_lines
#print axioms Ical.writer_string
#print axioms Ical.writer_buffer_iff
#print axioms Ical.calendar_writer
#print axioms Ical.strict_unique
#print axioms Ical.strict_property_iff
#print axioms Ical.strict_component_iff
#print axioms Ical.strict_calendar_iff
#print axioms Ical.duration_text
#print axioms Ical.duration_text_unique
#print axioms Ical.duration_injective
#print axioms Ical.duration_rfc_iff
#print axioms Ical.duration_properties
#print axioms Ical.rfc_document_read_iff_partial
#print axioms Ical.rfc_document_means_partial
#print axioms Ical.rfc_document_exact
#print axioms Ical.rfc_written_read_iff
#print axioms Ical.rfc_document_read_violated
#print axioms Ical.write_component_size
#print axioms Ical.write_calendar_size
#print axioms Ical.rewrite_size
#print axioms Ical.built_sayable_iff
#print axioms Ical.built_said
#print axioms Ical.call_said_iff
#print axioms Ical.kinds_said
#print axioms Ical.alarm_sayable_iff
#print axioms Ical.calendar_said_iff
#print axioms Ical.own_text_partial
#print axioms Ical.own_text_read
#print axioms Ical.own_text_iff
#print axioms Ical.own_text_violated
#print axioms Ical.not_folded_partial
#print axioms Ical.folded_line_rejected_partial
#print axioms Ical.folded_root_line_partial
#print axioms Ical.folded_line_split
#print axioms Ical.folded_line_violated
#print axioms Ical.folded_events_merged_violated
#print axioms Ical.calls_zones
#print axioms Ical.zones_kept
#print axioms Ical.zones_push_partial
#print axioms Ical.zones_none_partial
#print axioms Ical.zoneless_calls_partial
#print axioms Ical.zones_defined_violated
#print axioms Ical.property_survives_iff
#print axioms Ical.plain_property_survives_iff
#print axioms Ical.short_property_survives_iff
#print axioms Ical.calendar_survives_exactly
#print axioms Ical.component_survives_exactly
#print axioms Ical.clean_survives_iff
#print axioms Ical.component_report_iff
#print axioms Ical.reports_unique
#print axioms Ical.parameter_read_iff
#print axioms Ical.parameter_rejected_iff
#print axioms Ical.parameter_survives_iff
#print axioms Ical.simple_reads
#print axioms Ical.simple_error_iff
#print axioms Ical.simple_error_place
#print axioms Ical.simple_error_message
#print axioms Ical.value_case_partial
#print axioms Ical.value_date_case_violated
#print axioms Ical.related_case_violated
#print axioms Ical.trigger_case_violated
#print axioms Ical.around_exact_partial
#print axioms Ical.around_violated
#print axioms Ical.line_alone_partial
#print axioms Ical.line_alone_violated
#print axioms Ical.unfold_twice_iff
#print axioms Ical.unfold_first_partial
#print axioms Ical.unfold_written_partial
#print axioms Ical.unfold_twice_violated
#print axioms Ical.json_text_read
#print axioms Ical.json_text_exact
#print axioms Ical.json_text_compact
#print axioms Ical.json_text_pretty
#print axioms Ical.json_text_partial
#print axioms Ical.json_text_deep_partial
#print axioms Ical.json_text_injective
#print axioms Ical.json_text_one_line
#print axioms Ical.json_text_violated
#print axioms Ical.uids_apart_iff
#print axioms Ical.uids_apart_partial
#print axioms Ical.uids_apart_violated
#print axioms Ical.venues_known_iff
#print axioms Ical.venues_known_partial
#print axioms Ical.venue_refers
#print axioms Ical.venues_known_violated
#print axioms Ical.occurs_built
#print axioms Ical.event_occurs_iff
#print axioms Ical.event_typed_partial
#print axioms Ical.todo_occurs_iff
#print axioms Ical.todo_typed_partial
#print axioms Ical.calendar_occurs_iff
#print axioms Ical.occurs_violated
#print axioms Ical.items_unique
#print axioms Ical.file_one_component
#print axioms Ical.one_reading
#print axioms Ical.component_edited
#print axioms Ical.calendar_edited
#print axioms Ical.write_calendar_steps
#print axioms Ical.write_calendar_quadratic
#print axioms Ical.write_calendar_counted
#print axioms Ical.rewrite_steps
#print axioms Ical.file_getters
#print axioms Ical.file_alarms
#print axioms Ical.taken_reread
#print axioms Ical.merged_reread
#print axioms Ical.merged_file
#print axioms Ical.split_merge
#print axioms Ical.calendar_message_size
#print axioms Ical.component_message_size
#print axioms Ical.property_message_size
#print axioms Ical.simple_message_size
#print axioms Ical.file_message_size
#print axioms Ical.respelt_same
#print axioms Ical.replaced_same
#print axioms Ical.becomes_read
#print axioms Ical.written_presents
#print axioms Ical.to_lf
#print axioms Ical.to_crlf
#print axioms Ical.written_converted
#print axioms Ical.octets_text
#print axioms Ical.octet_programs
#print axioms Ical.split_character
#print axioms Ical.octet_folded
#print axioms Ical.written_octet_lines
#print axioms Ical.refolded_octets
#print axioms Ical.lossy_function
#print axioms Ical.lossy_text
#print axioms Ical.damaged_read
#print axioms Ical.lossy_document
#print axioms Ical.lossy_calendar
#print axioms Ical.lossy_written
#print axioms Ical.mild_replacement
#print axioms Ical.replaced_text
#print axioms Ical.replaced_document
#print axioms Ical.replaced_calendar
#print axioms Ical.replaced_written
#print axioms Ical.stripped_same
#print axioms Ical.stripped_text
#print axioms Ical.stripped_document
#print axioms Ical.stripped_calendar
#print axioms Ical.stripped_written
#print axioms Ical.stripped_violated
#print axioms Ical.merged_lines
#print axioms Ical.lines_of_text
#print axioms Ical.merged_ok
#print axioms Ical.calendar_merged
#print axioms Ical.merged_same_name
#print axioms Ical.search_value
#print axioms Ical.search_lines
#print axioms Ical.search_finds
#print axioms Ical.search_folded
#print axioms Ical.search_short
#print axioms Ical.search_violated
#print axioms Ical.redacted_unfold
#print axioms Ical.redacted_document
#print axioms Ical.redacted_calendar
#print axioms Ical.redacted_written
#print axioms Ical.redacted_leak
#print axioms Ical.name_not_cut
#print axioms Ical.written_notContinued
#print axioms Ical.redacted_short
#print axioms Ical.redacted_violated
#print axioms Ical.brackets_read
#print axioms Ical.brackets_written
#print axioms Ical.brackets_count
#print axioms Ical.count_written
#print axioms Ical.lines_of_name
#print axioms Ical.lines_found
#print axioms Ical.lines_whole
#print axioms Ical.lines_violated
#print axioms Ical.selected_written
#print axioms Ical.selected_read
#print axioms Ical.selected_file
#print axioms Ical.selected_unfold
#print axioms Ical.selected_folded
#print axioms Ical.taken_out
#print axioms Ical.taken_only
#print axioms Ical.file_parts
#print axioms Ical.recombined
#print axioms Ical.added_file
#print axioms Ical.added_unfold
#print axioms Ical.added_written
#print axioms Ical.restated_unfold
#print axioms Ical.restated_document
#print axioms Ical.restated_calendar
#print axioms Ical.restated_written
#print axioms Ical.restated_short
#print axioms Ical.renamed_unfold
#print axioms Ical.renamed_document
#print axioms Ical.renamed_calendar
#print axioms Ical.written_notCut
#print axioms Ical.plain_findable
#print axioms Ical.renamed_written
#print axioms Ical.renamed_violated
#print axioms Ical.removed_folded
#print axioms Ical.replaced_folded
#print axioms Ical.removed_calendar
#print axioms Ical.removed_written
#print axioms Ical.exchanged_calendar
#print axioms Ical.exchanged_written
#print axioms Ical.unblocked_unfold
#print axioms Ical.unblocked_document
#print axioms Ical.unblocked_calendar
#print axioms Ical.unblocked_written
#print axioms Ical.unblocked_violated
#print axioms Ical.retitled_unfold
#print axioms Ical.retitled_document
#print axioms Ical.retitled_calendar
#print axioms Ical.retitled_written
#print axioms Ical.retitled_violated
