import Verif.Examples.Samples
import Verif.Props.Builders
import Verif.Props.Built
import Verif.Props.Calendars
import Verif.Props.CallOrder
import Verif.Props.DateOrder
import Verif.Props.DateReaders
import Verif.Props.DateText
import Verif.Props.Dates
import Verif.Props.Durations
import Verif.Props.Edits
import Verif.Props.Getters
import Verif.Props.Json
import Verif.Props.LooseDates
import Verif.Props.Numerals
import Verif.Props.Occurs
import Verif.Props.Order
import Verif.Props.Rfc
import Verif.Props.SayCalls
import Verif.Props.Spans
import Verif.Props.Strict
import Verif.Props.StrictDocs
import Verif.Props.Triggers
import Verif.Props.ValueCase
import Verif.Props.Values
import Verif.Props.ZoneRefs
import Verif.Props.Zones

/-! The theorems about building and asking components, applied to concrete calls. -/

namespace Ical.Sample

open Spec

/-- calls as a program makes them -/
def calls : List Call :=
  [.summary c!"a\r\nEND:VEVENT;b,c", .uid c!"x y", .priority 99, .summary c!"again",
    .starts (.dateTime (.zoned ⟨⟨2026, 1, 1⟩, 1, 2, 3, 0⟩ c!"Europe/Berlin")),
    .appendMultiProperty ⟨c!"ATTENDEE", c!"mailto:x", [(c!"CN", c!"A;B")]⟩,
    .appendMultiProperty ⟨c!"ATTENDEE", c!"mailto:y", []⟩]

/-- a moment on a leap day -/
def t0 : NaiveDateTime := ⟨⟨2024, 2, 29⟩, 23, 59, 58, 5⟩

theorem t0_valid : t0.Valid := by unfold t0 NaiveDateTime.Valid NaiveDate.Valid; decide
theorem d0_valid : t0.date.Valid := by unfold t0 NaiveDate.Valid; decide
theorem d0_year : FourDigitYear t0.date := ⟨by decide, by decide⟩

-- C33
example := unset_key Event.new calls c!"LOCATION" ✓
-- C34
example := multi_independent Event.new (.appendMultiProperty ⟨c!"ATTENDEE", c!"mailto:x", [(c!"CN", c!"A;B")]⟩) rfl
-- C35
def callsText : Str :=
  c!"BEGIN:VEVENT\r\nDTSTAMP:20260101T000000Z\r\nDTSTART;TZID=Europe/Berlin:20260101T010203\r\nPRIORITY:10\r\nSUMMARY:again\r\nUID:x y\r\nATTENDEE;CN=\"A;B\":mailto:x\r\nATTENDEE:mailto:y\r\nEND:VEVENT\r\n"

theorem calls_text : Component.fmtWrite (calls.foldl Call.run Event.new) w = .ok callsText := ✓
example := key_order Event.new rfl calls w callsText calls_text
-- C37
example := priority_bounded (calls.foldl Call.run Event.new) 10 ✓
-- C39
example := percent_bounded_partial Todo.new [.percentComplete 200] [.common (.summary c!"a"), .status .inProcess] 95 ✓ ✓ 95 ✓
-- C43
example := calendar_timezone Calendar.new c!"Europe/Berlin" [.name c!"a", .timezone c!"b"] ✓ ✓
example := calendar_timezone_earliest (Calendar.new.timezone c!"Europe/Berlin") c!"Europe/Berlin" [.name c!"a", .timezone c!"b"] ✓ ✓
-- C44
example := timezone_id_partial ⟨[⟨c!"X-WR-TIMEZONE", c!"Europe/Berlin", []⟩], []⟩ c!"Europe/Berlin" ✓ ✓
-- C46
example := chrono_starts Event.new ⟨t0⟩ t0_valid d0_year
example := all_day Event.new calls t0.date d0_valid d0_year
-- C47
example := utc_getters Event.new calls calls Todo.new [] [] ⟨t0⟩ t0_valid
-- C49
example := date_document_partial (.inl rfl) (.dateTime (.zoned t0 c!"Europe/Berlin")) t0_valid
  (by intro t z h; cases h; decide) w w_ok c!"DTSTART;TZID=Europe/Berlin:20240229T235958\r\n" ✓
-- C50
example := last_modified_partial (Component.addProperty Event.new c!"LAST_MODIFIED" (fmtUtc ⟨t0⟩)) ⟨t0⟩ t0_valid d0_year ✓
-- C51
example := date_naive_text_exact_partial ⟨c!"DTEND", c!"20240229T235960", [(c!"TZID", c!"Mars")]⟩
  (.dateTime (.zoned ⟨⟨2024, 2, 29⟩, 23, 59, 59, 1000000000⟩ c!"Mars")) ✓
example := date_naive_text_partial ⟨c!"DTEND", c!"20240229T235960", [(c!"TZID", c!"Mars")]⟩
  (.dateTime (.zoned ⟨⟨2024, 2, 29⟩, 23, 59, 59, 1000000000⟩ c!"Mars")) ✓ ✓ (by unfold IsDigit; decide)
-- C55
scoped instance reader : Iso8601 := Iso8601.sample
example := ttl_roundtrip c 3600 ✓ [.name c!"a", .ttl ⟨0⟩] ✓
example := ttl_document Calendar.new ⟨✓, nofun⟩ ⟨✓, nofun⟩ ✓ 3600 ✓ w w_ok
  c!"BEGIN:VCALENDAR\r\nVERSION:2.0\r\nPRODID:ICALENDAR-RS\r\nCALSCALE:GREGORIAN\r\nREFRESH-INTERVAL;VALUE=DURATION:PT3600S\r\nX-PUBLISHED-TTL:PT3600S\r\nEND:VCALENDAR\r\n" ✓
-- C59
theorem berlin_ok : ParamText c!"Europe/Berlin" := by unfold ParamText; decide +kernel
theorem street_ok : OneLineText c!"Street; 1" := oneLine_noLf ✓
example := specific_args_ok .confirmed .completed 95 (.dateTime (.zoned t0 c!"Europe/Berlin"))
  berlin_ok ⟨t0⟩ c!"Street; 1" street_ok
theorem calls_ok : ∀ x ∈ calls, x.ArgsOk := by
  simp only [calls, List.mem_cons, List.not_mem_nil, or_false, forall_eq_or_imp, forall_eq]
  exact ⟨trivial, trivial, trivial, trivial, berlin_ok, ⟨✓, ✓⟩, ⟨✓, ✓⟩⟩
theorem calls_safe : ∀ x ∈ calls, x.ArgsSafe := by
  simp only [calls, List.mem_cons, List.not_mem_nil, or_false, forall_eq_or_imp, forall_eq]
  exact ⟨⟨✓, nofun, nofun⟩, ⟨✓, nofun, nofun⟩, ⟨✓, nofun, nofun⟩, ⟨✓, nofun, nofun⟩, ⟨✓, nofun, nofun⟩,
    ⟨✓, (by intro p h; cases h; exact ✓), nofun⟩, ⟨✓, (by intro p h; cases h; exact ✓), nofun⟩⟩
example := built_events_roundtrip [calls] (by simpa only [List.mem_singleton, forall_eq] using calls_ok)
  (by simpa only [List.mem_singleton, forall_eq] using calls_safe) w w_ok
  (c!"BEGIN:VCALENDAR\r\nVERSION:2.0\r\nPRODID:ICALENDAR-RS\r\nCALSCALE:GREGORIAN\r\n" ++ callsText ++ c!"END:VCALENDAR\r\n") ✓
example := built_roundtrip [.name c!"a; b", .push (.event ⟨event.inner⟩)]
  (by simp only [List.mem_cons, List.not_mem_nil, or_false, forall_eq_or_imp, forall_eq]
      exact ⟨oneLine_noLf ✓, event_ok⟩)
  (by simp only [List.mem_cons, List.not_mem_nil, or_false, forall_eq_or_imp, forall_eq]
      refine ⟨⟨✓, nofun⟩, nofun, ?_⟩
      simp only [CalCall.comps, List.mem_singleton, forall_eq]
      exact event_safe) w w_ok
  (c!"BEGIN:VCALENDAR\r\nVERSION:2.0\r\nPRODID:ICALENDAR-RS\r\nCALSCALE:GREGORIAN\r\nNAME:a; b\r\nX-WR-CALNAME:a; b\r\n" ++
    eventText ++ c!"END:VCALENDAR\r\n") ✓
-- C63
theorem event_new_order : InOrder (Component.properties Event.new) ∧ InOrder (Component.multiProperties Event.new) := ✓
example := calls_determined Event.new event_new_order.1 event_new_order.2 [.summary c!"a", .uid c!"b", .summary c!"c"]
  [.summary c!"c", .uid c!"b"] ⟨fun k => by simp [Call.sets]; grind, fun _ => rfl, rfl⟩
example := call_order_irrelevant Event.new event_new_order.1 event_new_order.2
  [.summary c!"a", .uid c!"b", .appendMultiProperty ⟨c!"ATTENDEE", c!"c", []⟩]
  [.uid c!"b", .appendMultiProperty ⟨c!"ATTENDEE", c!"c", []⟩, .summary c!"a"]
  (.trans (.swap _ _ _) (.cons _ (.swap _ _ _)))
  (.cons (by
      simp only [List.mem_cons, List.not_mem_nil, or_false, forall_eq_or_imp, forall_eq]
      exact ⟨⟨✓, nofun, .inl rfl⟩, ⟨✓, nofun, .inl rfl⟩⟩)
    (.cons (by simp only [List.mem_cons, List.not_mem_nil, or_false, forall_eq]; exact ⟨✓, nofun, .inl rfl⟩)
      (.cons nofun .nil))) w
example := call_idempotent Event.new event_new_order.1 event_new_order.2 (.allDay t0.date) rfl rfl
-- C65
def db : TzDb := ⟨Unit, fun s => if s = c!"Etc/UTC" then some () else none, fun _ t => [⟨t⟩]⟩
def zoned : ZonedDateTime db := ⟨⟨{ t0 with nano := 0 }⟩, (), { t0 with nano := 0 }, .head _⟩
example := zoned_start_instant Event.new calls [.summary c!"b"] (db := db) ⟨fun _ => c!"Etc/UTC", fun _ => rfl⟩ zoned
  (by unfold zoned t0 NaiveDateTime.Valid NaiveDate.Valid; decide) d0_year rfl rfl ✓
-- C74
theorem d0_text : DateText c!"20240229" 2024 2 29 :=
  ⟨c!"2024", c!"02", c!"29", rfl, ⟨rfl, by decide, rfl⟩, ⟨rfl, by decide, rfl⟩, ⟨rfl, by decide, rfl⟩⟩
theorem leap_text : TimeText c!"235960" 23 59 60 :=
  ⟨c!"23", c!"59", c!"60", rfl, ⟨rfl, by decide, rfl⟩, ⟨rfl, by decide, rfl⟩, ⟨rfl, by decide, rfl⟩⟩
example := date_value_read ⟨c!"DTEND", c!"20240229", [(c!"VALUE", c!"DATE")]⟩ 2024 2 29 d0_text
example := date_time_value_read ⟨c!"DTEND", c!"20240229T235960", [(c!"TZID", c!"Mars")]⟩ _ _ 2024 2 29 23 59 60 rfl d0_text leap_text
example := utc_value_read ⟨c!"DTEND", c!"20240229T235960Z", []⟩ _ _ 2024 2 29 23 59 60 rfl d0_text leap_text
example := date_kind_read ⟨c!"DTEND", c!"20240229T235960", [(c!"TZID", c!"Mars")]⟩
  (.dateTime (.zoned ⟨⟨2024, 2, 29⟩, 23, 59, 59, 1000000000⟩ c!"Mars")) ✓
-- C75
example := date_readers_agree_partial ⟨c!"DTSTART", c!"20260228T235960", [⟨c!"X", none⟩, ⟨c!"TZID", some c!"Europe/Berlin"⟩]⟩
  (.dateTime (.zoned ⟨⟨2026, 2, 28⟩, 23, 59, 59, 1000000000⟩ c!"Europe/Berlin")) ✓ ✓
-- C78
example := json_injective ⟨[⟨c!"A", c!"b", []⟩], []⟩ ⟨[⟨c!"A", c!"b", []⟩], []⟩ rfl
-- C89
example := (trigger_date_time_read ⟨c!"TRIGGER", c!"20240229T235960Z", [(c!"VALUE", c!"DATE-TIME")]⟩ rfl rfl _ _ 2024 2 29 23 59 60
  d0_text leap_text).1 rfl
example := trigger_nothing_else ⟨c!"TRIGGER", c!"PT300S", [(c!"RELATED", c!"end")]⟩ (.duration ⟨300 * 1000000000⟩ none) ✓
-- C95
theorem t0_writable : Writable t0 := ⟨t0_valid, d0_year⟩
example := call_conforms_iff (kind := c!"VEVENT") (x := .timestamp ⟨t0⟩) t0_valid
example := trigger_conforms_iff (t := .dateTime (.utc ⟨t0⟩)) (by intro c h; cases h; exact t0_valid)
theorem sensible : ∀ x ∈ [Call.summary c!"a", .priority 9, .timestamp ⟨t0⟩], SensibleCall c!"VEVENT" x := by
  simp only [List.mem_cons, List.not_mem_nil, or_false, forall_eq_or_imp, forall_eq]
  exact ⟨trivial, (✓ : 9 ≤ 9), t0_writable⟩
example := setters_conform_partial c!"VEVENT" Event.new _ nofun sensible
example := event_conforms_partial [.common (.timestamp ⟨t0⟩), .status .confirmed] (by
  simp only [List.mem_cons, List.not_mem_nil, or_false, forall_eq_or_imp, forall_eq]
  exact ⟨t0_writable, trivial⟩)
example := alarm_conforms_partial c!"wake up" (.dateTime (.utc ⟨t0⟩)) t0_writable [(⟨300000000000⟩, 3)] ✓
-- C101
example := date_text_order t0.date ⟨2024, 3, 1⟩ d0_valid (by unfold NaiveDate.Valid; decide) d0_year ⟨by decide, by decide⟩ c!"DTSTART"
example := time_text_order t0 { t0 with hour := 7 } t0_valid (by unfold t0 NaiveDateTime.Valid NaiveDate.Valid; decide) d0_year d0_year
  c!"DTSTART" .floating (.inr rfl)
-- C102
example := spans_iff (.date t0.date) (.date ⟨2024, 3, 1⟩) d0_valid (by unfold DateValid NaiveDate.Valid; decide) d0_year ⟨by decide, by decide⟩
-- C106
theorem seven : Numeral c!"+007" 7 := ⟨c!"007", .inr rfl, by simp, rfl, by decide, by decide⟩
example := numeral_unique seven seven
-- C107
theorem loose : LooseDate c!"20240105T" ⟨2024, 1, 5⟩ c!"T" := by
  refine ⟨c!"0105T", c!"05T", ⟨[], _, rfl, by simp, .inl ⟨2024, rfl, c!"2024", rfl, by decide, by decide,
    ⟨rfl, by decide, by decide⟩, .inl rfl⟩⟩, ⟨[], _, rfl, by decide, c!"01", rfl, by decide, by decide,
    ⟨rfl, by decide, by decide⟩, .inl rfl⟩, ⟨[], _, rfl, by decide, c!"05", rfl, by decide, by decide,
    ⟨rfl, by decide, by decide⟩, .inl rfl⟩, by decide, by decide, by decide⟩
example := date_strict loose ✓
example := only_rfc_dates_partial c!"20240229T235960Z" ✓
-- C110
theorem strict_line : StrictText [⟨c!"ATTENDEE", [(c!"CN", [c!"Doe", c!" John"])], c!"mailto:j@x"⟩]
    c!"ATTENDEE;CN=Doe, John:mailto:j@x\r\n" := by
  refine ⟨c!"ATTENDEE;CN=Doe, John:mailto:j@x", [], ⟨c!";CN=Doe, John", by decide,
    ⟨c!"Doe, John", [], by decide, ⟨c!"Doe", c!" John", .inl ⟨rfl, by decide +kernel⟩, .inl ⟨rfl, by decide +kernel⟩,
      by decide +kernel⟩, rfl, by decide +kernel⟩, by decide +kernel, by decide +kernel⟩, rfl, by decide +kernel⟩
example := strict_unique _ _ _ strict_line strict_line
-- C111
theorem late : DurationText (-1500000000) c!"-PT1.5S" :=
  .inr (.inr ⟨by decide, c!"PT1.5S", rfl, c!"1", c!".5", ⟨by decide, rfl, by decide, by decide⟩, by decide, by decide,
    .inr ⟨c!"5", 1, 5, rfl, by decide, by decide, ⟨rfl, by decide, by decide⟩, by decide, by decide⟩⟩)
example := duration_text_unique _ _ _ late late
example := duration_injective ⟨-1500000000⟩ ⟨-1500000000⟩ rfl
-- C114
theorem said : ∀ x ∈ [Call.summary c!"a\nb;c,d: \\ \"e\"", .starts (.dateTime (.zoned t0 c!"Europe/Berlin")), .priority 3], x.Sayable := by
  simp only [List.mem_cons, List.not_mem_nil, or_false, forall_eq_or_imp, forall_eq]
  exact ⟨(✓ : SayableText c!"a\nb;c,d: \\ \"e\""), (✓ : SayableParam c!"Europe/Berlin"), trivial⟩
example := built_sayable_iff Event.new rfl calls
example := built_said Event.new rfl (by unfold RfcName; decide +kernel) _ said w w_ok
  c!"BEGIN:VEVENT\r\nDTSTAMP:20260101T000000Z\r\nDTSTART;TZID=Europe/Berlin:20240229T235958\r\nPRIORITY:3\r\nSUMMARY:a\\Nb\\;c\\,d: \\\\ \"e\"\r\nUID:01234567-89ab-cdef-0123-456789abcdef\r\nEND:VEVENT\r\n" ✓
example := call_said_iff Event.new rfl (by unfold RfcName; decide +kernel) (.priority 3) w w_ok
  c!"BEGIN:VEVENT\r\nDTSTAMP:20260101T000000Z\r\nPRIORITY:3\r\nUID:01234567-89ab-cdef-0123-456789abcdef\r\nEND:VEVENT\r\n" ✓
def confirmedText : Str :=
  c!"BEGIN:VEVENT\r\nDTSTAMP:20260101T000000Z\r\nSTATUS:CONFIRMED\r\nUID:01234567-89ab-cdef-0123-456789abcdef\r\nEND:VEVENT\r\n"
example := (kinds_said [.status .confirmed] [] [] w w_ok confirmedText).1 (by
    simp only [List.mem_cons, List.not_mem_nil, or_false, forall_eq]; exact trivial) ✓
example := calendar_said_iff [.name c!"a"] w w_ok
  c!"BEGIN:VCALENDAR\r\nVERSION:2.0\r\nPRODID:ICALENDAR-RS\r\nCALSCALE:GREGORIAN\r\nNAME:a\r\nX-WR-CALNAME:a\r\nEND:VCALENDAR\r\n" ✓
-- C117
example := zoneless_calls_partial Event.new rfl [.summary c!"a", .priority 3] (by
  simp only [List.mem_cons, List.not_mem_nil, or_false, forall_eq_or_imp, forall_eq]; exact ⟨trivial, trivial⟩) c!"Europe/Berlin"
-- C123
example := value_date_case_violated (Component.appendProperty Event.new ⟨c!"DTSTART", c!"20240229", [(c!"VALUE", c!"date")]⟩) Todo.new
  ⟨c!"DTSTART", c!"20240229", [(c!"VALUE", c!"date")]⟩ c!"date" ⟨2024, 2, 29⟩ rfl ✓ ✓
example := related_case_violated ⟨c!"TRIGGER", c!"PT300S", [(c!"RELATED", c!"end")]⟩ c!"end" ⟨300 * 1000000000⟩ rfl ✓ rfl rfl ✓ ✓
example := trigger_case_violated ⟨c!"TRIGGER", c!"20240105T010203Z", [(c!"VALUE", c!"date-time")]⟩ c!"date-time" rfl ✓ ✓
-- C129
theorem calls_writable : OtherWritable (Component.toOther (calls.foldl Call.run Event.new)) :=
  otherOk_writable _ (built_component_ok calls calls_ok).1
example := occurs_built Event.new rfl calls calls_writable w w_ok callsText calls_text
theorem typed_text : Component.fmtWrite ([EventCall.common (.starts (.date ⟨2024, 2, 29⟩)), .status .confirmed].foldl EventCall.run Event.new) w =
  .ok c!"BEGIN:VEVENT\r\nDTSTAMP:20260101T000000Z\r\nDTSTART;VALUE=DATE:20240229\r\nSTATUS:CONFIRMED\r\nUID:01234567-89ab-cdef-0123-456789abcdef\r\nEND:VEVENT\r\n" := ✓
theorem typed_writable : OtherWritable (Component.toOther ([EventCall.common (.starts (.date ⟨2024, 2, 29⟩)), .status .confirmed].foldl EventCall.run Event.new)) :=
  ⟨✓, innerOk_writable (inner_ok _ _ ✓), trivial⟩
example := event_occurs_iff _ typed_writable w w_ok _ typed_text
example := event_typed_partial _ (by
  simp only [List.mem_cons, List.not_mem_nil, or_false, forall_eq_or_imp, forall_eq]; exact ⟨trivial, trivial⟩)
  typed_writable w w_ok _ typed_text
theorem todo_typed_text : Component.fmtWrite ([TodoCall.due (.date ⟨2024, 2, 29⟩), .percentComplete 5].foldl TodoCall.run Todo.new) w =
  .ok c!"BEGIN:VTODO\r\nDTSTAMP:20260101T000000Z\r\nDUE;VALUE=DATE:20240229\r\nPERCENT-COMPLETE:5\r\nUID:01234567-89ab-cdef-0123-456789abcdef\r\nEND:VTODO\r\n" := ✓
theorem todo_typed_writable : OtherWritable (Component.toOther ([TodoCall.due (.date ⟨2024, 2, 29⟩), .percentComplete 5].foldl TodoCall.run Todo.new)) :=
  ⟨✓, innerOk_writable (inner_ok _ _ ✓), trivial⟩
example := todo_occurs_iff _ todo_typed_writable w w_ok _ todo_typed_text
example := todo_typed_partial _ (by
  simp only [List.mem_cons, List.not_mem_nil, or_false, forall_eq_or_imp, forall_eq]; exact ⟨trivial, trivial⟩)
  todo_typed_writable w w_ok _ todo_typed_text
example := calendar_occurs_iff [.name c!"a", .push (.event Event.new)] ⟨✓, by
    simp only [List.foldl, CalCall.run, Calendar.push, Calendar.name, Calendar.appendProperty, Calendar.new, List.nil_append, List.mem_singleton, forall_eq]
    exact ⟨✓, innerOk_writable (inner_ok _ _ ✓), trivial⟩⟩ w w_ok
  c!"BEGIN:VCALENDAR\r\nVERSION:2.0\r\nPRODID:ICALENDAR-RS\r\nCALSCALE:GREGORIAN\r\nNAME:a\r\nX-WR-CALNAME:a\r\nBEGIN:VEVENT\r\nDTSTAMP:20260101T000000Z\r\nUID:01234567-89ab-cdef-0123-456789abcdef\r\nEND:VEVENT\r\nEND:VCALENDAR\r\n" ✓

end Ical.Sample
