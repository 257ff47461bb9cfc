import Verif.Props.Venues
import Verif.Props.JsonText
import Verif.Examples.Samples
import Verif.Props.Around
import Verif.Props.Built
import Verif.Props.Calendars
import Verif.Props.Clean
import Verif.Props.ContentLine
import Verif.Props.Corners
import Verif.Props.Edits
import Verif.Props.Getters
import Verif.Props.Injection
import Verif.Props.InjectionExact
import Verif.Props.Injective
import Verif.Props.Layout
import Verif.Props.Locality
import Verif.Props.Nesting
import Verif.Props.OwnLine
import Verif.Props.Print
import Verif.Props.Reprint
import Verif.Props.ReprintAll
import Verif.Props.ReprintExact
import Verif.Props.Reproducible
import Verif.Props.Reread
import Verif.Props.Rewrite
import Verif.Props.RewriteExact
import Verif.Props.Roundtrip
import Verif.Props.Stamps
import Verif.Props.Streams
import Verif.Props.Strict
import Verif.Props.StrictDocs
import Verif.Props.Survives
import Verif.Props.Uids
import Verif.Props.UnfoldTwice
import Verif.Props.Work
import Verif.Props.WriteSizes
import Verif.Props.Writers
import Verif.Props.Writes
import Verif.Props.Written
import Verif.Props.ZoneRefs

/-! The theorems about writing and about writing and reading, applied to concrete calendars. -/

namespace Ical.Sample

open Nom Spec

theorem event_text2 : CalComp.fmtWrite (.event ⟨event.inner⟩) w = .ok eventText := ✓

theorem event_comp : CalCompOk (.event ⟨event.inner⟩) := c_ok.2 _ (by simp [c])

/-- the calendar written with maps in the opposite order -/
def cText' : Str :=
  c!"BEGIN:VCALENDAR\r\nVERSION:2.0\r\nNAME:a, b\r\nBEGIN:VEVENT\r\n" ++ pText' ++
  c!"DTSTAMP:20260101T000000Z\r\nDTSTART;VALUE=DATE:20260102\r\nUID:u1\r\nATTENDEE;CN=A:mailto:a\r\nATTENDEE:mailto:b\r\n" ++
  c!"BEGIN:VALARM\r\nACTION:AUDIO\r\nDTSTAMP:20260101T000000Z\r\nUID:u2\r\nEND:VALARM\r\nEND:VEVENT\r\n" ++
  c!"BEGIN:VTODO\r\nDTSTAMP:20260101T000000Z\r\nUID:u3\r\nEND:VTODO\r\n" ++
  c!"BEGIN:VVENUE\r\nDTSTAMP:20260101T000000Z\r\nLOCALITY:Bonn\r\nUID:u4\r\nEND:VVENUE\r\n" ++
  c!"BEGIN:VJOURNAL\r\nDTSTAMP:20260101T000000Z\r\nUID:u5\r\nEND:VJOURNAL\r\nEND:VCALENDAR\r\n"

theorem c_text' : c.fmtWrite w' = .ok cText' := ✓

theorem event_noMulti : NoMultiStamp event := ⟨✓, ⟨✓, trivial⟩, trivial⟩

theorem c_noMulti : ∀ x ∈ c.comps, NoMultiStamp x.toOther :=
  c_comps ⟨by decide +kernel, ⟨by decide +kernel, trivial⟩, trivial⟩ ⟨by decide +kernel, trivial⟩ ⟨by decide +kernel, trivial⟩
    ⟨by decide +kernel, trivial⟩

theorem c_foldable : EveryProp Foldable c :=
  ⟨✓, c_comps ⟨✓, ✓, ⟨✓, ✓, trivial⟩, trivial⟩ ⟨✓, ✓, trivial⟩ ⟨✓, ✓, trivial⟩ ⟨✓, ✓, trivial⟩⟩

/-- a calendar with at most one parameter for each property -/
def few : Calendar := ⟨[⟨c!"VERSION", c!"2.0", []⟩], [.todo ⟨⟨[(c!"DTSTAMP", ⟨c!"DTSTAMP", c!"20260101T000000Z", []⟩),
  (c!"SUMMARY", ⟨c!"SUMMARY", c!"a, b", [(c!"LANGUAGE", c!"en")]⟩), (c!"UID", ⟨c!"UID", c!"u3", []⟩)], [], []⟩⟩]⟩

def fewText : Str := c!"BEGIN:VCALENDAR\r\nVERSION:2.0\r\nBEGIN:VTODO\r\nDTSTAMP:20260101T000000Z\r\nSUMMARY;LANGUAGE=en:a\\, b\r\nUID:u3\r\nEND:VTODO\r\nEND:VCALENDAR\r\n"

theorem few_text : few.fmtWrite w = .ok fewText := ✓

theorem few_comps {P : CalComp → Prop} (h : P (.todo ⟨⟨[(c!"DTSTAMP", ⟨c!"DTSTAMP", c!"20260101T000000Z", []⟩),
  (c!"SUMMARY", ⟨c!"SUMMARY", c!"a, b", [(c!"LANGUAGE", c!"en")]⟩), (c!"UID", ⟨c!"UID", c!"u3", []⟩)], [], []⟩⟩)) :
    ∀ x ∈ few.comps, P x := by
  intro x hx
  simp only [few, List.mem_singleton] at hx
  exact hx ▸ h

theorem few_ok : CalendarOk few := ⟨✓, few_comps ⟨✓, inner_ok _ _ ✓, trivial⟩⟩

theorem few_safe : CalendarSafe few := ⟨✓, few_comps ⟨✓, ✓, trivial⟩⟩

theorem few_stamps : ∀ x ∈ few.comps, HasStamps x.toOther := few_comps ⟨✓, ✓, trivial⟩

theorem w_uuid : UuidLength w := fun _ => by simp only [w]; decide

/-- the calendar without time stamps and identifiers -/
def bare : Calendar := ⟨[⟨c!"VERSION", c!"2.0", []⟩], [.todo ⟨⟨[(c!"SUMMARY", ⟨c!"SUMMARY", c!"a, b", [(c!"LANGUAGE", c!"en")]⟩)], [], []⟩⟩]⟩

def bareText : Str := c!"BEGIN:VCALENDAR\r\nVERSION:2.0\r\nBEGIN:VTODO\r\nDTSTAMP:20260101T000000Z\r\nSUMMARY;LANGUAGE=en:a\\, b\r\nUID:01234567-89ab-cdef-0123-456789abcdef\r\nEND:VTODO\r\nEND:VCALENDAR\r\n"

theorem bare_text : bare.fmtWrite w = .ok bareText := ✓

theorem bare_comps {P : CalComp → Prop} (h : P (.todo ⟨⟨[(c!"SUMMARY", ⟨c!"SUMMARY", c!"a, b", [(c!"LANGUAGE", c!"en")]⟩)], [], []⟩⟩)) :
    ∀ x ∈ bare.comps, P x := by
  intro x hx
  simp only [bare, List.mem_singleton] at hx
  exact hx ▸ h

theorem bare_ok : CalendarOk bare := ⟨✓, bare_comps ⟨✓, inner_ok _ _ ✓, trivial⟩⟩

theorem bare_safe : CalendarSafe bare := ⟨✓, bare_comps ⟨✓, ✓, trivial⟩⟩

/-- a parsed calendar and what is written for it -/
def r : PComp :=
  .mk c!"VEVENT" [⟨c!"SUMMARY", c!"Team, weekly; bring the numbers of the last quarter and of the quarter before the last", []⟩,
      ⟨c!"ATTENDEE", c!"mailto:a@b.c", [⟨c!"CN", some c!"A \"B\" C"⟩, ⟨c!"RSVP", none⟩]⟩]
    [.mk c!"VALARM" [⟨c!"TRIGGER", c!"-PT5M", []⟩] []]

def rText : Str := c!"BEGIN:VEVENT\r\nSUMMARY:Team, weekly; bring the numbers of the last quarter and of the quar\r\n ter before the last\r\nATTENDEE;CN=A \"B\" C;RSVP:mailto:a@b.c\r\nBEGIN:VALARM\r\nTRIGGER:-PT5M\r\nEND:VALARM\r\nEND:VEVENT\r\n"

theorem r_text : r.fmtWrite w = .ok rText := ✓

theorem r_reprint : ReprintComp r := ⟨✓, by decide, ✓, ⟨✓, by decide, ✓, trivial⟩, trivial⟩

theorem r_cal : ReprintCal ⟨[⟨c!"VERSION", c!"2.0", []⟩], [r]⟩ := ⟨✓, r_reprint, trivial⟩

instance (p : PProp) : Decidable (LineProp p) :=
  decidable_of_iff (MarkerFree (bareLine p) ∧ (∀ c ∈ (bareLine p).head?, c ≠ ' ' ∧ c ≠ '\t') ∧
      p.name.map lowerAscii ≠ c!"end" ∧ p.name.map lowerAscii ≠ c!"begin" ∧ ∀ q ∈ p.params, ∀ v ∈ q.val, ¬ ['"'] <+: v)
    ⟨fun h => ⟨h.1, h.2.1, h.2.2.1, h.2.2.2.1, fun q hq v hv => h.2.2.2.2 q hq v hv⟩,
      fun h => ⟨h.marker, h.indent, h.notEnd, h.notBegin, fun q hq v hv => h.quote q hq v hv⟩⟩

theorem r_line : LineComp r := ⟨✓, by decide, ✓, ⟨✓, by decide, ✓, trivial⟩, trivial⟩

-- C22
example := print_parsed_partial r_cal (w := w)
  (out := c!"BEGIN:VCALENDAR\r\nVERSION:2.0\r\n" ++ rText ++ c!"END:VCALENDAR\r\n\r\n") ✓
example := reprint_component_partial r_reprint r_text
example := reprint_component_iff_partial r_line r_text
example := reprint_component_exactly (c := r) ⟨by decide, ⟨by decide, trivial⟩, trivial⟩ w_ok r_text
-- C96
example := parsed_component_text r w rText r_text
example := parsed_components_text [r] w rText ✓
example := parsed_calendar_text ⟨[⟨c!"VERSION", c!"2.0", []⟩], [r]⟩ w
  (c!"BEGIN:VCALENDAR\r\nVERSION:2.0\r\n" ++ rText ++ c!"END:VCALENDAR\r\n") ✓
-- C25
example := calendar_roundtrip c c_ok c_safe c_stamps w w_ok cText c_text
-- C26
example := missing_stamps bare bare_ok bare_safe w w_ok bareText bare_text
-- C27
example := reread_stable_partial _ c_chain c_ok c_safe 2
example := reread_eventually_stable _ c_chain c_ok
example := reread_stable_iff _ c_chain c_ok
-- C28
example := stamps_once_partial event event_writable event_noMulti w w_ok eventText event_text
example := stamps_once_calendar_partial c c_writable c_noMulti w w_ok cText c_text
example := stamps_count_partial event event_writable w w_ok eventText event_text c!"UID" (.inr rfl)
-- C29
example := properly_nested c c_plain.1 c_plain.2 w w_ok cText c_text
-- C60
example := writing_finishes_partial c c_foldable w w_ok
example := total_roundtrip c c_foldable c_ok c_safe w w_ok
-- C61
example (iso : Iso8601) := getters_survive c c_ok c_safe w w_ok cText c_text
example := event_getters_survive c c_ok c_safe w w_ok cText c_text 0 ⟨event.inner⟩ rfl
example := todo_getters_survive c c_ok c_safe w w_ok cText c_text 1 todo rfl
example := venue_getters_survive c c_ok c_safe w w_ok cText c_text 2 venue rfl
-- C62
example := serializations_equivalent c c_ok c_stamps w w' w_ok w'_ok cText cText' c_text c_text'
example := rewrite_identical few few_ok few_safe few_stamps ⟨✓, few_comps ⟨✓, ✓, trivial⟩⟩ w w' w_ok w'_ok fewText few_text
-- C67
example := no_injection_partial c c_plain.1 c_plain.2 w w_ok cText c_text
example := inject_anything (k := c!"URL") (x := c!"x") (v := c!"x\r\nSUMMARY:y") (items := [.prop c!"SUMMARY" [] c!"y"]) ✓ ✓
  (by unfold ValOk; decide) (by
    simp only [ItemsOk, Item.Ok, ValOk, List.not_mem_nil, false_implies, implies_true]
    decide +kernel) rfl ✓ w w_ok
  c!"BEGIN:VCALENDAR\r\nURL:x\r\nSUMMARY:y\r\nEND:VCALENDAR\r\n" ✓
example := no_injection_iff few (few_comps ⟨✓, trivial⟩)
  ⟨by simp only [NoIndent]; decide +kernel, few_comps ⟨by simp only [NoIndent]; decide +kernel, nofun, trivial⟩⟩
  (fun w hw => writing_finishes_partial few ⟨✓, few_comps ⟨✓, ✓, trivial⟩⟩ w hw)
-- C70
example := written_component event w w_ok eventText event_text
example := written_calendar c w w_ok cText c_text
-- C83
example := calendar_reread c c_ok w w_ok cText c_text
example := calendar_survives_iff c c_ok c_stamps w w_ok cText c_text
-- C85
example := read_depth_written_partial c c_writable w w_ok cText c_text
-- C87
example := read_steps_written c c_writable w w_ok cText c_text
-- C88
example := component_roundtrip (.event ⟨event.inner⟩) event_comp event_safe event_stamps w w_ok eventText event_text2 c!"hello" ✓
example := component_missing_stamps (.event ⟨event.inner⟩) event_comp event_safe w w_ok eventText event_text2 c!"hello" ✓
example := print_calendar c c_writable w w_ok (cText ++ c!"\r\n") ✓
example := print_component (.event ⟨event.inner⟩) event_writable w w_ok (eventText ++ c!"\r\n") ✓
-- C92
example := write_injective c c c_ok c_ok c_stamps c_stamps w w w_ok w_ok cText c_text c_text
example := write_component_injective (.event ⟨event.inner⟩) (.event ⟨event.inner⟩) event_comp event_comp event_stamps event_stamps
  w w w_ok w_ok eventText event_text2 event_text2
-- C93
example := stream_partial c c_ok c_safe c_stamps w w_ok cText c_text c!"\r\n\n" ⟨[.crlf, .lf], rfl⟩
example := stream_violated c few c_writable w w w_ok cText fewText c!"more" c_text few_text
-- C94
example := rewrite_exactly cText c c_read c_notKeyword w w_ok cText c_text
example := rewrite_clean_partial cText c c_read c_clean w w_ok cText c_text
example := clean_read_ok cText c c_read c_clean
example := reread_property_iff c!"SUMMARY;LANGUAGE=en:a\\, b\r\n" ⟨c!"SUMMARY", c!"a, b", [⟨c!"LANGUAGE", some c!"en"⟩]⟩ ✓ w w_ok
  c!"SUMMARY;LANGUAGE=en:a\\, b\r\n" ✓

/-- a document and changes to it -/
def source : Str := c!"BEGIN:VCALENDAR\nBEGIN:VEVENT\nSUMMARY:old\nX-A:1\nEND:VEVENT\nBEGIN:VJOURNAL\nEND:VJOURNAL\nEND:VCALENDAR"

def sourceParsed : PCal :=
  ⟨[], [.mk c!"VEVENT" [⟨c!"SUMMARY", c!"old", []⟩, ⟨c!"X-A", c!"1", []⟩] [], .mk c!"VJOURNAL" [] []]⟩

theorem source_parsed : readCalendar (unfold source) = some sourceParsed := rfl

theorem source_read : Calendar.fromStr source = some sourceParsed.toCalendar := rfl

theorem source_tidy : ∀ c0, readCalendar (unfold source) = some c0 → TidyCal c0 := by
  intro c0 h
  obtain rfl := Option.some.inj (source_parsed.symm.trans h)
  exact ⟨nofun, ⟨✓, trivial⟩, ⟨nofun, trivial⟩, trivial⟩

def sourceText : Str := c!"BEGIN:VCALENDAR\r\nBEGIN:VEVENT\r\nDTSTAMP:20260101T000000Z\r\nSUMMARY:old\r\nX-A:1\r\nUID:01234567-89ab-cdef-0123-456789abcdef\r\nEND:VEVENT\r\nBEGIN:VJOURNAL\r\nDTSTAMP:20260101T000000Z\r\nUID:01234567-89ab-cdef-0123-456789abcdef\r\nEND:VJOURNAL\r\nEND:VCALENDAR\r\n"

def changes : List Edit :=
  [.component 0 [.summary c!"new, longer", .addProperty c!"X-B" c!"2"], .remove 1, .calendar (.name c!"n")]

theorem changes_ok : ∀ x ∈ changes, x.ArgsOk := by
  intro x hx
  simp only [changes, List.mem_cons, List.not_mem_nil, or_false] at hx
  rcases hx with rfl | rfl | rfl
  · intro y hy
    simp only [List.mem_cons, List.not_mem_nil, or_false] at hy
    rcases hy with rfl | rfl
    · trivial
    · exact ⟨✓, ✓⟩
  · trivial
  · exact ⟨✓, ✓⟩

def changedText : Str := c!"BEGIN:VCALENDAR\r\nNAME:n\r\nX-WR-CALNAME:n\r\nBEGIN:VEVENT\r\nDTSTAMP:20260101T000000Z\r\nSUMMARY:new\\, longer\r\nX-A:1\r\nX-B:2\r\nUID:01234567-89ab-cdef-0123-456789abcdef\r\nEND:VEVENT\r\nEND:VCALENDAR\r\n"

example := rewrite_partial source _ source_read ✓ source_tidy w w_ok sourceText ✓
example := parsed_calendar_ok source_parsed ✓ (source_tidy _ source_parsed)
example := parsed_component_ok (s := c!"BEGIN:VEVENT\nSUMMARY:old\nEND:VEVENT\n")
  (c := .mk c!"VEVENT" [⟨c!"SUMMARY", c!"old", []⟩] []) rfl ✓ ⟨✓, trivial⟩

/-- one with a time stamp and an identifier -/
def stamped : Str := c!"BEGIN:VCALENDAR\nBEGIN:VEVENT\nDTSTAMP:20260101T000000Z\nUID:1\nSUMMARY:x\nEND:VEVENT\nEND:VCALENDAR"

def stampedParsed : PCal :=
  ⟨[], [.mk c!"VEVENT" [⟨c!"DTSTAMP", c!"20260101T000000Z", []⟩, ⟨c!"UID", c!"1", []⟩, ⟨c!"SUMMARY", c!"x", []⟩] []]⟩

theorem stamped_parsed : readCalendar (unfold stamped) = some stampedParsed := rfl

example := rewrite_same_iff stamped stampedParsed.toCalendar rfl ✓ (by
    intro c0 h
    obtain rfl := Option.some.inj (stamped_parsed.symm.trans h)
    exact ⟨nofun, ⟨✓, trivial⟩, trivial⟩) (by
    intro x hx
    simp only [PCal.toCalendar, stampedParsed, List.map_cons, List.map_nil, List.mem_singleton] at hx
    subst hx
    exact ⟨✓, ✓, trivial⟩) w w_ok
  c!"BEGIN:VCALENDAR\r\nBEGIN:VEVENT\r\nDTSTAMP:20260101T000000Z\r\nSUMMARY:x\r\nUID:1\r\nEND:VEVENT\r\nEND:VCALENDAR\r\n" ✓
-- C99
example := edits_ok c c_ok changes changes_ok
example := read_edit_write source _ source_read ✓ source_tidy changes changes_ok w w_ok changedText ✓
example := read_set_write source _ source_read ✓ source_tidy 0 [.summary c!"new"] (by
    intro x hx
    simp only [List.mem_singleton] at hx
    subst hx
    trivial) w w_ok
  c!"BEGIN:VCALENDAR\r\nBEGIN:VEVENT\r\nDTSTAMP:20260101T000000Z\r\nSUMMARY:new\r\nX-A:1\r\nUID:01234567-89ab-cdef-0123-456789abcdef\r\nEND:VEVENT\r\nBEGIN:VJOURNAL\r\nDTSTAMP:20260101T000000Z\r\nUID:01234567-89ab-cdef-0123-456789abcdef\r\nEND:VJOURNAL\r\nEND:VCALENDAR\r\n" ✓
-- C97
example := stamps_gained bare bare_ok w w_ok bareText bare_text
-- C98
example := stamps_allowed_partial bare bare_ok ✓ w w_ok bareText bare_text
example := stamps_allowed_iff bare bare_ok w w_ok bareText bare_text
-- C104
example := add_multi_is_local event ✓ ⟨c!"COMMENT", c!"x", []⟩ w (fun _ _ _ _ => rfl) event_text
  (out' := c!"BEGIN:VEVENT\r\n" ++ pText ++
    c!"DTSTAMP:20260101T000000Z\r\nDTSTART;VALUE=DATE:20260102\r\nUID:u1\r\nATTENDEE;CN=A:mailto:a\r\nATTENDEE:mailto:b\r\nCOMMENT:x\r\n" ++
    c!"BEGIN:VALARM\r\nACTION:AUDIO\r\nDTSTAMP:20260101T000000Z\r\nUID:u2\r\nEND:VALARM\r\nEND:VEVENT\r\n") ✓
example := add_component_is_local event (.mk c!"VALARM" [] [] []) w event_text
  (out' := c!"BEGIN:VEVENT\r\n" ++ pText ++
    c!"DTSTAMP:20260101T000000Z\r\nDTSTART;VALUE=DATE:20260102\r\nUID:u1\r\nATTENDEE;CN=A:mailto:a\r\nATTENDEE:mailto:b\r\n" ++
    c!"BEGIN:VALARM\r\nACTION:AUDIO\r\nDTSTAMP:20260101T000000Z\r\nUID:u2\r\nEND:VALARM\r\nBEGIN:VALARM\r\nDTSTAMP:20260101T000000Z\r\nUID:01234567-89ab-cdef-0123-456789abcdef\r\nEND:VALARM\r\nEND:VEVENT\r\n") ✓
example := replace_is_local [] [] [.todo todo] (.event ⟨event.inner⟩) (.venue venue) w
  (out := c!"BEGIN:VCALENDAR\r\n" ++ eventText ++ c!"BEGIN:VTODO\r\nDTSTAMP:20260101T000000Z\r\nUID:u3\r\nEND:VTODO\r\nEND:VCALENDAR\r\n")
  (out' := c!"BEGIN:VCALENDAR\r\n" ++ c!"BEGIN:VVENUE\r\nDTSTAMP:20260101T000000Z\r\nLOCALITY:Bonn\r\nUID:u4\r\nEND:VVENUE\r\n" ++
    c!"BEGIN:VTODO\r\nDTSTAMP:20260101T000000Z\r\nUID:u3\r\nEND:VTODO\r\nEND:VCALENDAR\r\n") ✓ ✓
example := steadyOrder_of_few w'_ok (l := [⟨c!"SUMMARY", c!"a, b", [(c!"LANGUAGE", c!"en")]⟩]) ✓
-- C97
theorem countingWorld_ok : World.Ok countingWorld where
  order := fun _ _ => .refl _
  uuid := fun p c h => by
    simp only [countingWorld, List.mem_flatMap, List.mem_append, List.mem_replicate, List.mem_singleton] at h
    obtain ⟨_, _, h | h⟩ := h
    · rw [h.2]; decide
    · rw [h]; decide
  now := fun _ => by simp only [countingWorld]; decide
theorem uidless_ok : CalendarOk uidlessCalendar := by
  refine ⟨✓, ?_⟩
  simp only [uidlessCalendar, List.mem_cons, List.not_mem_nil, or_false, forall_eq_or_imp, forall_eq]
  exact ⟨⟨✓, inner_ok _ _ ✓, ⟨✓, inner_ok _ _ ✓, trivial⟩, trivial⟩, ⟨✓, inner_ok _ _ ✓, trivial⟩⟩
example := generated_uids_distinct uidlessCalendar uidless_ok countingWorld countingWorld_ok countingWorld_inj
  c!"BEGIN:VCALENDAR\r\nBEGIN:VEVENT\r\nDTSTAMP:20260101T000000Z\r\nUID:abb\r\nBEGIN:VALARM\r\nDTSTAMP:20260101T000000Z\r\nUID:abbaabb\r\nEND:VALARM\r\nEND:VEVENT\r\nBEGIN:VTODO\r\nDTSTAMP:20260101T000000Z\r\nUID:ababb\r\nEND:VTODO\r\nEND:VCALENDAR\r\n" ✓
-- C109
theorem c_streams : Streams (fun _ k => c.writeTo k w) (.ok cText) := c_text ▸ (written_piecewise w).1 c

/-- a calendar with a line that cannot be folded -/
def stuck : Calendar := ⟨[⟨c!"NAME", c!"ab", []⟩, ⟨c!"SUMMARY", List.replicate 22 'a' ++ List.replicate 120 (Char.ofNat 0xA0), []⟩], []⟩

theorem stuck_streams : Streams (fun _ k => stuck.writeTo k w) (.error .panic) :=
  (✓ : stuck.fmtWrite w = .error .panic) ▸ (written_piecewise w).1 stuck

example := writer_gets_prefix c_streams (buffer_keeps 100) []
example := writer_crash_lines stuck_streams (buffer_keeps 100) []
example := writer_string c_streams c!"before"
example := writer_buffer_iff c_streams 100 c!"before" ✓
example := calendar_writer c_text (buffer_keeps 100) []
-- C110
example := strict_component_iff event w w_ok eventText event_text
example := strict_calendar_iff c w w_ok cText c_text
-- C112
example := rfc_document_exact sampleEls sampleText sampleDocument
-- C113
example := write_component_size event w w_ok w_uuid event_text
example := write_calendar_size c w w_ok w_uuid c_text
example := rewrite_size c_read w w_ok w_uuid c_text
-- C117
example := zones_kept c c_ok c_safe w w_ok cText c_text
example := zones_none_partial c (c_comps ✓ ✓ ✓ ✓)
-- C119
example := calendar_survives_exactly c c_notKeyword w w_ok cText c_text
example := component_survives_exactly (.event ⟨event.inner⟩) event_notKeyword w w_ok eventText event_text2
example := clean_survives_iff c c_clean w w_ok cText c_text
-- C124
example := around_exact_partial c c_writable w w_ok cText c_text c!"hello\r\n" c!"hello" ✓
example := around_violated c c_writable w w_ok cText c_text c!"hello"
-- C126
example := unfold_written_partial c c_writable w w_ok cText c_text

-- C127
example (c : PCal) (x : Char) (hx : x ∈ c.toJson.compact) : x ≠ '\n' := fun h => by
  have := json_text_one_line c x hx
  subst h
  exact absurd this ✓

-- C128
example := uids_apart_iff c c_ok w w_ok cText c_text
example := uids_apart_partial c c_ok w w_ok cText c_text
/-- an event at a venue -/
def met : Calendar := ⟨[], [.event ⟨⟨[(c!"LOCATION", ⟨c!"LOCATION", c!"Hall 1", [(c!"VVENUE", c!"u4")]⟩)], [], []⟩⟩, .venue venue]⟩
def metText : Str := c!"BEGIN:VCALENDAR\r\nBEGIN:VEVENT\r\nDTSTAMP:20260101T000000Z\r\nLOCATION;VVENUE=u4:Hall 1\r\nUID:01234567-89ab-cdef-0123-456789abcdef\r\nEND:VEVENT\r\nBEGIN:VVENUE\r\nDTSTAMP:20260101T000000Z\r\nLOCALITY:Bonn\r\nUID:u4\r\nEND:VVENUE\r\nEND:VCALENDAR\r\n"
theorem met_text : met.fmtWrite w = .ok metText := ✓
theorem met_ok : CalendarOk met := by
  refine ⟨✓, ?_⟩
  simp only [met, List.mem_cons, List.not_mem_nil, or_false, forall_eq_or_imp, forall_eq]
  exact ⟨⟨✓, inner_ok _ _ ✓, trivial⟩, ⟨✓, inner_ok _ _ ✓, trivial⟩⟩
theorem met_venues : ∀ y ∈ met.comps, y.toOther.name = c!"VVENUE" → ∃ p, uidOf y = some p ∧ IsText p ∧ TextSafe p.val := by
  simp only [met, List.mem_cons, List.not_mem_nil, or_false, forall_eq_or_imp, forall_eq]
  exact ⟨fun h => absurd h ✓, fun _ => ⟨⟨c!"UID", c!"u4", []⟩, ✓, ✓, ✓⟩⟩
example := venues_known_iff met met_ok (fun y hy hn => let ⟨p, a, b, _⟩ := met_venues y hy hn; ⟨p, a, b⟩) w w_ok metText met_text
example := venues_known_partial met met_ok met_venues w w_ok metText met_text
example := venue_refers Event.new Todo.new Venue.new c!"Hall 1" c!"u4"

end Ical.Sample
