import Verif.Examples.Samples
import Verif.Props.Acceptance
import Verif.Props.Alone
import Verif.Props.Calendars
import Verif.Props.CutFile
import Verif.Props.Errors
import Verif.Props.Foreign
import Verif.Props.Grammar
import Verif.Props.Kinds
import Verif.Props.LineEdits
import Verif.Props.LineOrder
import Verif.Props.Mixed
import Verif.Props.NameCase
import Verif.Props.Names
import Verif.Props.NotUnfolded
import Verif.Props.Parsing
import Verif.Props.Presentation
import Verif.Props.PropertyRoundtrip
import Verif.Props.Report
import Verif.Props.SimpleErrors
import Verif.Props.Sizes
import Verif.Props.Strict
import Verif.Props.StrictDocs
import Verif.Props.Truncated
import Verif.Props.Work

/-! The theorems about reading, applied to concrete texts. -/

namespace Ical.Sample

open Nom Spec

/-- the calendar that is read from the document with an alarm -/
def docText : Str := doc.text .crlf

/-- what is read from it -/
def docComp : PComp :=
  .mk c!"VCALENDAR" [⟨c!"NAME", c!"x\\,y", []⟩, ⟨c!"VERSION", c!"2.0", []⟩]
    [.mk c!"VEVENT" [⟨c!"DTSTART", c!"20260101", [⟨c!"VALUE", some c!"DATE"⟩, ⟨c!"X", some c!"a:b"⟩]⟩]
      [.mk c!"VALARM" [⟨c!"ACTION", c!"AUDIO", []⟩] []]]

theorem doc_comp (items : List Item) (h : doc = .comp c!"BEGIN:" c!"END:" c!"VCALENDAR" items) :
    PComp.mk c!"VCALENDAR" (itemsProps items) (itemsComps items) = docComp := by
  cases h
  simp only [itemsComps, docComp]
  congr 1

theorem doc_read : readComponents docText = some [docComp] := by
  rw [← doc_comp _ rfl]
  exact one_root_partial (doc2_ok .crlf) nofun

theorem doc_read_calendar : readCalendar docText = some ⟨docComp.props, docComp.comps⟩ := by
  have h := doc_read
  unfold readComponents at h
  simp only [readCalendar, h]
  rfl

theorem doc_component : readComponent docText = some docComp := by
  unfold readComponent
  rw [show docText = (Item.comp _ _ _ _).text .crlf from rfl, component_doc (doc2_ok .crlf) nofun, doc_comp _ rfl]
  rfl

/-- different line breaks -/
theorem mixed : MixedFile NoCrlfAfter (.comp c!"BEGIN:" c!"END:" c!"VCALENDAR"
    [.prop c!"X-A" [] c!"1", .prop c!"X-B" [] c!"2"]) c!"BEGIN:VCALENDAR\nX-A:1\r\nX-B:2\nEND:VCALENDAR\n" := by
  have hk : ∀ k ∈ [c!"X-A", c!"X-B"], KeyOk k := ✓
  simp only [MixedFile, MixedText, MixedTexts]
  refine ⟨[], _, blank_nil, ⟨.lf, [], c!"X-A:1\r\nX-B:2\n", .lf, [], blank_nil, blank_nil, by decide, by decide,
    by decide +kernel, ⟨c!"X-A:1\r\n", c!"X-B:2\n", ⟨.crlf, [], blank_nil, hk _ (by simp), by simp, ?_,
      by decide +kernel, by simp⟩, ⟨c!"X-B:2\n", [], ⟨.lf, [], blank_nil, hk _ (by simp), by simp, by simp [ValOk],
      by decide +kernel, fun _ => ?_⟩, rfl, rfl⟩, rfl⟩, rfl⟩, ?_⟩
  · show ¬ _ <:+: _; decide
  · show ¬ _ <:+: _; decide +kernel
  · exact ⟨_, [], by simp [unmarked, Break.text]; rfl, by simp [joinMarked], by decide +kernel, by simp, trivial⟩

/-- reading this fails -/
def wrong : Str := c!"BEGIN:A\nbegin:B\nEND:C\n"

-- C15
example := text_isolated p w w_ok ✓ ✓ ✓ pText p_text c!"BEGIN:" c!"END:" c!"VCALENDAR" [.prop c!"NAME" [] c!"x\\,y"]
  [.comp c!"BEGIN:" c!"end:" c!"VEVENT" [.prop c!"DTSTART" [⟨c!"VALUE", some (false, c!"DATE")⟩, ⟨c!"X", some (true, c!"a:b")⟩]
      c!"20260101", .comp c!"BEGIN:" c!"END:" c!"VALARM" [.prop c!"ACTION" [] c!"AUDIO"]], .prop c!"VERSION" [] c!"2.0"]
  (doc2_ok .crlf)
-- C16
example := repetition_terminates component lineEnding shrinks_component
-- C17
example := one_root_partial (doc2_ok .lf) (fun _ => ✓)
example := two_roots_violated (rest := docText) (doc2_ok .crlf) ✓ ✓ nofun
example := at_most_one_root docText _ doc_read
-- C18
example := truncated_exact_partial (s := docText.take 60) (doc2_ok .crlf) doc2_clean (List.take_prefix _ _)
example := cut_file_exact_partial (file := docText) (s := docText.take 60) (doc2_ok .crlf) doc2_noLf ✓ nofun (List.take_prefix _ _)
example := cut_output_partial (s := cText.take 100) c_writable c_plain.1 c_plain.2 w_ok c_text (List.take_prefix _ _)
example := truncated_nested_partial (frames_ok .crlf) ✓ (frame_ok .crlf) nofun
example := truncated_anywhere_partial (s := docText.take 60) (doc2_ok .crlf) doc2_clean (List.take_prefix _ _)
example := truncated_root_violated (frame_ok .lf) (fun _ => ✓)
-- C19
example := mismatched_end (e := c!"End:") (rest := c!"VEVENT\r\n") (frames_ok .crlf) (frame_ok .crlf) ✓ ✓ nofun
example := root_closed_partial docText docComp [] doc_read
-- C20
example := keyword_names_rejected (t := c!"ENDING:x\r\n") (frames_ok .crlf) (frame_ok .crlf) (.inl ✓) nofun
-- C23
example := lf_crlf_same (doc2_ok .lf) ✓
example := lf_crlf_from_str (doc2_ok .lf) doc2_flat ✓
-- C24
example := keyword_case (br := .lf) (b := c!"BEGIN:") (e := c!"End:") (b' := c!"begin:") (e' := c!"eND:")
  (name := c!"VCALENDAR") (name' := c!"VCALENDAR") (items := [.comp c!"BEGIN:" c!"end:" c!"VEVENT" [.prop c!"SUMMARY" [] c!"x"]])
  (items' := [.comp c!"Begin:" c!"END:" c!"VEVENT" [.prop c!"SUMMARY" [] c!"x"]])
  (by simp only [Item.SameUpToCase, ItemsSame]; decide +kernel)
  (by
    simp only [Item.Ok, ItemsOk, ValOk, List.not_mem_nil, false_implies, implies_true]
    repeat' apply And.intro
    all_goals decide +kernel) (fun _ => ✓)
-- C31
def repeated : PComp := .mk c!"VEVENT" [⟨c!"COMMENT", c!"1", []⟩, ⟨c!"SUMMARY", c!"2", []⟩, ⟨c!"COMMENT", c!"3", []⟩] []

example := repeated_kept_partial repeated c!"COMMENT" ✓ ✓ ✓
example := repeated_single repeated c!"SUMMARY" ✓
example := repeated_kept_violated c!"RELATED-TO" (.inl rfl) c!"1" c!"2"
-- C32
example := read_calendar_doc (doc2_ok .lf) doc2_flat (fun _ => ✓)
-- C45
example := parsed_header cText c c_read
-- C66
example := foreign_document (doc2_ok .crlf) nofun docText doc2_folded
example := foreign_component (doc2_ok .crlf) nofun docText doc2_folded
-- C71
example := read_component_sound doc_component
example := read_components_sound doc_read ✓
example := read_calendar_sound doc_read_calendar (by intro h; exact absurd h.1 ✓)
example := read_property_sound (i := c!"SUMMARY;X=y:a\\,b\r\n") (p := ⟨c!"SUMMARY", c!"a,b", [⟨c!"X", some c!"y"⟩]⟩) ✓
-- C72
example := not_calendar_partial (s := c!"X:" ++ docText) (by
  rintro ⟨lead, b, rest, h1, ⟨bs, rfl⟩, h2⟩
  rw [show unfold (c!"X:" ++ docText) = 'X' :: (unfold (c!"X:" ++ docText)).tail from ✓] at h1
  cases bs with
  | cons br bs => cases br <;> simp [Break.text] at h1
  | nil =>
    match b with
    | [] => simp at h2
    | x :: _ =>
      simp only [List.map_nil, List.flatten_nil, List.nil_append, List.cons_append, List.cons.injEq] at h1
      obtain ⟨rfl, -⟩ := h1
      simp only [List.map_cons, List.cons.injEq] at h2
      exact absurd h2.1 (by decide))
example := trailing_text_violated (s := c!"BEGIN:A\nX:1\nEND:A\nhello") (r := c!"hello") (c := .mk c!"A" [⟨c!"X", c!"1", []⟩] [])
  rfl ✓
-- C73
example := find_prop_partial repeated c!"SUMMARY" ✓ ✓
example := find_prop_iff_partial repeated c!"SUMMARY" ✓
-- C68
example := presentation_irrelevant (doc2_ok .crlf) (doc2_ok .lf) doc2_presents doc2_presents_lf
example := presentation_content (doc2_ok .crlf) doc2_presents
-- C77
example := name_case_exact_partial (b := c!"BEGIN:") (e := c!"END:") (n := c!"VEVENT") (b' := c!"BEGIN:") (e' := c!"END:")
  (n' := c!"vevent") (l := [.prop c!"SUMMARY" [] c!"x"]) (l' := [.prop c!"Summary" [] c!"x"]) (br := .crlf) (br' := .crlf)
  (by simp only [Item.Recased, ItemsRecased, DParamsRecased, SameName]; decide +kernel)
  (by simp only [Item.Ok, ItemsOk, ValOk, List.not_mem_nil, false_implies, implies_true]
      repeat' apply And.intro
      all_goals decide +kernel)
  (by simp only [Item.Ok, ItemsOk, ValOk, List.not_mem_nil, false_implies, implies_true]
      repeat' apply And.intro
      all_goals decide +kernel) nofun nofun
example := name_case_partial c!"Summary" c!"a\\,b" ✓ ✓ ✓ ✓ ✓
-- C80
example := mixed_breaks_partial (b := c!"BEGIN:") (e := c!"END:") (items := [.prop c!"X-A" [] c!"1", .prop c!"X-B" [] c!"2"])
  (file := c!"BEGIN:VCALENDAR\nX-A:1\r\nX-B:2\nEND:VCALENDAR\n") mixed
example := lf_line_swallows c!"X-A" [⟨c!"P", some (false, c!"q")⟩] c!"1" c!"X-B:2" c!"END:A\r\n" ✓
  (by simp only [List.mem_singleton, forall_eq, DParam.Ok]; decide +kernel) ✓
-- C82
example := read_calendar_size (s := docText) (c := ⟨docComp.props, docComp.comps⟩)
  (by rw [show unfold docText = docText from ✓]; exact doc_read_calendar)
example := read_component_size doc_component
-- C84
example := read_steps_partial (s := c!"BEGIN:A\nX:begin:1\nEND:A\n") (upperBegins_of ✓)
-- C85
example := read_depth_exact_partial (s := docText) (doc2_ok .crlf) nofun ✓
-- C87
example := read_steps_linear (s := docText) (doc2_ok .crlf) ✓
-- C90
example := calendar_error_message (i := wrong) (m := (readCalendarError wrong).getD []) ✓
example := component_error_message (i := wrong) (m := (readComponentError wrong).getD []) ✓ ✓
/-- what is said about it -/
theorem wrong_reports : Reports wrong [(c!"C\n", .nom c!"Tag"), (c!"C\n", .context c!"mismatching end"),
    (c!"begin:B\nEND:C\n", .context c!"component")] := by
  have st : ∀ s : Str, First (fun c => ¬ NameChar c) ('\n' :: s) := by
    intro s c hc
    simp only [List.head?_cons, Option.some.injEq] at hc
    subst hc
    unfold NameChar
    decide
  have bl : Blank ['\n'] := blank_break .lf blank_nil
  exact Reports.inner (n := c!"A") (b := c!"BEGIN:") (gap := ['\n']) (body := []) (f := c!"begin:B\nEND:C\n") ✓ ✓ (st _) bl
    (by unfold NoBreak; decide) .nil
    (Reports.close (n := c!"B") (b := c!"begin:") (gap := ['\n']) (body := []) (e := c!"END:") (f := c!"C\n") ✓ ✓ (st _) bl
      (by unfold NoBreak; decide) .nil ✓ ✓)

/-- and where it is -/
theorem wrong_place : IsPlace wrong c!"C\n" 3 c!"END:C" 5 :=
  ⟨c!"BEGIN:A\nbegin:B\n", c!"END:", c!"C", c!"\n", [], rfl, .inr ⟨c!"BEGIN:A\nbegin:B", rfl⟩, rfl, by decide, ✓, rfl, by decide,
    .inr ⟨[], rfl⟩, rfl, by simp, ✓⟩

theorem wrong_message : Message wrong 0 [(c!"C\n", .nom c!"Tag")] c!"0: at line 3, in Tag:\nEND:C\n    ^\n\n" :=
  .cons wrong_place .nil

theorem wrong_blame : Blame wrong [(c!"C\n", .nom c!"Tag"), (c!"C\n", .context c!"mismatching end"),
    (c!"begin:B\nEND:C\n", .context c!"component")] :=
  .inner (before := ['\n']) (line := c!"begin:B\nEND:C\n") (name := c!"A") (body := c!"\nbegin:B\nEND:C\n")
    ⟨[], c!"BEGIN:", by simp, ✓, ✓, (by intro c hc; cases hc; decide), rfl⟩ rfl
    (.mismatch (name := c!"B") (body := c!"\nEND:C\n") (before := ['\n']) (kw := c!"END:")
      ⟨[], c!"begin:", by simp, ✓, ✓, (by intro c hc; cases hc; decide), rfl⟩ rfl ✓ ✓)

example := blamed_places wrong_blame
example := message_unique wrong_message wrong_message
example := isPlace_unique wrong_place wrong_place
-- C120
example := reports_unique wrong_reports wrong_reports
example := component_report_iff (i := wrong) (m := c!"error") ✓
-- C91
example := folded_number_violated (s := c!"BEGIN:A\nbe\r\n gin:B\nEND:C\n") (by
  rw [show unfold c!"BEGIN:A\nbe\r\n gin:B\nEND:C\n" = wrong from ✓]
  exact wrong_place)
example := mismatched_end_message_partial (e := c!"End:") (rest := c!"VEVENT\r\n") (frames_ok .crlf) (frame_ok .crlf) ✓ ✓ nofun
example := missing_end_message_partial (frames_ok .crlf) ✓ (frame_ok .crlf) nofun
example := keyword_name_message_partial (t := c!"ENDING:x\r\n") (frames_ok .crlf) (frame_ok .crlf) (.inl ✓) nofun
example := unreadable_line_violated (c := '?') (u := c!"x:y\r\n") (frames_ok .crlf) ✓ (frame_ok .crlf) ✓ ✓ nofun
example := unreadable_root_violated (c := '?') (u := c!"x:y\r\n") (frame_ok .crlf) ✓ ✓ nofun
-- C103
example := line_order_component (doc2_ok .crlf) (doc2_ok .lf) (.comp (fun _ => rfl) (.right (.left (.comp (.comp (fun _ => rfl)
  (.left (.right (.comp (.comp (fun _ => rfl) (.left (.right .nil))) .nil)))) (.left (.right .nil)))))) doc2_presents doc2_presents_lf
example := line_order_irrelevant (doc2_ok .crlf) (doc2_ok .lf) rfl (.right (.left (.comp (.comp (fun _ => rfl)
  (.left (.right (.comp (.comp (fun _ => rfl) (.left (.right .nil))) .nil)))) (.left (.right .nil))))) doc2_presents doc2_presents_lf
example := swap_lines (b := c!"BEGIN:") (e := c!"END:") (n := c!"VEVENT") [.prop c!"UID" [] c!"1"] [] (k := c!"SUMMARY") (ps := [])
  (v := c!"x") (.prop c!"COMMENT" [] c!"y") (by
    intro _ _ _ h
    cases h
    decide)
-- C105
example := subcomponent_alone (pre := [.prop c!"NAME" [] c!"x\\,y"]) (post := [.prop c!"VERSION" [] c!"2.0"]) (doc2_ok .crlf)
  doc2_presents (br' := .lf)
  (alone := (Item.comp c!"BEGIN:" c!"end:" c!"VEVENT" [.prop c!"DTSTART" [⟨c!"VALUE", some (false, c!"DATE")⟩,
    ⟨c!"X", some (true, c!"a:b")⟩] c!"20260101", .comp c!"BEGIN:" c!"END:" c!"VALARM" [.prop c!"ACTION" [] c!"AUDIO"]]).text .lf)
  (by
    have := doc2_ok .lf
    simp only [doc, Item.Ok, ItemsOk] at this ⊢
    exact this.2.2.2.2.1) (presents ✓ (fun _ => ✓))
example := others_unaffected (b := c!"BEGIN:") (e := c!"END:") (pre := [.prop c!"NAME" [] c!"x\\,y"]) (mid := [_])
  (post := [.prop c!"VERSION" [] c!"2.0"]) (doc2_ok .crlf) doc2_presents (br' := .lf) (mid' := [])
  (file' := (Item.comp c!"BEGIN:" c!"END:" c!"VCALENDAR" [.prop c!"NAME" [] c!"x\\,y", .prop c!"VERSION" [] c!"2.0"]).text .lf)
  (by
    have := doc2_ok .lf
    simp only [doc, Item.Ok, ItemsOk, List.cons_append, List.nil_append] at this ⊢
    exact ⟨this.1, this.2.1, this.2.2.1, this.2.2.2.1, this.2.2.2.2.2⟩) (presents ✓ (fun _ => ✓))
  (by
    intro i hi
    simp only [List.append_nil, List.mem_singleton] at hi
    exact ⟨_, _, _, _, hi⟩)
-- C108
theorem doc_is : ∃ lead t, docText = lead ++ t ∧ Blank lead ∧ CompIs docComp t [] := by
  rcases (calendar_read_iff (i := docText)).1 doc_read_calendar with h | ⟨_, _, _, _, _, _, _, h, _⟩ | ⟨h, _⟩
  · exact h
  · cases h
  · cases h

example := doc_is.elim fun _ h => h.elim fun _ h => text_unambiguous h.2.1 h.2.1 h.2.2 h.2.2 rfl
example : ∃ t, ¬ Stuck (t ++ []) ∧ ¬ Broken (t ++ []) := doc_is.elim fun _ h => h.elim fun t h => ⟨t, text_exclusive h.2.2⟩
-- C116
example := not_folded_partial docText ✓
theorem frames_upper : ∀ f ∈ frames, f.1 = c!"BEGIN:" := ✓

theorem attendee (t : Str) : HasColon (c!"ATTENDEE:mailto:e@x\r\n" ++ t) :=
  ⟨[], c!"ATTENDEE", [], [], c!"mailto:e@x\r\n" ++ t, by simp, by decide, ⟨rfl, by intro c hc; cases hc; decide⟩, by simp⟩

theorem attendee_keyword : ¬ Keyword c!"ATTENDEE:mailto:e@x\r\n" := by
  rintro ⟨white, s, hw, he, hs⟩
  cases white with
  | cons x white =>
    obtain rfl : 'A' = x := congrArg (fun l => l.headD ' ') he
    exact absurd (hw 'A' (by simp)) (by unfold Space; decide)
  | nil =>
    simp only [List.nil_append] at he
    subst he
    revert hs
    decide

theorem attendee_begins {k : Str} (hk : k.head? ≠ some 'a' ∧ k ≠ []) : ¬ Begins k c!"ATTENDEE:mailto:e@x\r\n" := by
  rintro ⟨b, rest, he, rfl⟩
  cases b with
  | nil => simp at hk
  | cons x b =>
    obtain rfl : 'A' = x := congrArg (fun l => l.headD ' ') he
    exact hk.1 rfl

example := folded_line_split (s := c!"ATTENDEE:mailto:e@x\r\n") (frames_ok .crlf) ✓ frames_upper (.inl rfl) (attendee [])
  attendee_keyword (by unfold NoBreak; decide) (attendee_begins ✓) (attendee_begins ✓)
example := folded_root_line_partial (b := c!"BEGIN:") (n := c!"VALARM") (items := [.prop c!"ACTION" [] c!"AUDIO"]) (c := ' ')
  (u := c!"END:x") (frame_ok .crlf) (.inl rfl) (fun _ => ⟨[' '], c!"END:x", by simp [Space], rfl, by decide⟩)
-- C122
example := simple_error_place wrong ⟨c!"C\n", c!"Tag"⟩ rfl
example := simple_error_message wrong ((readCalendarError wrong).getD []) ✓
-- C131: a summary is replaced, another one is removed, and a property of the calendar is added
def edited (l : List Item) : List Item :=
  [.prop c!"VERSION" [] c!"2.0",
   .comp c!"BEGIN:" c!"END:" c!"VEVENT" (.prop c!"UID" [] c!"1" :: (l ++ [.prop c!"COMMENT" [] c!"a", .prop c!"LOCATION" [] c!"b"])),
   .prop c!"NAME" [] c!"n"]
theorem edited_ok {l : List Item} (br : Break) (h : ItemsOk br l) : (Item.comp c!"BEGIN:" c!"END:" c!"VCALENDAR" (edited l)).Ok br := by
  cases br <;>
  · simp only [edited, Item.Ok, ItemsOk, ValOk, itemsOk_append, h, true_and, and_true, List.not_mem_nil, false_implies, implies_true]
    decide +kernel
theorem summary_ok (br : Break) (v : Str) (h : '\r' ∉ v ∧ '\n' ∉ v) : ItemsOk br [.prop c!"SUMMARY" [] v] := by
  simp only [ItemsOk, Item.Ok, and_true, List.not_mem_nil, false_implies, implies_true, true_and]
  refine ⟨✓, ?_⟩
  cases br
  · rintro ⟨a, b, e⟩
    exact h.1 (by rw [← e]; simp)
  · exact h.2
theorem edited_edit : LinesEdited (· = c!"SUMMARY") (.comp c!"BEGIN:" c!"END:" c!"VCALENDAR" (edited [.prop c!"SUMMARY" [] c!"x"]))
    (.comp c!"BEGIN:" c!"END:" c!"VCALENDAR" (edited [.prop c!"SUMMARY" [] c!"y"])) :=
  .inside (pre := [_]) (.here (pre := [_]) (mid := [_]) (mid' := [_]) (by simp [IsLine]) (by simp [IsLine]))
example := calendar_edited (edited_ok .crlf (summary_ok _ c!"x" ✓)) (edited_ok .lf (summary_ok _ c!"y" ✓)) edited_edit
  (presents ✓ nofun) (presents ✓ (fun _ => ✓))
example := component_edited (edited_ok .crlf (summary_ok _ c!"x" ✓)) (edited_ok .lf (summary_ok _ c!"y" ✓)) edited_edit
  (presents ✓ nofun) (presents ✓ (fun _ => ✓))
example : ∃ names, ¬ names c!"UID" ∧ LinesEdited names (.comp c!"BEGIN:" c!"END:" c!"VCALENDAR" (edited []))
    (.comp c!"BEGIN:" c!"END:" c!"VCALENDAR" (.prop c!"X-A" [] c!"1" :: edited [])) :=
  ⟨(· = c!"X-A"), ✓, .here (pre := []) (mid := []) (mid' := [_]) (by simp) (by simp [IsLine])⟩

end Ical.Sample
