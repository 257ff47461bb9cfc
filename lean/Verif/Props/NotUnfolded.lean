import Verif.Props.OwnText
import Verif.Props.Acceptance
import Verif.Props.Parsing

/-!
C116: documents with folded lines read by the functions that do not unfold them.
-/

namespace Ical

open Nom Spec

variable [Uni]

/-- **C116** (partial: documents in which nothing is folded). The readers that do not unfold read them like the one that
does. -/
theorem not_folded_partial (s : Str) (h : MarkerFree s) :
    readCalendar s = readCalendar (unfold s) ∧ readComponents s = readComponents (unfold s) ∧
    readComponent s = readComponent (unfold s) ∧ readProperty s = readProperty (unfold s) := by
  rw [unfold_eq_spec, unfoldSpec_markerFree _ h]
  exact ⟨rfl, rfl, rfl, rfl⟩

/-! ### Lines that are indented -/

/-- a blank before a property is skipped -/
theorem property_indent {c : Char} (hc : c = ' ' ∨ c = '\t') {s : Str} (h1 : HasColon s) (h2 : ¬ Keyword s) :
    ∃ q r, property s = .ok r q ∧ property (c :: s) = .ok r q ∧ r.length < s.length := by
  obtain ⟨q, t, f, rfl, hq⟩ := prop_total h2
  refine ⟨q, f, propIs_reads hq, ?_, ?_⟩
  · obtain ⟨h3, h4, ⟨white, params, raw, br, h5, h6, h7, h8, rfl⟩ | ⟨-, -, h5, -⟩⟩ := hq
    · refine propIs_reads (t := c :: (white ++ q.name ++ params ++ ':' :: raw ++ br)) ⟨h3, ?_, .inl ⟨c :: white, params, raw, br,
        ?_, h6, h7, h8, rfl⟩⟩
      · rintro ⟨w, s, hw, he, hs⟩
        cases w with
        | nil =>
          rw [List.nil_append] at he
          rw [← he] at hs
          rcases hc with rfl | rfl <;> simp [List.cons_prefix_cons] at hs
        | cons d w =>
          simp only [List.cons_append, List.cons.injEq] at he
          exact h4 ⟨w, s, fun x hx => hw x (by simp [hx]), he.2, hs⟩
      · intro x hx
        rcases List.mem_cons.1 hx with rfl | hx
        · rcases hc with rfl | rfl
          · exact .inl rfl
          · exact .inr (.inl rfl)
        · exact h5 x hx
    · exact absurd h1 h5
  · obtain ⟨-, -, ⟨white, params, raw, br, -, -, -, -, rfl⟩ | ⟨-, -, h5, -⟩⟩ := hq
    · simp
      omega
    · exact absurd h1 h5

omit [Uni] in
theorem indent_noBreak {c : Char} (hc : c = ' ' ∨ c = '\t') (s : Str) : lineEnding (c :: s) = .error := by
  rcases hc with rfl | rfl <;> exact lineEnding_cons_error (by decide) (by decide)

theorem indent_noKeyword {c : Char} (hc : c = ' ' ∨ c = '\t') (n s : Str) :
    component (c :: s) = .error ∧ componentEnd n (c :: s) = .error := by
  constructor
  · refine component_error (indent_noBreak hc s) ?_
    rcases hc with rfl | rfl <;> exact prefixNoCase_head_ne (by decide)
  · refine line_error (indent_noBreak hc s) ?_
    rcases hc with rfl | rfl <;> exact prefixNoCase_head_ne (by decide)

/-- A line that looks like a property. -/
structure Liney (s : Str) : Prop where
  colon : HasColon s
  word : ¬ Keyword s
  noBreak : NoBreak s
  notBegin : ¬ Begins c!"begin:" s
  notEnd : ¬ Begins c!"end:" s

/-- the body of a component that goes on with an indented line -/
theorem body_indent {c : Char} (hc : c = ' ' ∨ c = '\t') {s : Str} (h : Liney s) (n : Str) :
    manyTill (componentChild component) (componentEnd n) (c :: s) =
      manyTill (componentChild component) (componentEnd n) s := by
  obtain ⟨q, r, h1, h2, h3⟩ := property_indent hc h.colon h.word
  have hle : lineEnding s = .error := noBreak_iff.1 h.noBreak
  obtain ⟨bl, r', hr, hbl, hnb⟩ := blank_split r
  obtain ⟨l, hl⟩ := many0_blank hbl (noBreak_iff.1 hnb)
  rw [← hr] at hl
  have e1 : componentChild component (c :: s) = .ok r' (.prop q) := by
    unfold componentChild cut alt map
    rw [lineSeparated_error (indent_noBreak hc s) (indent_noKeyword hc n s).1,
      lineSeparated_ok (indent_noBreak hc s) h2 hl]
  have e2 : componentChild component s = .ok r' (.prop q) := by
    unfold componentChild cut alt map
    rw [lineSeparated_error hle (component_error hle (by
        rw [Bool.eq_false_iff]; exact fun hb => h.notBegin (begins_begin.1 hb))),
      lineSeparated_ok hle h1 hl]
  have e3 : componentEnd n s = .error :=
    line_error hle (by rw [Bool.eq_false_iff]; exact fun hb => h.notEnd (begins_end.1 hb))
  have hlen : r'.length ≤ r.length := by rw [hr]; simp
  rw [manyTill_eq (shrinks_componentChild shrinks_component), (indent_noKeyword hc n s).2, e1,
    manyTill_eq (shrinks_componentChild shrinks_component) s, e3, e2]
  simp only
  rw [if_neg (by simp; omega), if_neg (by omega)]

/-- open components that go on with an indented line -/
theorem component_indent {fs : List Frame} (h : FramesOk .crlf fs) (hne : fs ≠ [])
    (hu : ∀ f ∈ fs, f.1 = c!"BEGIN:") {c : Char} (hc : c = ' ' ∨ c = '\t') {s : Str} (hs : Liney s) :
    component (openText .crlf fs ++ c :: s) = component (openText .crlf fs ++ s) := by
  have hle : lineEnding s = .error := noBreak_iff.1 hs.noBreak
  induction fs with
  | nil => exact absurd rfl hne
  | cons f fs ih =>
    obtain ⟨b, n, items⟩ := f
    simp only [FramesOk] at h
    simp only [openText, List.append_assoc]
    have e : ∀ t : Str, b ++ (n ++ (Break.crlf.text ++ (itemsText .crlf items ++ t))) =
        b ++ n ++ Break.crlf.text ++ itemsText .crlf items ++ t := by intro t; simp
    rw [e, e, component_frame h.1 h.2.1 h.2.2.1 (open_lineEnding h.2.2.2 (indent_noBreak hc s)) nofun,
      component_frame h.1 h.2.1 h.2.2.1 (open_lineEnding h.2.2.2 hle) nofun]
    cases fs with
    | nil => simp only [openText, List.nil_append]; rw [body_indent hc hs]
    | cons g gs =>
      have ih := ih h.2.2.2 (by simp) (fun f hf => hu f (by simp [hf]))
      obtain ⟨b', n', items'⟩ := g
      have hb' : b' = c!"BEGIN:" := hu (b', n', items') (by simp)
      have hbody : ∀ t : Str, lineEnding t = .error →
          componentEnd n (openText .crlf ((b', n', items') :: gs) ++ t) = .error ∧
          c!"BEGIN" <+: openText .crlf ((b', n', items') :: gs) ++ t := by
        intro t ht
        refine ⟨line_error (open_lineEnding h.2.2.2 ht) ?_, by simp [openText, hb']⟩
        rw [hb']
        exact prefixNoCase_head_ne (by decide)
      obtain ⟨a1, a2⟩ := hbody _ (indent_noBreak hc s)
      obtain ⟨b1, b2⟩ := hbody s hle
      have l1 := open_lineEnding h.2.2.2 (indent_noBreak hc s)
      have l2 := open_lineEnding h.2.2.2 hle
      have key : manyTill (componentChild component) (componentEnd n) (openText .crlf ((b', n', items') :: gs) ++ c :: s) =
          manyTill (componentChild component) (componentEnd n) (openText .crlf ((b', n', items') :: gs) ++ s) := by
        rw [manyTill_eq (shrinks_componentChild shrinks_component), a1,
          manyTill_eq (shrinks_componentChild shrinks_component) (openText _ _ ++ s), b1]
        cases hcomp : component (openText .crlf ((b', n', items') :: gs) ++ s) with
        | error =>
          rw [hcomp] at ih
          rw [child_unclosed a2 ih, child_unclosed b2 hcomp]
        | failure =>
          rw [hcomp] at ih
          unfold componentChild cut alt map
          rw [lineSeparated_failure l1 ih, lineSeparated_failure l2 hcomp]
        | ok r d =>
          rw [hcomp] at ih
          obtain ⟨bl, r', hr, hbl, hnb⟩ := blank_split r
          obtain ⟨l, hl⟩ := many0_blank hbl (noBreak_iff.1 hnb)
          rw [← hr] at hl
          have e1 : componentChild component (openText .crlf ((b', n', items') :: gs) ++ c :: s) = .ok r' (.comp d) := by
            unfold componentChild cut alt map
            rw [lineSeparated_ok l1 ih hl]
          have e2 : componentChild component (openText .crlf ((b', n', items') :: gs) ++ s) = .ok r' (.comp d) := by
            unfold componentChild cut alt map
            rw [lineSeparated_ok l2 hcomp hl]
          obtain ⟨lead, t, h5, -, h6⟩ := component_ok_iff.1 hcomp
          have h7 := (compIs_begins h6).2.1
          have hlen : r'.length < (openText .crlf ((b', n', items') :: gs) ++ s).length := by
            rw [h5, hr]
            have := List.length_pos_iff.2 h7
            simp only [List.length_append]
            omega
          have hlen' : (openText .crlf ((b', n', items') :: gs) ++ c :: s).length =
              (openText .crlf ((b', n', items') :: gs) ++ s).length + 1 := by
            simp only [List.length_append, List.length_cons]; omega
          rw [e1, e2]
          simp only
          rw [if_neg (by omega), if_neg (by omega)]
      rw [key]

theorem readers_of_component {i j : Str} (h : component i = component j) :
    readCalendar i = readCalendar j ∧ readComponents i = readComponents j ∧ readComponent i = readComponent j := by
  refine ⟨?_, ?_, by unfold readComponent; rw [h]⟩
  all_goals
    try unfold readCalendar
    try unfold readComponents
    cases hj : component j with
    | error => rw [hj] at h; rw [components_none (.inl h), components_none (.inl hj)]; rfl
    | failure => rw [hj] at h; rw [components_failure h, components_failure hj]
    | ok r c =>
      rw [hj] at h
      by_cases hr : r = []
      · subst hr; rw [components_ok h, components_ok hj]
      · rw [components_none (.inr ⟨r, c, hr, h⟩), components_none (.inr ⟨r, c, hr, hj⟩)]; rfl

/-- **C116 (violated, for every text).** If the rest of a folded line looks like a content line, the readers that do not
unfold read it as one: the value ends at the fold and the component has one more property. -/
theorem folded_line_split {fs : List Frame} (h : FramesOk .crlf fs) (hne : fs ≠ []) (hu : ∀ f ∈ fs, f.1 = c!"BEGIN:")
    {c : Char} (hc : c = ' ' ∨ c = '\t') {s : Str} (h1 : HasColon s) (h2 : ¬ Keyword s) (h3 : NoBreak s)
    (h4 : ¬ Begins c!"begin:" s) (h5 : ¬ Begins c!"end:" s) :
    readCalendar (openText .crlf fs ++ c :: s) = readCalendar (openText .crlf fs ++ s) ∧
    readComponents (openText .crlf fs ++ c :: s) = readComponents (openText .crlf fs ++ s) ∧
    readComponent (openText .crlf fs ++ c :: s) = readComponent (openText .crlf fs ++ s) :=
  readers_of_component (component_indent h hne hu hc ⟨h1, h2, h3, h4, h5⟩)

/-- the body of a component that goes on with an indented line that is no property -/
theorem body_not_line {c : Char} (hc : c = ' ' ∨ c = '\t') {u : Str} (h1 : ¬ HasColon (c :: u)) (h2 : ¬ Keyword (c :: u))
    (n : Str) : manyTill (componentChild component) (componentEnd n) (c :: u) = .error := by
  have hn : ¬ NameChar c := by
    rw [← isKeyChar_iff]
    rcases hc with rfl | rfl
    · rw [isKeyChar_sp]; simp
    · rw [isKeyChar_tab]; simp
  have hle := indent_noBreak hc u
  have hp : property (c :: u) = .ok (c :: u) ⟨[], [], []⟩ := by
    refine propIs_reads (t := []) (f := c :: u) ⟨by simp [IsName], h2, .inr ⟨rfl, rfl, h1, [], rfl, ?_, .inr (.inr ⟨rfl, ?_⟩)⟩⟩
    · intro x hx
      cases hx
      exact hn
    · exact noBreak_iff.2 hle
  have hch : componentChild component (c :: u) = .ok (c :: u) (.prop ⟨[], [], []⟩) := by
    unfold componentChild cut alt map
    rw [lineSeparated_error hle (indent_noKeyword hc n u).1, lineSeparated_ok hle hp (many0_lineEnding_none hle)]
  rw [manyTill_eq (shrinks_componentChild shrinks_component), (indent_noKeyword hc n u).2, hch]
  simp

/-- **C116** (partial: rest of a line that does not look like a content line or starts with END or BEGIN, in a component inside
another). The document
is rejected. -/
theorem folded_line_rejected_partial {fs : List Frame} (h : FramesOk .crlf fs) (hne : fs ≠ [])
    {n : Str} {items : List Item} (hf : FramesOk .crlf [(c!"BEGIN:", n, items)])
    {c : Char} (hc : c = ' ' ∨ c = '\t') {u : Str} (h1 : HasColon (c :: u) → Keyword (c :: u)) :
    readCalendar (openText .crlf (fs ++ [(c!"BEGIN:", n, items)]) ++ c :: u) = none ∧
    readComponents (openText .crlf (fs ++ [(c!"BEGIN:", n, items)]) ++ c :: u) = none ∧
    readComponent (openText .crlf (fs ++ [(c!"BEGIN:", n, items)]) ++ c :: u) = none := by
  have hle := indent_noBreak hc u
  have hcomp : component (openText .crlf (fs ++ [(c!"BEGIN:", n, items)]) ++ c :: u) = .failure := by
    by_cases h2 : Keyword (c :: u)
    · refine open_failure h hf hle nofun ?_
      rw [manyTill_eq (shrinks_componentChild shrinks_component), (indent_noKeyword hc n u).2]
      unfold componentChild cut alt map
      rw [lineSeparated_error hle (indent_noKeyword hc n u).1, lineSeparated_failure hle (keyword_fails h2)]
    · exact open_unclosed h hne hf hle nofun (body_not_line hc (fun h => h2 (h1 h)) h2 n)
  unfold readCalendar readComponents readComponent
  rw [components_failure hcomp, hcomp]
  exact ⟨rfl, rfl, rfl⟩

/-- **C116** (partial: the same in the outermost component). It is not read as a component; as a calendar it is
rejected or read as an empty one. -/
theorem folded_root_line_partial {b n : Str} {items : List Item} (hf : FramesOk .crlf [(b, n, items)])
    {c : Char} (hc : c = ' ' ∨ c = '\t') {u : Str} (h1 : HasColon (c :: u) → Keyword (c :: u)) :
    readComponent (openText .crlf [(b, n, items)] ++ c :: u) = none ∧
    (readCalendar (openText .crlf [(b, n, items)] ++ c :: u) = none ∧ Keyword (c :: u) ∨
      readCalendar (openText .crlf [(b, n, items)] ++ c :: u) = some ⟨[], []⟩ ∧ ¬ Keyword (c :: u)) := by
  have hle := indent_noBreak hc u
  by_cases h2 : Keyword (c :: u)
  · have hcomp : component (openText .crlf ([] ++ [(b, n, items)]) ++ c :: u) = .failure := by
      refine open_failure (fs := []) trivial hf hle nofun ?_
      rw [manyTill_eq (shrinks_componentChild shrinks_component), (indent_noKeyword hc n u).2]
      unfold componentChild cut alt map
      rw [lineSeparated_error hle (indent_noKeyword hc n u).1, lineSeparated_failure hle (keyword_fails h2)]
    rw [List.nil_append] at hcomp
    unfold readCalendar readComponent
    rw [components_failure hcomp, hcomp]
    exact ⟨rfl, .inl ⟨rfl, h2⟩⟩
  · have hcomp : component (openText .crlf [(b, n, items)] ++ c :: u) = .error := by
      simp only [FramesOk] at hf
      have := component_frame hf.1 hf.2.1 hf.2.2.1 hle nofun
      rw [body_not_line hc (fun h => h2 (h1 h)) h2] at this
      simpa [openText] using this
    unfold readCalendar readComponent
    rw [components_none (.inl hcomp), hcomp]
    exact ⟨rfl, .inr ⟨rfl, h2⟩⟩

end Ical

namespace Ical

open Nom Spec

private def w0 : World := ⟨fun _ => ⟨⟨⟨2026, 1, 1⟩, 0, 0, 0, 0⟩⟩, fun _ => c!"0-f", fun _ l => l⟩

private def guestText : Str :=
  c!"BEGIN:VCALENDAR\r\nVERSION:2.0\r\nPRODID:ICALENDAR-RS\r\nCALSCALE:GREGORIAN\r\nBEGIN:VEVENT\r\n" ++
  c!"DTSTAMP:20260101T000000Z\r\nDESCRIPTION:" ++ List.replicate 63 'x' ++ c!"\r\n ATTENDEE:mailto:e@x\r\nUID:1\r\n" ++
  c!"END:VEVENT\r\nEND:VCALENDAR\r\n"

private def mergedText : Str :=
  c!"BEGIN:VCALENDAR\r\nVERSION:2.0\r\nPRODID:ICALENDAR-RS\r\nCALSCALE:GREGORIAN\r\nBEGIN:VEVENT\r\n" ++
  c!"DTSTAMP:20260101T000000Z\r\nSUMMARY:" ++ List.replicate 66 'x' ++ c!"\\\r\n ;b=\"\r\nUID:1\r\nEND:VEVENT\r\nBEGIN:VEVENT\r\n" ++
  c!"DTSTAMP:20260101T000000Z\r\nSUMMARY:\":y\r\nUID:2\r\nEND:VEVENT\r\nEND:VCALENDAR\r\n"

/-- **C116 (violated).** A calendar with one event, and what `read_calendar` makes of the text of it without unfolding:
the end of the description has become an attendee. -/
theorem folded_line_violated :
    let e := Component.uid (Component.description Event.new (List.replicate 63 'x' ++ c!"ATTENDEE:mailto:e@x")) c!"1"
    @Calendar.fmtWrite Uni.ascii (Calendar.new.push (.event e)) w0 = .ok guestText ∧
    (@readCalendar Uni.ascii guestText).map (fun c => c.comps.map PComp.props) =
      some [[⟨c!"DTSTAMP", c!"20260101T000000Z", []⟩, ⟨c!"DESCRIPTION", List.replicate 63 'x', []⟩,
        ⟨c!"ATTENDEE", c!"mailto:e@x", []⟩, ⟨c!"UID", c!"1", []⟩]] := by
  decide +kernel

/-- **C116 (violated).** A calendar with two events that is read as one with one event. -/
theorem folded_events_merged_violated :
    let e1 := Component.uid (Component.summary Event.new (List.replicate 66 'x' ++ c!";b=\"")) c!"1"
    let e2 := Component.uid (Component.summary Event.new c!"\":y") c!"2"
    @Calendar.fmtWrite Uni.ascii ((Calendar.new.push (.event e1)).push (.event e2)) w0 = .ok mergedText ∧
    (@readCalendar Uni.ascii mergedText).map (fun c => c.comps.map PComp.props) =
      some [[⟨c!"DTSTAMP", c!"20260101T000000Z", []⟩, ⟨c!"SUMMARY", List.replicate 66 'x' ++ c!"\\", []⟩,
        ⟨[], c!"y", [⟨c!"b", some (c!"\r\nUID:1\r\nEND:VEVENT\r\nBEGIN:VEVENT\r\nDTSTAMP:20260101T000000Z\r\nSUMMARY:")⟩]⟩,
        ⟨c!"UID", c!"2", []⟩]] := by
  decide +kernel

/-- the rest of the line in the first of these texts looks like a content line -/
example (t : Str) : @HasColon Uni.ascii (c!"ATTENDEE:mailto:e@x\r\n" ++ t) :=
  ⟨[], c!"ATTENDEE", [], [], c!"mailto:e@x\r\n" ++ t, by simp, by decide,
    ⟨rfl, by intro c hc; cases hc; decide⟩, by simp⟩

/-- the rest of a line with more than one word does not, so the document is rejected -/
example (t : Str) : @readCalendar Uni.ascii
    (c!"BEGIN:VCALENDAR\r\nBEGIN:VEVENT\r\nSUMMARY:the first line\r\n" ++ c!" and the second\r\n" ++ t) = none := by
  have := (@folded_line_rejected_partial Uni.ascii [(c!"BEGIN:", c!"VCALENDAR", [])] (by simp only [FramesOk, ItemsOk]; decide)
    (by simp) c!"VEVENT" [.prop c!"SUMMARY" [] c!"the first line"] (by
      simp only [FramesOk, ItemsOk, Item.Ok, ValOk]
      exact ⟨by decide, by decide, ⟨⟨by decide, by simp, by decide⟩, trivial⟩, trivial⟩) ' ' (.inl rfl)
    (c!"and the second\r\n" ++ t) ?_).1
  · exact this
  · rintro ⟨white, k, ps, params, rest, hw, hk, hp, he⟩
    exfalso
    obtain ⟨d, s, hd, hd'⟩ := @paramsAre_head Uni.ascii _ _ _ hp
    rw [List.append_assoc, List.append_assoc, hd] at he
    have hnot : ∀ x : Char, x = ' ' → ¬ @NameChar Uni.ascii x := by rintro x rfl; decide
    have hsp : ¬ Space 'a' := by simp [Space]
    cases white with
    | nil =>
      cases k with
      | nil =>
        simp only [List.nil_append] at he
        injection he with h1 h2
        subst h1
        simp at hd'
      | cons a k =>
        simp only [List.nil_append, List.cons_append, List.cons.injEq] at he
        exact hnot a he.1.symm (hk a (by simp))
    | cons a white =>
      cases white with
      | cons b white =>
        simp only [List.cons_append] at he
        have : b = 'a' := by
          injection he with h1 h2
          injection h2 with h3 h4
          exact h3.symm
        subst this
        exact hsp (hw 'a' (by simp))
      | nil =>
        simp only [List.cons_append, List.nil_append] at he
        injection he with h1 h2
        have h3 : ∀ x ∈ k.take 4, x ≠ ' ' := fun x hx h => hnot x h (hk x (List.mem_of_mem_take hx))
        have h4 : (k ++ d :: s).take 4 = c!"and " := by rw [← h2]; rfl
        rcases k with - | ⟨k1, - | ⟨k2, - | ⟨k3, - | ⟨k4, k⟩⟩⟩⟩ <;> simp at h3 h4 <;> rcases hd' with rfl | rfl <;> simp_all

end Ical
