import Verif.Model.Print
import Verif.Props.Roundtrip
import Verif.Props.Presentation
import Verif.Props.Reprint

/-!
Components on their own, and printing.
-/

namespace Ical

open Nom Spec

/-! ### C88 -/

section
variable [Uni]

/-- the unfolded text of a component -/
theorem unfold_calComp {x : CalComp} (hx : OtherWritable x.toOther) {w : World} (hw : World.Ok w) {out : Str}
    (h : x.fmtWrite w = .ok out) {t : Str} (ht : NoIndent t) :
    unfold (out ++ t) = (x.toOther.item w).text .crlf ++ unfold t := by
  rw [calComp_fmtWrite] at h
  rw [unfold_eq_spec, unfold_eq_spec]
  exact (unfold_other _ hx hw h ht).1

/-- what is read for a component that is followed by something else -/
theorem calComp_read {x : CalComp} (hx : CalCompOk x) {w : World} (hw : World.Ok w) {out : Str}
    (h : x.fmtWrite w = .ok out) {t : Str} (ht : NoIndent t) (hl : lineEnding (unfold t) = .error) :
    CalComp.fromStr (out ++ t) = some (x.withContent (x.toOther.trip w)) := by
  have hw' := otherOk_writable _ (calCompOk_other hx)
  have hok := other_item_ok _ hw' hw
  unfold CalComp.fromStr readComponent
  rw [unfold_calComp hw' hw h ht]
  have e := toCalComp_trip hx hw
  unfold Other.tree at e
  generalize x.toOther.trip w = o at *
  revert e hok
  cases hi : x.toOther.item w with
  | prop k p v => 
    generalize x.toOther = y at hi
    obtain ⟨n, p, m, c⟩ := y
    simp [Other.item] at hi
  | comp b e name items =>
    intro hok e
    rw [component_ok hok hl (by intro h; cases h)]
    simpa [finish] using e

omit [Uni] in
mutual
/-- the usual text of an element has no blank lines -/
theorem spaced_self (br : Break) : (it : Item) → Spaced br it (it.text br)
  | .prop key params val => by
    unfold Spaced
    exact ⟨[], blank_nil, by simp⟩
  | .comp b e name items => by
    unfold Spaced
    exact ⟨[], itemsText br items, [], blank_nil, blank_nil, spacedAll_self br items, by simp [Item.text]⟩
theorem spacedAll_self (br : Break) : (l : List Item) → SpacedAll br l (itemsText br l)
  | [] => by unfold SpacedAll; rfl
  | i :: l => by
    unfold SpacedAll
    exact ⟨i.text br, itemsText br l, spaced_self br i, spacedAll_self br l, rfl⟩
end

/-- reading a component followed by blank lines -/
theorem component_then_blank {b e name : Str} {items : List Item} (h : (Item.comp b e name items).Ok .crlf) {bl : Str}
    (hb : Blank bl) :
    component ((Item.comp b e name items).text .crlf ++ bl) = .ok [] (.mk name (itemsProps items) (itemsComps items)) := by
  have hb' : Blank (Break.crlf.text ++ bl) := by
    obtain ⟨bs, rfl⟩ := hb
    exact ⟨.crlf :: bs, by simp⟩
  have := component_spaced h blank_nil blank_nil (spacedAll_self .crlf items) hb' (r := []) lineEnding_nil
    (by intro h; cases h)
  simpa [Item.text] using this

omit [Uni] in
/-- a text that starts neither with a line break nor with white space -/
theorem starts_plainly {rest : Str} (h : ∀ c, rest.head? = some c → c ∉ [' ', '\t', '\r', '\n']) :
    NoIndent rest ∧ lineEnding (unfold rest) = .error := by
  cases rest with
  | nil => exact ⟨noIndent_nil, by decide +kernel⟩
  | cons c s =>
    have hc := h c rfl
    simp only [List.mem_cons, List.not_mem_nil, or_false, not_or] at hc
    obtain ⟨h1, h2, h3, h4⟩ := hc
    refine ⟨noIndent_cons h1 h2, ?_⟩
    rw [unfold_eq_spec, unfoldSpec_cons]
    · exact lineEnding_cons_error h4 h3
    · rintro m ⟨t, ht⟩
      cases m <;> simp [Marker.text] at ht <;> first | exact h3 ht.1.symm | exact h4 ht.1.symm

/-- **C88.** A well-formed component with DTSTAMP and UID is read back from its own text as it was, whatever the order
of hash maps, the clock and the UUIDs, also when further lines follow. -/
theorem component_roundtrip (x : CalComp) (hx : CalCompOk x) (hs : OtherSafe x.toOther) (hst : HasStamps x.toOther)
    (w : World) (hw : World.Ok w) (out : Str) (h : x.fmtWrite w = .ok out) (rest : Str)
    (hr : ∀ c, rest.head? = some c → c ∉ [' ', '\t', '\r', '\n']) : CalComp.fromStr (out ++ rest) = some x := by
  obtain ⟨h1, h2⟩ := starts_plainly hr
  rw [calComp_read hx hw h h1 h2, trip_stamped _ hst, readAll_safe _ hs, withContent_self]

/-- **C88.** Otherwise the missing DTSTAMP and UID lines are the only difference. -/
theorem component_missing_stamps (x : CalComp) (hx : CalCompOk x) (hs : OtherSafe x.toOther) (w : World)
    (hw : World.Ok w) (out : Str) (h : x.fmtWrite w = .ok out) (rest : Str)
    (hr : ∀ c, rest.head? = some c → c ∉ [' ', '\t', '\r', '\n']) :
    ∃ x', CalComp.fromStr (out ++ rest) = some x' ∧ SameKind x x' ∧ Stamped x.toOther x'.toOther := by
  obtain ⟨h1, h2⟩ := starts_plainly hr
  refine ⟨_, calComp_read hx hw h h1 h2, sameKind_withContent _ _, ?_⟩
  rw [withContent_toOther _ _ (trip_name _ _)]
  exact trip_spec _ (calCompOk_other hx) hs _ hw

omit [Uni] in
theorem unfold_crlf : unfold crlf = crlf := by decide +kernel

/-- **C88.** What is printed for a calendar is read like its text. -/
theorem print_calendar (c : Calendar) (hc : CalendarWritable c) (w : World) (hw : World.Ok w) (out : Str)
    (h : c.printed w = .ok out) : ∃ text, c.fmtWrite w = .ok text ∧ Calendar.fromStr out = Calendar.fromStr text := by
  unfold Calendar.printed at h
  cases ht : c.fmtWrite w with
  | error e => rw [ht] at h; cases h
  | ok text =>
    rw [ht] at h
    cases h
    refine ⟨text, rfl, ?_⟩
    have hok := calendar_item_ok hc hw
    have u2 := unfold_calendar hc hw ht
    have u1 : unfold (text ++ crlf) = (c.item w).text .crlf ++ crlf := by
      rw [unfold_eq_spec] at u2 ⊢
      have := unfoldSpec_break text .crlf [] noIndent_nil
      rw [u2] at this
      exact this
    unfold Calendar.fromStr readCalendar
    unfold Calendar.item at u1 u2 hok
    have e1 := component_then_blank hok (bl := crlf) ⟨[.crlf], rfl⟩
    have e2 := component_then_blank hok blank_nil
    rw [List.append_nil] at e2
    rw [u1, u2, components_ok e1, components_ok e2]

/-- **C88.** What is printed for a component is read like its text. -/
theorem print_component (x : CalComp) (hx : OtherWritable x.toOther) (w : World) (hw : World.Ok w) (out : Str)
    (h : x.printed w = .ok out) : ∃ text, x.fmtWrite w = .ok text ∧ CalComp.fromStr out = CalComp.fromStr text := by
  unfold CalComp.printed at h
  cases ht : x.fmtWrite w with
  | error e => rw [ht] at h; cases h
  | ok text =>
    rw [ht] at h
    cases h
    refine ⟨text, rfl, ?_⟩
    have hok := other_item_ok _ hx hw
    have u1 := unfold_calComp hx hw ht (t := crlf) (noIndent_cons (by decide) (by decide))
    have u2 := unfold_calComp hx hw ht (t := []) noIndent_nil
    rw [unfold_crlf] at u1
    rw [List.append_nil] at u2
    unfold CalComp.fromStr readComponent
    rw [u1, u2]
    revert hok
    cases hi : x.toOther.item w with
    | prop k p v =>
      generalize x.toOther = y at hi
      obtain ⟨n, p, m, c⟩ := y
      simp [Other.item] at hi
    | comp b e name items =>
      intro hok
      have e1 := component_then_blank hok (bl := crlf) ⟨[.crlf], rfl⟩
      have e2 := component_then_blank hok blank_nil
      have e3 : unfold [] = [] := by decide +kernel
      rw [e1, e3, e2]

/-- **C22 (partial).** Also what is printed for a parsed calendar is read as this calendar, under the conditions of
`reprint_partial`. -/
theorem print_parsed_partial {c : PCal} (hc : ReprintCal c) {w : World} {out : Str} (h : c.printed w = .ok out) :
    readCalendar (unfold out) = some c := by
  unfold PCal.printed at h
  cases ht : c.fmtWrite w with
  | error e => rw [ht] at h; cases h
  | ok text =>
    rw [ht] at h
    cases h
    rw [← reprint_partial hc ht]
    have hr : ReprintComp (.mk c!"VCALENDAR" c.props c.comps) :=
      ⟨isName_upper _ (by decide), by decide, hc.props, hc.comps⟩
    have hok := pcomp_item_ok _ hr
    have u1 := (unfold_pcomp _ hr ht (t := crlf) (noIndent_cons (by decide) (by decide))).1
    have u2 := (unfold_pcomp _ hr ht noIndent_nil).1
    rw [← unfold_eq_spec, ← unfold_eq_spec crlf, unfold_crlf] at u1
    rw [← unfold_eq_spec, List.append_nil] at u2
    unfold readCalendar
    simp only [PComp.item] at hok u1 u2
    have e1 := component_then_blank hok (bl := crlf) ⟨[.crlf], rfl⟩
    have e2 := component_then_blank hok blank_nil
    have e3 : unfoldSpec [] = [] := rfl
    rw [u1, u2, e3, components_ok e1, components_ok e2]

end

end Ical

namespace Ical

open Spec

/-- an event that C88 speaks about -/
def exampleEvent : CalComp :=
  .event ⟨⟨[(c!"DTSTAMP", ⟨c!"DTSTAMP", c!"20260101T000000Z", []⟩), (c!"SUMMARY", ⟨c!"SUMMARY", c!"a, b", []⟩),
    (c!"UID", ⟨c!"UID", c!"1", []⟩)], [(c!"COMMENT", [⟨c!"COMMENT", c!"x", []⟩])], []⟩⟩

example : @CalCompOk Uni.ascii exampleEvent ∧ OtherSafe exampleEvent.toOther ∧ HasStamps exampleEvent.toOther := by
  have hi : ∀ props multi, (InOrder props ∧ (∀ x ∈ props, x.2.key = x.1 ∧ x.1 ∉ repeatable ∧ @PropOk Uni.ascii x.2) ∧
      InOrder multi ∧ (∀ x ∈ multi, x.1 ∈ repeatable ∧ x.2 ≠ [] ∧ ∀ p ∈ x.2, p.key = x.1 ∧ @PropOk Uni.ascii p)) →
      @InnerOk Uni.ascii props multi := fun _ _ h => @InnerOk.mk Uni.ascii _ _ h.1 h.2.1 h.2.2.1 h.2.2.2
  refine ⟨⟨by decide +kernel, hi _ _ (by decide +kernel), trivial⟩,
    ⟨by decide +kernel, by decide +kernel, trivial⟩, ⟨by decide +kernel, by decide +kernel, trivial⟩⟩

/-- what is printed for it, and what is read from this -/
example : let w : World := ⟨fun _ => ⟨⟨⟨2026, 1, 1⟩, 0, 0, 0, 0⟩⟩, fun _ => c!"0-f", fun _ l => l⟩
    @CalComp.printed Uni.ascii exampleEvent w =
      .ok c!"BEGIN:VEVENT\r\nDTSTAMP:20260101T000000Z\r\nSUMMARY:a\\, b\r\nUID:1\r\nCOMMENT:x\r\nEND:VEVENT\r\n\r\n" ∧
    (@CalComp.fromStr Uni.ascii c!"BEGIN:VEVENT\r\nDTSTAMP:20260101T000000Z\r\nSUMMARY:a\\, b\r\nUID:1\r\nCOMMENT:x\r\nEND:VEVENT\r\nX").map
      (fun x => @CalComp.fmtWrite Uni.ascii x w) =
      some (.ok c!"BEGIN:VEVENT\r\nDTSTAMP:20260101T000000Z\r\nSUMMARY:a\\, b\r\nUID:1\r\nCOMMENT:x\r\nEND:VEVENT\r\n") := by
  decide +kernel

end Ical
