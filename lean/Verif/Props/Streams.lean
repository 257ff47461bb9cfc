import Verif.Props.Print

/-!
Streams of several calendars.
-/

namespace Ical

open Nom Spec

variable [Uni]

/-! ### C93 -/

/-- what is written for a calendar starts with its BEGIN line -/
theorem calendar_starts {c : Calendar} {w : World} {out : Str} (h : c.fmtWrite w = .ok out) :
    ∃ t, out = 'B' :: t := by
  unfold Calendar.fmtWrite at h
  cases hps : fmtProps c.props (w.sub 0) with
  | error e => simp only [hps] at h; cases h
  | ok ps =>
    cases hcs : fmtComps c.comps (w.sub 1) with
    | error e => simp only [hps, hcs] at h; cases h
    | ok cs =>
      simp only [hps, hcs] at h
      cases h
      exact ⟨_, rfl⟩

/-- reading the text of a calendar in front of other text -/
theorem calendar_then {c : Calendar} (hc : CalendarWritable c) {w : World} (hw : World.Ok w) {out : Str}
    (h : c.fmtWrite w = .ok out) {rest : Str} (hne : unfold rest ≠ [])
    (hr : ∀ x, rest.head? = some x → x ∉ [' ', '\t', '\r', '\n']) :
    readComponents (unfold (out ++ rest)) = some [] := by
  obtain ⟨h1, h2⟩ := starts_plainly hr
  have hu := unfold_calendar_then hc hw h h1
  rw [← unfold_eq_spec, ← unfold_eq_spec] at hu
  rw [hu]
  have hok := calendar_item_ok hc hw
  unfold Calendar.item at hok ⊢
  exact two_roots_violated hok hne h2 (by intro h; cases h)

omit [Uni] in
/-- blank lines stay as they are when unfolded -/
theorem unfold_blank {bl : Str} (hb : Blank bl) : NoIndent bl ∧ unfoldSpec bl = bl := by
  obtain ⟨bs, rfl⟩ := hb
  induction bs with
  | nil => exact ⟨noIndent_nil, rfl⟩
  | cons b bs ih =>
    have := unfoldSpec_break [] b _ ih.1
    rw [ih.2] at this
    refine ⟨?_, by simpa [show unfoldSpec [] = [] from rfl] using this⟩
    cases b <;> exact noIndent_cons (by decide) (by decide)

/-- **C93 (partial).** A stream of one calendar is read as this calendar, also with blank lines after it (missing
DTSTAMP and UID are generated when writing). -/
theorem stream_partial (c : Calendar) (hc : CalendarOk c) (hs : CalendarSafe c)
    (hst : ∀ x ∈ c.comps, HasStamps x.toOther) (w : World) (hw : World.Ok w) (out : Str)
    (h : c.fmtWrite w = .ok out) (bl : Str) (hb : Blank bl) : Calendar.fromStr (out ++ bl) = some c := by
  rw [← calendar_roundtrip c hc hs hst w hw out h]
  have hcw := calendarOk_writable hc
  have hok := calendar_item_ok hcw hw
  have u2 := unfold_calendar hcw hw h
  have u1 := unfold_calendar_then hcw hw h (unfold_blank hb).1
  rw [← unfold_eq_spec, (unfold_blank hb).2] at u1
  unfold Calendar.fromStr readCalendar
  unfold Calendar.item at u1 u2 hok
  have e1 := component_then_blank hok hb
  have e2 := component_then_blank hok blank_nil
  rw [List.append_nil] at e2
  rw [u1, u2, components_ok e1, components_ok e2]

/-- **C93 (violated).** The texts of two calendars one after the other, and whatever follows, are read as a calendar
that has neither properties nor components; no error is reported. -/
theorem stream_violated (c d : Calendar) (hc : CalendarWritable c) (w v : World) (hw : World.Ok w) (out out' more : Str)
    (h : c.fmtWrite w = .ok out) (h' : d.fmtWrite v = .ok out') :
    Calendar.fromStr (out ++ (out' ++ more)) = some ⟨[], []⟩ := by
  obtain ⟨t, rfl⟩ := calendar_starts h'
  have := calendar_then hc hw h (rest := 'B' :: t ++ more) (by
      rw [unfold_eq_spec, List.cons_append, unfoldSpec_cons]
      · simp
      · rintro m ⟨u, hu⟩
        cases m <;> simp [Marker.text] at hu) (by
      intro x hx
      simp only [List.cons_append, List.head?_cons, Option.some.injEq] at hx
      subst hx
      decide)
  unfold readComponents at this
  unfold Calendar.fromStr readCalendar
  rw [this]
  rfl

omit [Uni] in
/-- two calendars with an event each -/
example : let cal : Str → Calendar := fun u => Calendar.new.push (.event (Component.uid (Component.timestamp Event.new
      ⟨⟨⟨2026, 1, 2⟩, 3, 4, 5, 0⟩⟩) u))
    let w : World := ⟨fun _ => ⟨⟨⟨2026, 1, 1⟩, 0, 0, 0, 0⟩⟩, fun _ => c!"0-f", fun _ l => l⟩
    ∃ a b, @Calendar.fmtWrite Uni.ascii (cal c!"1") w = .ok a ∧ @Calendar.fmtWrite Uni.ascii (cal c!"2") w = .ok b ∧
      (@Calendar.fromStr Uni.ascii a).map (fun c => c.comps.length) = some 1 ∧
      (@Calendar.fromStr Uni.ascii (a ++ c!"\r\n\n\r\n")).map (fun c => (c.props.length, c.comps.length)) = some (3, 1) ∧
      (@Calendar.fromStr Uni.ascii (a ++ b)).map (fun c => (c.props.length, c.comps.length)) = some (0, 0) := by
  refine ⟨_, _, rfl, rfl, ?_⟩
  decide +kernel

end Ical
