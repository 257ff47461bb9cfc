import Verif.Spec.FileGetters
import Verif.Props.Presentation
import Verif.Props.DateText
import Verif.Props.Numerals
import Verif.Props.Values

/-!
C133: the getters of a calendar and of components read from a file return what the lines of the file say.
-/

namespace Ical

open Nom Spec

/-! ### values without backslashes -/

theorem readText_plain {s : Str} (h : '\\' ∉ s) : readText s = s ∧ NoDoubleRead s := by
  induction s with
  | nil => exact ⟨rfl, trivial⟩
  | cons c s ih =>
    have hc : c ≠ '\\' := fun e => h (e ▸ .head _)
    obtain ⟨h1, h2⟩ := ih (fun e => h (.tail _ e))
    constructor
    · rw [readText.eq_def]
      split
      · rename_i e; cases e
      · rename_i e; cases e; exact absurd rfl hc
      · rename_i e; cases e; rw [h1]
    · rw [NoDoubleRead.eq_def]
      split
      · trivial
      · rename_i e; cases e; exact absurd rfl hc
      · rename_i e; cases e; exact absurd rfl hc
      · rename_i e; cases e; exact h2

theorem line_plain {k : Str} {ps : List DParam} {raw : Str} {p : Property} (h : LineMeans k ps raw p)
    (hr : '\\' ∉ raw) : p.val = raw := by
  by_cases ht : IsTextFor k ((ps.find? (fun d => d.key == c!"VALUE")).map DParam.value)
  · rw [h.text ht (readText_plain hr).2, (readText_plain hr).1]
  · exact h.verbatim ht

theorem noValue_find {ps : List DParam} (h : NoValue ps) : ps.find? (fun d => d.key == c!"VALUE") = none := by
  rw [List.find?_eq_none]
  intro d hd
  simpa using h d hd

theorem line_text {k : Str} {ps : List DParam} {raw : Str} {p : Property} (h : LineMeans k ps raw p)
    (hk : k ∈ textNames) (hv : NoValue ps) (hr : NoDoubleRead raw) : p.val = readText raw := by
  refine h.text ?_ hr
  rw [noValue_find hv]
  exact hk

theorem line_verbatim {k : Str} {ps : List DParam} {raw : Str} {p : Property} (h : LineMeans k ps raw p)
    (hk : k ∉ textNames) (hv : NoValue ps) : p.val = raw := by
  refine h.verbatim ?_
  rw [noValue_find hv]
  exact hk

theorem number_plain {k : Nat} {s : Str} {n : Nat} (h : Number k s n) : '\\' ∉ s := by
  intro hm
  exact absurd (h.2.1 _ hm) (by decide)

theorem dateText_plain {s : Str} {y m d : Nat} (h : DateText s y m d) : '\\' ∉ s := by
  obtain ⟨a, b, c, rfl, h1, h2, h3⟩ := h
  simp only [List.mem_append, not_or]
  exact ⟨⟨number_plain h1, number_plain h2⟩, number_plain h3⟩

theorem timeText_plain {s : Str} {y m d : Nat} (h : TimeText s y m d) : '\\' ∉ s := by
  obtain ⟨a, b, c, rfl, h1, h2, h3⟩ := h
  simp only [List.mem_append, not_or]
  exact ⟨⟨number_plain h1, number_plain h2⟩, number_plain h3⟩

theorem dateTime_plain {s t : Str} {y m d h mi sec : Nat} (hs : DateText s y m d) (ht : TimeText t h mi sec) :
    '\\' ∉ s ++ 'T' :: t ∧ '\\' ∉ s ++ 'T' :: t ++ ['Z'] := by
  have h1 := dateText_plain hs
  have h2 := timeText_plain ht
  simp [h1, h2]

/-! ### the entries of a component -/

theorem says_of_entry {α : Type} {k : Str} {items : List Item} {e : Option Property} (he : EntryMeans k items e)
    {r : Option α} {says : List DParam → Str → Prop} (h0 : e = none → r = none)
    (h1 : ∀ p ps raw, e = some p → LineMeans k ps raw p → says ps raw) : LastSays k items r says := by
  cases e with
  | none =>
    refine ⟨fun _ => h0 rfl, fun before ps raw hl => ?_⟩
    rw [show linesNamed k items = [] from he] at hl
    simp at hl
  | some p =>
    obtain ⟨b, ps', raw', hl', hm⟩ := he
    refine ⟨fun hn => ?_, fun before ps raw hl => ?_⟩
    · rw [hn] at hl'
      simp at hl'
    · rw [hl'] at hl
      have := (List.append_inj' hl rfl).2
      cases this
      exact h1 p _ _ rfl hm

theorem textSays {k : Str} {items : List Item} {e : Option Property} (he : EntryMeans k items e) (hk : k ∈ textNames) :
    TextSays k items (e.map Property.val) :=
  says_of_entry he (by rintro rfl; rfl) (by rintro p ps raw rfl hm hv hr; rw [Option.map_some, line_text hm hk hv hr])

theorem verbatimSays {k : Str} {items : List Item} {e : Option Property} (he : EntryMeans k items e)
    (hk : k ∉ textNames) : VerbatimSays k items (e.map Property.val) :=
  says_of_entry he (by rintro rfl; rfl) (by rintro p ps raw rfl hm hv; rw [Option.map_some, line_verbatim hm hk hv])

theorem numberSays {k : Str} {items : List Item} {e : Option Property} (he : EntryMeans k items e) (most : Nat) :
    NumberSays k most items ((e.map Property.val).bind (parseUnsigned most)) :=
  says_of_entry he (by rintro rfl; rfl) (by
    rintro p ps raw rfl hm hr n
    rw [Option.map_some, Option.bind_some, line_plain hm hr]
    exact parseUnsigned_iff _ _ _)

theorem enumSays {α : Type} {k : Str} {items : List Item} {e : Option Property} (he : EntryMeans k items e)
    {name : α → Str} {f : Str → Option α} (hf : ∀ s v, f s = some v ↔ s = name v) :
    EnumSays k name items ((e.map Property.val).bind f) :=
  says_of_entry he (by rintro rfl; rfl) (by
    rintro p ps raw rfl hm hr n
    rw [Option.map_some, Option.bind_some, line_plain hm hr]
    exact hf _ _)

theorem utcSays {k : Str} {items : List Item} {e : Option Property} (he : EntryMeans k items e) :
    UtcSays k items ((e.map Property.val).bind parseUtc) :=
  says_of_entry he (by rintro rfl; rfl) (by
    rintro p ps raw rfl hm s t y m d h mi sec hr hs ht
    have hp := line_plain hm (hr ▸ (dateTime_plain hs ht).2)
    rw [Option.map_some, Option.bind_some, hp, hr, (utc_parses hs ht).2.2]
    exact ⟨fun hc => if_pos hc, fun hc => if_neg hc⟩)

variable [Uni]

theorem dateSays {k : Str} {items : List Item} {e : Option Property} (he : EntryMeans k items e) :
    DateSays k items (e.bind DatePerhapsTime.fromProperty) := by
  refine says_of_entry he (by rintro rfl; rfl) ?_
  rintro p ps raw rfl hm
  rw [Option.bind_some]
  refine ⟨?_, ?_, ?_⟩
  · intro y m d hd hv
    have hp := line_plain hm (dateText_plain hd)
    rw [date_value_read p y m d (hp.symm ▸ hd), hm.params]
    exact ⟨fun hc => if_pos ⟨hv, hc⟩, fun hc => if_neg (fun x => hc x.2)⟩
  · intro s t y m d h mi sec hr hs ht hv
    have hp := line_plain hm (hr ▸ (dateTime_plain hs ht).1)
    rw [date_time_value_read p s t y m d h mi sec (hp.trans hr) hs ht, hm.params, hm.params]
    refine ⟨fun hc => (if_pos ⟨hv, hc⟩).trans ?_, fun hc => if_neg (fun x => hc x.2)⟩
    unfold paramOf
    cases (ps.reverse.find? (fun d => d.key == c!"TZID")).map DParam.value <;> rfl
  · intro s t y m d h mi sec hr hs ht hv hz
    have hp := line_plain hm (hr ▸ (dateTime_plain hs ht).2)
    rw [utc_value_read p s t y m d h mi sec (hp.trans hr) hs ht, hm.params, hm.params]
    exact ⟨fun hc => if_pos ⟨hv, hz, hc⟩, fun hc => if_neg (fun x => hc x.2.2)⟩

theorem gettersSay {C : Type} [Component C] {c : C} {items : List Item}
    (h : ∀ k, k ∉ repeatable → EntryMeans k items ((Component.properties c).get k)) : GettersSay items c where
  summary := textSays (h _ (by decide)) (by decide)
  description := textSays (h _ (by decide)) (by decide)
  location := textSays (h _ (by decide)) (by decide)
  uid := textSays (h _ (by decide)) (by decide)
  url := verbatimSays (h _ (by decide)) (by decide)
  priority := by
    obtain ⟨h0, h1⟩ := numberSays (h c!"PRIORITY" (by decide)) u32Max
    refine ⟨fun hn => ?_, fun before ps raw hl hr n => ?_⟩
    · unfold Component.getPriority Component.propertyValue
      rw [h0 hn]
    · have h2 := fun n => h1 before ps raw hl hr n
      unfold Component.getPriority Component.propertyValue
      generalize (((Component.properties c).get c!"PRIORITY").map Property.val).bind (parseUnsigned u32Max) = r at h2 ⊢
      cases r with
      | none =>
        refine ⟨nofun, fun x => ?_⟩
        exact absurd ((h2 n).2 ⟨x.1, by unfold u32Max; omega⟩) (by simp)
      | some m =>
        have hm := (h2 m).1 rfl
        simp only
        constructor
        · split
          · intro x; cases x; exact ⟨hm.1, by assumption⟩
          · intro x; cases x
        · intro x
          have := (h2 n).2 ⟨x.1, by unfold u32Max; omega⟩
          cases this
          exact if_pos x.2
  sequence := numberSays (h _ (by decide)) u32Max
  class_ := enumSays (h _ (by decide)) fun s => (enum_texts s).1
  start := dateSays (h _ (by decide))
  end_ := dateSays (h _ (by decide))
  timestamp := utcSays (h _ (by decide))
  created := utcSays (h _ (by decide))

omit [Uni] in
theorem contains_entries {C : Type} [Component C] {c : C} {b e n : Str} {items : List Item}
    (h : Contains (.comp b e n items) (Component.toOther c)) (k : Str) (hk : k ∉ repeatable) :
    EntryMeans k items ((Component.properties c).get k) := by
  unfold Component.toOther Other.ofInner Contains at h
  rw [← lookup_eq_get]
  exact (h.2.1 k hk).1

theorem componentSays {x : CalComp} {b e n : Str} {items : List Item} (h : Contains (.comp b e n items) x.toOther) :
    ComponentSays items x := by
  cases x with
  | event c =>
    have h' := contains_entries (c := c) h
    exact ⟨gettersSay h', enumSays (h' _ (by decide)) fun s => (enum_texts s).2.1⟩
  | todo c =>
    have h' := contains_entries (c := c) h
    exact ⟨gettersSay h', enumSays (h' _ (by decide)) fun s => (enum_texts s).2.2.1, numberSays (h' _ (by decide)) u8Max,
      dateSays (h' _ (by decide)), utcSays (h' _ (by decide))⟩
  | venue c =>
    have h' := contains_entries (c := c) h
    exact ⟨gettersSay h', verbatimSays (h' _ (by decide)) (by decide), verbatimSays (h' _ (by decide)) (by decide),
      verbatimSays (h' _ (by decide)) (by decide), verbatimSays (h' _ (by decide)) (by decide),
      verbatimSays (h' _ (by decide)) (by decide), verbatimSays (h' _ (by decide)) (by decide)⟩
  | other c => exact gettersSay (contains_entries (c := c) h)

theorem componentsSay : (items : List Item) → (l : List CalComp) → CompsContain items l → ComponentsSay (compsOf items) l
  | [], [], _ => trivial
  | [], _ :: _, h => by simp [CompsContain] at h
  | .prop _ _ _ :: items, l, h => by
    unfold CompsContain at h
    exact componentsSay items l h
  | .comp _ _ _ _ :: _, [], h => by simp [CompsContain] at h
  | .comp b e n is :: items, x :: l, h => by
    unfold CompsContain at h
    exact ⟨h.1, componentSays h.2.1, componentsSay items l h.2.2⟩

/-! ### the calendar -/

omit [Uni] in
theorem first_line (k : Str) : (items : List Item) → (props : List Property) → LinesMean (ownLines items) props →
    match linesNamed k items with
    | [] => props.find? (fun p => p.key == k) = none
    | (ps, raw) :: _ => ∃ p, props.find? (fun p => p.key == k) = some p ∧ LineMeans k ps raw p
  | [], [], _ => rfl
  | [], _ :: _, h => by simp [ownLines, LinesMean] at h
  | .comp _ _ _ _ :: items, props, h => by
    unfold linesNamed
    exact first_line k items props h
  | .prop _ _ _ :: _, [], h => by simp [ownLines, LinesMean] at h
  | .prop key ps raw :: items, p :: props, h => by
    unfold ownLines LinesMean at h
    have ih := first_line k items props h.2
    unfold linesNamed
    by_cases hk : key = k
    · subst hk
      rw [if_pos rfl]
      exact ⟨p, List.find?_cons_of_pos (by rw [h.1.key]; exact beq_self_eq_true _), h.1⟩
    · rw [if_neg hk, List.find?_cons_of_neg (by rw [h.1.key]; simpa using hk)]
      exact ih

omit [Uni] in
theorem firstSays {c : Calendar} {items : List Item} (h : LinesMean (ownLines items) c.props) (k k' : Str)
    {says says' : List DParam → Str → Prop} {r : Option Str}
    (hr : r = (c.propertyValue k).or (c.propertyValue k'))
    (hs : ∀ ps raw p, LineMeans k ps raw p → r = some p.val → says ps raw)
    (hs' : ∀ ps raw p, LineMeans k' ps raw p → r = some p.val → says' ps raw) :
    FirstSays k k' items r says says' := by
  have h1 := first_line k items c.props h
  have h2 := first_line k' items c.props h
  unfold Calendar.propertyValue at hr
  refine ⟨fun e e' => ?_, fun ps raw after e => ?_, fun ps raw after e e' => ?_⟩
  · rw [e] at h1; rw [e'] at h2
    simp only at h1 h2
    rw [hr, h1, h2]; rfl
  · rw [e] at h1
    obtain ⟨p, hp, hm⟩ := h1
    rw [hp] at hr
    exact hs ps raw p hm hr
  · rw [e] at h1; rw [e'] at h2
    simp only at h1
    obtain ⟨p, hp, hm⟩ := h2
    rw [h1, hp] at hr
    exact hs' ps raw p hm hr

omit [Uni] in
theorem calendarSays {c : Calendar} {items : List Item} (h : LinesMean (ownLines items) c.props) :
    CalendarSays items c where
  name := firstSays h _ _ rfl (fun _ _ _ hm hr hv => by rw [hr, line_verbatim hm (by decide) hv])
    (fun _ _ _ hm hr hv => by rw [hr, line_verbatim hm (by decide) hv])
  description := firstSays h _ _ rfl (fun _ _ _ hm hr hv hd => by rw [hr, line_text hm (by decide) hv hd])
    (fun _ _ _ hm hr hv => by rw [hr, line_verbatim hm (by decide) hv])
  timezone := firstSays h _ _ rfl (fun _ _ _ hm hr hv => by rw [hr, line_verbatim hm (by decide) hv])
    (fun _ _ _ hm hr hv => by rw [hr, line_verbatim hm (by decide) hv])

/-- **C133.** The getters of a calendar read from a file, and of its components, return what the lines of the file
say, however the file is laid out. -/
theorem file_getters {br : Break} {b e : Str} {items : List Item}
    (h : (Item.comp b e c!"VCALENDAR" items).Ok br) {file : Str}
    (hf : Presents br (.comp b e c!"VCALENDAR" items) file) :
    ∃ c, Calendar.fromStr file = some c ∧ CalendarSays items c ∧ ComponentsSay (compsOf items) c.comps := by
  obtain ⟨c, hc, h1, h2⟩ := presentation_content h hf
  exact ⟨c, hc, calendarSays h1, componentsSay items _ h2⟩

end Ical
