import Verif.Props.Builders
import Verif.Props.DateText
import Verif.Spec.Rfc

/-!
C95: what the typed setters write is what RFC 5545 allows.
-/

namespace Ical

open Spec

/-! ### Numbers and dates -/

theorem number_natToStr (n : Nat) : Number (natToStr n).length (natToStr n) n := by
  refine ⟨rfl, isDigit_natToStr n, ?_⟩
  induction n using Nat.strongRecOn with
  | ind n ih =>
    by_cases h : n < 10
    · rw [natToStr_small h]
      simp only [List.foldl_cons, List.foldl_nil, digitChar_val h]
      omega
    · rw [natToStr_big (by omega), List.foldl_append, ih (n / 10) (by omega)]
      simp only [List.foldl_cons, List.foldl_nil, digitChar_val (show n % 10 < 10 by omega)]
      omega

theorem digits_natToStr (n : Nat) : Digits (natToStr n) n := ⟨natToStr_ne_nil n, number_natToStr n⟩

theorem rfcInteger_natToStr {lo hi n : Nat} (h1 : lo ≤ n) (h2 : n ≤ hi) : RfcInteger lo hi (natToStr n) :=
  ⟨n, digits_natToStr n, h1, h2⟩

theorem number2_fmt {n : Nat} (h : n < 100) : Number 2 (fmt2 n) n := by
  rw [fmt2_eq h]
  refine ⟨rfl, ?_, ?_⟩
  · intro c hc
    rcases List.mem_cons.1 hc with rfl | hc
    · exact isDigit_digitChar (by omega)
    · rw [List.mem_singleton.1 hc]
      exact isDigit_digitChar (by omega)
  · simp only [List.foldl_cons, List.foldl_nil, digitChar_val (show n / 10 < 10 by omega),
      digitChar_val (show n % 10 < 10 by omega)]
    omega

theorem number4_fmt {n : Nat} (h : n < 10000) : Number 4 (fmt4 n) n := by
  rw [fmt4_eq h]
  refine ⟨rfl, ?_, ?_⟩
  · intro c hc
    simp only [List.mem_cons, List.not_mem_nil, or_false] at hc
    rcases hc with rfl | rfl | rfl | rfl <;> exact isDigit_digitChar (by omega)
  · simp only [List.foldl_cons, List.foldl_nil, digitChar_val (show n / 1000 < 10 by omega),
      digitChar_val (show n / 100 % 10 < 10 by omega), digitChar_val (show n / 10 % 10 < 10 by omega),
      digitChar_val (show n % 10 < 10 by omega)]
    omega

theorem rfcDate_fmt {d : NaiveDate} (h : d.Valid) (h0 : 0 ≤ d.year) (h1 : d.year ≤ 9999) : RfcDate (fmtDate d) := by
  obtain ⟨y, m, dd⟩ := d
  have hv := (valid_iff y m dd).1 h
  simp only at h0 h1
  refine ⟨y.toNat, m, dd, ⟨fmt4 y.toNat, fmt2 m, fmt2 dd, ?_, number4_fmt (by omega), number2_fmt ?_, number2_fmt ?_⟩, ?_⟩
  · show fmtYear y ++ _ ++ _ = _
    unfold fmtYear
    rw [if_pos ⟨h0, h1⟩]
  · have := hv.2.2.2.1; omega
  · have := hv.2.2.2.2.2; omega
  · rw [Int.toNat_of_nonneg h0]
    exact hv.2.2

theorem rfcLocal_fmt {t : NaiveDateTime} (h : Writable t) : RfcLocal (fmtDateTime t) := by
  obtain ⟨⟨hd, hh, hm, hs, hn⟩, h0, h1⟩ := h
  refine ⟨fmtDate t.date, fmt2 t.hour ++ fmt2 t.min ++ fmtSec t, t.hour, t.min, t.sec + t.nano / 1000000000, rfl,
    rfcDate_fmt hd h0 h1, ⟨_, _, _, rfl, number2_fmt (by omega), number2_fmt (by omega), number2_fmt ?_⟩, by omega,
    by omega, ?_⟩
  · omega
  · omega

theorem rfcUtc_fmt {t : UtcDateTime} (h : Writable t.naive) : RfcUtc (fmtUtc t) := ⟨_, rfl, rfcLocal_fmt h⟩

theorem rfcDateOrTime_of {key : Str} {d : DatePerhapsTime} (h : WritableDate d) :
    RfcDateOrTime (Call.dateProperty key d) := by
  cases d with
  | date d => exact .inl ⟨rfl, rfl, rfcDate_fmt h.1 h.2.1 h.2.2⟩
  | dateTime t =>
    cases t with
    | floating t => exact .inr (.inl ⟨.head _, rfcLocal_fmt h⟩)
    | utc t => exact .inr (.inr ⟨.head _, rfl, rfcUtc_fmt h⟩)
    | zoned t z => exact .inr (.inl ⟨.head _, rfcLocal_fmt h⟩)

theorem dateProperty_key (key : Str) (d : DatePerhapsTime) : (Call.dateProperty key d).key = key := by
  cases d with
  | date d => rfl
  | dateTime t => cases t <;> rfl

theorem rfcDuration_toStr {d : Duration} (h : (1000000000 : Int) ∣ d.nanos) : RfcDuration d.toStr := by
  have hsign : ∀ n : Int, (if n < 0 then ['-'] else [] : Str) = [] ∨ (if n < 0 then ['-'] else [] : Str) = ['+'] ∨
      (if n < 0 then ['-'] else [] : Str) = ['-'] := by
    intro n; split <;> simp
  unfold Duration.toStr
  simp only
  split
  · exact ⟨_, c!"0D", rfl, hsign _, .inl ⟨c!"0D", [], rfl, ⟨c!"0", 0, digits_natToStr 0, rfl⟩, .inl rfl⟩⟩
  · have hf : d.nanos.natAbs % 1000000000 = 0 := by omega
    rw [if_pos hf]
    refine ⟨if d.nanos < 0 then ['-'] else [], 'T' :: (natToStr (d.nanos.natAbs / 1000000000) ++ ['S']), by simp, hsign _, .inr (.inl ?_)⟩
    exact ⟨_, rfl, .inr (.inr ⟨_, _, digits_natToStr _, rfl⟩)⟩

/-! ### Properties -/

/-- the implications about other keys -/
local macro "other_keys" hk:ident : tactic =>
  `(tactic| all_goals first | (intro h; rw [$hk:ident] at h; exfalso; revert h; decide) | skip)

theorem rfc_other {kind : Str} {p : Property} (hn : RfcName p.key)
    (hk : p.key ∉ [c!"DTSTAMP", c!"CREATED", c!"LAST-MODIFIED", c!"COMPLETED", c!"DTSTART", c!"DTEND", c!"DUE",
      c!"PRIORITY", c!"PERCENT-COMPLETE", c!"SEQUENCE", c!"REPEAT", c!"CLASS", c!"STATUS", c!"ACTION", c!"DURATION",
      c!"TRIGGER"]) : RfcProperty kind p := by
  simp only [List.mem_cons, List.not_mem_nil, or_false, not_or] at hk
  constructor
  · exact hn
  all_goals
    intro h
    try simp only [List.mem_cons, List.not_mem_nil, or_false] at h
    simp_all

theorem rfc_utc {kind key val : Str} (hk : key ∈ [c!"DTSTAMP", c!"CREATED", c!"LAST-MODIFIED", c!"COMPLETED"])
    (h : RfcUtc val) : RfcProperty kind ⟨key, val, []⟩ := by
  generalize hp : (⟨key, val, []⟩ : Property) = p
  have hv : p.val = val := by rw [← hp]
  have hps : p.params = [] := by rw [← hp]
  have hkey : p.key = key := by rw [← hp]
  have : RfcUtc p.val ∧ p.params.lookup c!"TZID" = none := ⟨by rw [hv]; exact h, by rw [hps]; rfl⟩
  clear hp
  simp only [List.mem_cons, List.not_mem_nil, or_false] at hk
  rcases hk with rfl | rfl | rfl | rfl <;>
  · constructor
    · rw [hkey]; decide
    · exact fun _ => this
    other_keys hkey

theorem rfc_date {kind key : Str} {d : DatePerhapsTime} (hk : key ∈ [c!"DTSTART", c!"DTEND", c!"DUE"])
    (h : WritableDate d) : RfcProperty kind (Call.dateProperty key d) := by
  have hd := rfcDateOrTime_of (key := key) h
  have hkey := dateProperty_key key d
  generalize Call.dateProperty key d = p at *
  simp only [List.mem_cons, List.not_mem_nil, or_false] at hk
  rcases hk with rfl | rfl | rfl <;>
  · constructor
    case name => rw [hkey]; decide
    case date => exact fun _ => hd
    other_keys hkey

theorem rfc_priority {kind val : Str} (h : RfcInteger 0 9 val) : RfcProperty kind ⟨c!"PRIORITY", val, []⟩ := by
  generalize hp : (⟨c!"PRIORITY", val, []⟩ : Property) = p
  have hkey : p.key = c!"PRIORITY" := by rw [← hp]
  have hv : RfcInteger 0 9 p.val := by rw [← hp]; exact h
  clear hp
  constructor
  case name => rw [hkey]; decide
  case priority => exact fun _ => hv
  other_keys hkey

theorem rfc_percent {kind val : Str} (h : RfcInteger 0 100 val) :
    RfcProperty kind ⟨c!"PERCENT-COMPLETE", val, []⟩ := by
  generalize hp : (⟨c!"PERCENT-COMPLETE", val, []⟩ : Property) = p
  have hkey : p.key = c!"PERCENT-COMPLETE" := by rw [← hp]
  have hv : RfcInteger 0 100 p.val := by rw [← hp]; exact h
  clear hp
  constructor
  case name => rw [hkey]; decide
  case percent => exact fun _ => hv
  other_keys hkey

theorem rfc_sequence {kind val : Str} (h : RfcInteger 0 2147483647 val) :
    RfcProperty kind ⟨c!"SEQUENCE", val, []⟩ := by
  generalize hp : (⟨c!"SEQUENCE", val, []⟩ : Property) = p
  have hkey : p.key = c!"SEQUENCE" := by rw [← hp]
  have hv : RfcInteger 0 2147483647 p.val := by rw [← hp]; exact h
  clear hp
  constructor
  case name => rw [hkey]; decide
  case sequence => exact fun _ => hv
  other_keys hkey

theorem rfc_repeat {kind val : Str} (h : RfcInteger 0 2147483647 val) :
    RfcProperty kind ⟨c!"REPEAT", val, []⟩ := by
  generalize hp : (⟨c!"REPEAT", val, []⟩ : Property) = p
  have hkey : p.key = c!"REPEAT" := by rw [← hp]
  have hv : RfcInteger 0 2147483647 p.val := by rw [← hp]; exact h
  clear hp
  constructor
  case name => rw [hkey]; decide
  case repeats => exact fun _ => hv
  other_keys hkey

theorem rfc_class {kind val : Str} (h : RfcName val) : RfcProperty kind ⟨c!"CLASS", val, []⟩ := by
  generalize hp : (⟨c!"CLASS", val, []⟩ : Property) = p
  have hkey : p.key = c!"CLASS" := by rw [← hp]
  have hv : RfcName p.val := by rw [← hp]; exact h
  clear hp
  constructor
  case name => rw [hkey]; decide
  case class_ => exact fun _ => hv
  other_keys hkey

theorem rfc_status {kind val : Str} (h : val ∈ rfcStatus kind) : RfcProperty kind ⟨c!"STATUS", val, []⟩ := by
  generalize hp : (⟨c!"STATUS", val, []⟩ : Property) = p
  have hkey : p.key = c!"STATUS" := by rw [← hp]
  have hv : p.val ∈ rfcStatus kind := by rw [← hp]; exact h
  clear hp
  constructor
  case name => rw [hkey]; decide
  case status => exact fun _ => hv
  other_keys hkey

theorem rfc_action {kind val : Str} (h : RfcName val) : RfcProperty kind ⟨c!"ACTION", val, []⟩ := by
  generalize hp : (⟨c!"ACTION", val, []⟩ : Property) = p
  have hkey : p.key = c!"ACTION" := by rw [← hp]
  have hv : RfcName p.val := by rw [← hp]; exact h
  clear hp
  constructor
  case name => rw [hkey]; decide
  case action => exact fun _ => hv
  other_keys hkey

theorem rfc_duration {kind val : Str} (h : RfcDuration val) : RfcProperty kind ⟨c!"DURATION", val, []⟩ := by
  generalize hp : (⟨c!"DURATION", val, []⟩ : Property) = p
  have hkey : p.key = c!"DURATION" := by rw [← hp]
  have hv : RfcDuration p.val := by rw [← hp]; exact h
  clear hp
  constructor
  case name => rw [hkey]; decide
  case duration => exact fun _ => hv
  other_keys hkey

theorem rfc_trigger {kind : Str} {t : Trigger} (h : SensibleTrigger t) : RfcProperty kind t.toProperty := by
  have key : t.toProperty.key = c!"TRIGGER" ∧ RfcTrigger t.toProperty := by
    cases t with
    | duration d r =>
      have hd := rfcDuration_toStr (d := d) h
      cases r with
      | none => exact ⟨rfl, .inl ⟨.head _, .head _, hd⟩⟩
      | some r => cases r with
        | start => exact ⟨rfl, .inl ⟨.head _, .tail _ (.head _), hd⟩⟩
        | end_ => exact ⟨rfl, .inl ⟨.head _, .tail _ (.tail _ (.head _)), hd⟩⟩
    | dateTime t =>
      cases t with
      | utc t => exact ⟨rfl, .inr ⟨rfl, rfl, rfl, rfcUtc_fmt h⟩⟩
      | floating t => exact h.elim
      | zoned t z => exact h.elim
  obtain ⟨hkey, ht⟩ := key
  generalize t.toProperty = p at *
  constructor
  case name => rw [hkey]; decide
  case trigger => exact fun _ => ht
  other_keys hkey

/-- what a sensible call sets is allowed -/
theorem rfc_sets {kind : Str} {x : Call} (h : SensibleCall kind x) : ∀ p ∈ x.sets, RfcProperty kind p := by
  have one : ∀ {p q : Property}, RfcProperty kind p → q ∈ [p] → RfcProperty kind q := by
    intro p q hp hq
    rw [List.mem_singleton.1 hq]; exact hp
  intro p hp
  cases x with
  | appendProperty q => exact one h hp
  | addProperty k v => exact one h hp
  | appendMultiProperty q => cases hp
  | addMultiProperty k v => cases hp
  | appendComponent o => cases hp
  | timestamp t => exact one (rfc_utc (by decide) (rfcUtc_fmt h)) hp
  | priority n =>
    refine one (rfc_priority ?_) hp
    have h : n ≤ 9 := h
    rw [if_pos (by omega)]
    exact rfcInteger_natToStr (by omega) h
  | summary s => exact one (rfc_other (show RfcName c!"SUMMARY" by decide) (show c!"SUMMARY" ∉ _ by decide)) hp
  | description s =>
    exact one (rfc_other (show RfcName c!"DESCRIPTION" by decide) (show c!"DESCRIPTION" ∉ _ by decide)) hp
  | uid s => exact one (rfc_other (show RfcName c!"UID" by decide) (show c!"UID" ∉ _ by decide)) hp
  | sequence n => exact one (rfc_sequence (rfcInteger_natToStr (by omega) h)) hp
  | class_ k => exact one (rfc_class (by cases k <;> decide)) hp
  | url s => exact one (rfc_other (show RfcName c!"URL" by decide) (show c!"URL" ∉ _ by decide)) hp
  | lastModified t => exact h.elim
  | created t => exact one (rfc_utc (by decide) (rfcUtc_fmt h)) hp
  | starts d => exact one (rfc_date (by decide) h) hp
  | ends d => exact one (rfc_date (by decide) h) hp
  | allDay d =>
    simp only [Call.sets, List.mem_cons, List.not_mem_nil, or_false] at hp
    rcases hp with rfl | rfl
    · exact rfc_date (d := .date d) (by decide) h
    · exact rfc_date (d := .date d) (by decide) h
  | venue l u => exact one (rfc_other (show RfcName c!"LOCATION" by decide) (show c!"LOCATION" ∉ _ by decide)) hp
  | location s => exact one (rfc_other (show RfcName c!"LOCATION" by decide) (show c!"LOCATION" ∉ _ by decide)) hp
  | alarm a => cases hp

theorem mem_sets {l : List Property} {m : BMap Property} {x : Str × Property}
    (h : x ∈ l.foldl (fun m p => m.insert p.key p) m) : x.2 ∈ l ∨ x ∈ m := by
  induction l generalizing m with
  | nil => exact .inr h
  | cons p l ih =>
    rcases ih h with h | h
    · exact .inl (List.mem_cons_of_mem _ h)
    · rcases BMap.mem_insert h with rfl | h
      · exact .inl List.mem_cons_self
      · exact .inr h

/-! ### C95 -/

/-- **C95.** After any history of builder calls with arguments in the ranges of RFC 5545, every property has a name and
a value as RFC 5545 demands it, if those that were there before have. -/
theorem setters_conform_partial {C : Type} [Component C] (kind : Str) (c : C) (calls : List Call)
    (h0 : ∀ x ∈ Component.properties c, RfcProperty kind x.2) (h : ∀ x ∈ calls, SensibleCall kind x) :
    ∀ x ∈ Component.properties (calls.foldl Call.run c), RfcProperty kind x.2 := by
  intro x hx
  unfold Component.properties at hx h0
  rw [props_runs] at hx
  rcases mem_sets hx with hx | hx
  · obtain ⟨y, hy, hp⟩ := List.mem_flatMap.1 hx
    exact rfc_sets (h y hy) _ hp
  · exact h0 x hx

/-- **C95.** Events built by any history of such calls, from a new one on. -/
theorem event_conforms_partial (calls : List EventCall) (h : ∀ x ∈ calls, SensibleEventCall x) :
    ∀ x ∈ (calls.foldl EventCall.run Event.new).inner.props, RfcProperty c!"VEVENT" x.2 := by
  have e : ∀ (l : List EventCall) (e : Event), l.foldl EventCall.run e = (l.map EventCall.generic).foldl Call.run e := by
    intro l
    induction l with
    | nil => intro e; rfl
    | cons x l ih =>
      intro e
      rw [List.foldl_cons, ih, List.map_cons, List.foldl_cons,
        (specific_calls e x ⟨.empty⟩ (.common (.url [])) ⟨.empty⟩ (.common (.url []))).1]
  rw [e]
  refine setters_conform_partial c!"VEVENT" Event.new _ (by intro x hx; cases hx) ?_
  intro y hy
  obtain ⟨x, hx, rfl⟩ := List.mem_map.1 hy
  cases x with
  | common c => exact h _ hx
  | status s => cases s <;> exact rfc_status (by decide)

/-- **C95.** To-dos built by any history of such calls, from a new one on. -/
theorem todo_conforms_partial (calls : List TodoCall) (h : ∀ x ∈ calls, SensibleTodoCall x) :
    ∀ x ∈ (calls.foldl TodoCall.run Todo.new).inner.props, RfcProperty c!"VTODO" x.2 := by
  have e : ∀ (l : List TodoCall) (t : Todo), l.foldl TodoCall.run t = (l.map TodoCall.generic).foldl Call.run t := by
    intro l
    induction l with
    | nil => intro e; rfl
    | cons x l ih =>
      intro e
      rw [List.foldl_cons, ih, List.map_cons, List.foldl_cons,
        (specific_calls ⟨.empty⟩ (.common (.url [])) e x ⟨.empty⟩ (.common (.url []))).2.1]
  rw [e]
  refine setters_conform_partial c!"VTODO" Todo.new _ (by intro x hx; cases hx) ?_
  intro y hy
  obtain ⟨x, hx, rfl⟩ := List.mem_map.1 hy
  cases x with
  | common c => exact h _ hx
  | percentComplete n => exact rfc_percent (rfcInteger_natToStr (by omega) (h _ hx))
  | due d => exact rfc_date (by decide) (h _ hx)
  | completed t => exact rfc_utc (by decide) (rfcUtc_fmt (h _ hx))
  | status s => cases s <;> exact rfc_status (by decide)

/-- **C95.** Alarms with such triggers, durations of whole seconds and repeat counts in range. -/
theorem alarm_conforms_partial (desc : Str) (t : Trigger) (ht : SensibleTrigger t) (l : List (Duration × Nat))
    (hl : ∀ x ∈ l, (1000000000 : Int) ∣ x.1.nanos ∧ x.2 ≤ 2147483647) :
    (∀ x ∈ (l.foldl (fun a x => a.durationAndRepeat x.1 x.2) (Alarm.audio t)).inner.props, RfcProperty c!"VALARM" x.2) ∧
    ∀ x ∈ (l.foldl (fun a x => a.durationAndRepeat x.1 x.2) (Alarm.display desc t)).inner.props,
      RfcProperty c!"VALARM" x.2 := by
  have ht := rfc_trigger (kind := c!"VALARM") ht
  have loop : ∀ a : Alarm, (∀ x ∈ a.inner.props, RfcProperty c!"VALARM" x.2) →
      ∀ x ∈ (l.foldl (fun a x => a.durationAndRepeat x.1 x.2) a).inner.props, RfcProperty c!"VALARM" x.2 := by
    induction l with
    | nil => intro a ha; exact ha
    | cons y l ih =>
      intro a ha
      have hy := hl y List.mem_cons_self
      refine ih (fun x hx => hl x (List.mem_cons_of_mem _ hx)) _ ?_
      intro x hx
      rcases BMap.mem_insert (m := BMap.insert c!"DURATION" y.1.toProperty a.inner.props) (k := c!"REPEAT") hx with rfl | hx
      · exact rfc_repeat (rfcInteger_natToStr (by omega) hy.2)
      · rcases BMap.mem_insert hx with rfl | hx
        · exact rfc_duration (rfcDuration_toStr hy.1)
        · exact ha x hx
  have hk : t.toProperty.key = c!"TRIGGER" := by
    cases t with
    | duration d r => cases r <;> rfl
    | dateTime t => cases t <;> rfl
  have ha : ∀ a : Action, RfcName a.toStr → ∀ x ∈ BMap.insert t.toProperty.key t.toProperty
      (BMap.insert c!"ACTION" a.toProperty ([] : BMap Property)), RfcProperty c!"VALARM" x.2 := by
    intro a ha x hx
    rcases BMap.mem_insert hx with rfl | hx
    · exact ht
    · rcases BMap.mem_insert hx with rfl | hx
      · exact rfc_action ha
      · cases hx
  refine ⟨loop _ (ha .audio (by decide)), loop _ ?_⟩
  intro x hx
  rcases BMap.mem_insert (k := c!"DESCRIPTION") (m := BMap.insert t.toProperty.key t.toProperty
    (BMap.insert c!"ACTION" Action.display.toProperty ([] : BMap Property))) hx with rfl | hx
  · exact rfc_other (show RfcName c!"DESCRIPTION" by decide) (show c!"DESCRIPTION" ∉ _ by decide)
  · exact ha .display (by decide) x hx

/-! ### The ranges are exact -/

theorem rfcInteger_iff {lo hi n : Nat} : RfcInteger lo hi (natToStr n) ↔ lo ≤ n ∧ n ≤ hi := by
  constructor
  · rintro ⟨k, ⟨-, -, -, hk⟩, h⟩
    have := (number_natToStr n).2.2
    rw [hk] at this
    rw [this] at h
    exact h
  · rintro ⟨h1, h2⟩
    exact rfcInteger_natToStr h1 h2

theorem rfcDate_digits {s : Str} (h : RfcDate s) : ∀ c ∈ s, IsDigit c := by
  obtain ⟨y, m, d, ⟨a, b, e, rfl, ha, hb, he⟩, -⟩ := h
  intro c hc
  rcases List.mem_append.1 hc with hc | hc
  · rcases List.mem_append.1 hc with hc | hc
    · exact ha.2.1 c hc
    · exact hb.2.1 c hc
  · exact he.2.1 c hc

theorem rfcDate_head {s r : Str} {c : Char} (hc : ¬ IsDigit c) (h : RfcDate s) (e : s = c :: r) : False :=
  hc (rfcDate_digits h c (e ▸ List.mem_cons_self))

theorem rfcLocal_head {s r : Str} {c : Char} (hc : ¬ IsDigit c) (h : RfcLocal s) (e : s = c :: r) : False := by
  obtain ⟨a, b, _, _, _, rfl, ⟨y, m, d, ⟨a1, a2, a3, rfl, ha, -, -⟩, -⟩, -⟩ := h
  have hl := ha.1
  cases a1 with
  | nil => cases hl
  | cons x a1 =>
    simp only [List.cons_append, List.cons.injEq] at e
    exact hc (e.1 ▸ ha.2.1 x List.mem_cons_self)

theorem rfcUtc_head {s r : Str} {c : Char} (hc : ¬ IsDigit c) (h : RfcUtc s) (e : s = c :: r) : False := by
  obtain ⟨a, rfl, ha⟩ := h
  cases a with
  | nil =>
    obtain ⟨a, b, _, _, _, e, -⟩ := ha
    cases a <;> cases e
  | cons x a =>
    simp only [List.cons_append, List.cons.injEq] at e
    exact rfcLocal_head (c := x) (by rw [e.1]; exact hc) ha rfl

/-- years with a sign -/
theorem fmtYear_sign {y : Int} (h : ¬ (0 ≤ y ∧ y ≤ 9999)) : ∃ c r, ¬ IsDigit c ∧ fmtYear y = c :: r := by
  unfold fmtYear
  rw [if_neg h]
  split
  · exact ⟨'+', _, by decide, rfl⟩
  · exact ⟨'-', _, by decide, rfl⟩

theorem rfcDate_iff {d : NaiveDate} (h : d.Valid) : RfcDate (fmtDate d) ↔ 0 ≤ d.year ∧ d.year ≤ 9999 := by
  constructor
  · intro hd
    by_cases hy : 0 ≤ d.year ∧ d.year ≤ 9999
    · exact hy
    · obtain ⟨c, r, hc, e⟩ := fmtYear_sign hy
      exact (rfcDate_head hc hd (r := r ++ fmt2 d.month ++ fmt2 d.day) (by unfold fmtDate; rw [e]; rfl)).elim
  · rintro ⟨h0, h1⟩
    exact rfcDate_fmt h h0 h1

theorem rfcLocal_iff {t : NaiveDateTime} (h : t.Valid) :
    RfcLocal (fmtDateTime t) ↔ 0 ≤ t.date.year ∧ t.date.year ≤ 9999 := by
  constructor
  · intro hd
    by_cases hy : 0 ≤ t.date.year ∧ t.date.year ≤ 9999
    · exact hy
    · obtain ⟨c, r, hc, e⟩ := fmtYear_sign hy
      refine (rfcLocal_head hc hd (r := r ++ fmt2 t.date.month ++ fmt2 t.date.day ++
        'T' :: (fmt2 t.hour ++ fmt2 t.min ++ fmtSec t)) ?_).elim
      unfold fmtDateTime fmtDate; rw [e]; rfl
  · rintro ⟨h0, h1⟩
    exact rfcLocal_fmt ⟨h, h0, h1⟩

theorem rfcUtc_iff {t : UtcDateTime} (h : t.naive.Valid) :
    RfcUtc (fmtUtc t) ↔ 0 ≤ t.naive.date.year ∧ t.naive.date.year ≤ 9999 := by
  rw [← rfcLocal_iff h]
  constructor
  · rintro ⟨a, e, ha⟩
    have : fmtDateTime t.naive = a := List.append_cancel_right e
    rw [this]; exact ha
  · exact fun ha => ⟨_, rfl, ha⟩

theorem fmtDateTime_not_z (t : NaiveDateTime) : 'Z' ∉ fmtDateTime t := by
  intro h
  have hd : ¬ IsDigit 'Z' := by decide
  unfold fmtDateTime fmtDate fmtSec fmtYear at h
  simp only [List.mem_append, List.mem_cons] at h
  rcases h with ((h | h) | h) | h | (h | h) | h
  · split at h
    · exact hd (fmt4_digits _ _ h)
    · split at h
      · rcases List.mem_cons.1 h with h | h
        · cases h
        · exact hd (fmt4_digits _ _ h)
      · rcases List.mem_cons.1 h with h | h
        · cases h
        · exact hd (fmt4_digits _ _ h)
  · exact hd (fmt2_digits _ _ h)
  · exact hd (fmt2_digits _ _ h)
  · cases h
  · exact hd (fmt2_digits _ _ h)
  · exact hd (fmt2_digits _ _ h)
  · exact hd (fmt2_digits _ _ h)

theorem not_rfcUtc_local (t : NaiveDateTime) : ¬ RfcUtc (fmtDateTime t) := by
  rintro ⟨a, e, -⟩
  exact fmtDateTime_not_z t (by rw [e]; simp)

theorem not_rfcDate_of_mem {s : Str} {c : Char} (hc : ¬ IsDigit c) (h : c ∈ s) : ¬ RfcDate s :=
  fun hd => hc (rfcDate_digits hd c h)

theorem rfcDateOrTime_iff {key : Str} {d : DatePerhapsTime} (h : RealDate d) :
    RfcDateOrTime (Call.dateProperty key d) ↔ WritableDate d := by
  refine ⟨fun hd => ?_, rfcDateOrTime_of⟩
  cases d with
  | date d =>
    rcases hd with hd | hd | hd
    · exact ⟨h, (rfcDate_iff h).1 hd.2.2⟩
    · exact absurd hd.1 (show some c!"DATE" ∉ [none, some c!"DATE-TIME"] by decide)
    · exact absurd hd.1 (show some c!"DATE" ∉ [none, some c!"DATE-TIME"] by decide)
  | dateTime t =>
    cases t with
    | floating t =>
      rcases hd with hd | hd | hd
      · cases hd.1
      · exact ⟨h, (rfcLocal_iff h).1 hd.2⟩
      · exact absurd hd.2.2 (not_rfcUtc_local t)
    | utc t =>
      rcases hd with hd | hd | hd
      · cases hd.1
      · have hl : RfcLocal (fmtUtc t) := hd.2
        obtain ⟨a, b, hh, mm, ss, e, ha, ⟨b1, b2, b3, rfl, -, -, hb⟩, -⟩ := hl
        have e : fmtDateTime t.naive ++ ['Z'] = a ++ 'T' :: (b1 ++ b2 ++ b3) := e
        have hlast : (fmtDateTime t.naive ++ ['Z']).getLast? = some 'Z' := by simp
        have hb3 : b3 ≠ [] := by intro h; rw [h] at hb; cases hb.1
        have hl2 : (a ++ 'T' :: (b1 ++ b2 ++ b3)).getLast? = b3.getLast? := by
          rw [show a ++ 'T' :: (b1 ++ b2 ++ b3) = (a ++ 'T' :: (b1 ++ b2)) ++ b3 by simp]
          rw [List.getLast?_append]
          cases h3 : b3.getLast? with
          | none => exact absurd (List.getLast?_eq_none_iff.1 h3) hb3
          | some x => rfl
        rw [e, hl2] at hlast
        have := hb.2.1 'Z' (List.mem_of_getLast? hlast)
        exact absurd this (by decide)
      · exact ⟨h, (rfcUtc_iff h).1 hd.2.2⟩
    | zoned t z =>
      rcases hd with hd | hd | hd
      · cases hd.1
      · exact ⟨h, (rfcLocal_iff h).1 hd.2⟩
      · cases hd.2.1

theorem dateProperty_iff {kind key : Str} {d : DatePerhapsTime} (hk : key ∈ [c!"DTSTART", c!"DTEND", c!"DUE"])
    (h : RealDate d) : RfcProperty kind (Call.dateProperty key d) ↔ WritableDate d :=
  ⟨fun hp => (rfcDateOrTime_iff h).1 (hp.date (by rw [dateProperty_key]; exact hk)), rfc_date hk⟩

/-- **C95.** A call writes what RFC 5545 allows exactly when its arguments are in the ranges of RFC 5545. -/
theorem call_conforms_iff {kind : Str} {x : Call} (h : RealCall x) :
    (∀ p ∈ x.sets, RfcProperty kind p) ↔ SensibleCall kind x := by
  refine ⟨fun hx => ?_, rfc_sets⟩
  cases x with
  | appendProperty q => exact hx _ List.mem_cons_self
  | addProperty k v => exact hx _ List.mem_cons_self
  | timestamp t => exact ⟨h, (rfcUtc_iff h).1 ((hx _ List.mem_cons_self).utc (show c!"DTSTAMP" ∈ _ by decide)).1⟩
  | created t => exact ⟨h, (rfcUtc_iff h).1 ((hx _ List.mem_cons_self).utc (show c!"CREATED" ∈ _ by decide)).1⟩
  | lastModified t => exact absurd (hx _ List.mem_cons_self).name (show ¬ RfcName c!"LAST_MODIFIED" by decide)
  | priority n =>
    have := (rfcInteger_iff.1 ((hx _ List.mem_cons_self).priority rfl)).2
    show n ≤ 9
    split at this <;> omega
  | sequence n => exact (rfcInteger_iff.1 ((hx _ List.mem_cons_self).sequence rfl)).2
  | starts d => exact (dateProperty_iff (by decide) h).1 (hx _ List.mem_cons_self)
  | ends d => exact (dateProperty_iff (by decide) h).1 (hx _ List.mem_cons_self)
  | allDay d => exact (dateProperty_iff (d := .date d) (key := c!"DTSTART") (by decide) h).1 (hx _ List.mem_cons_self)
  | _ => trivial

theorem durPart_chars {u : Char} {s : Str} (h : DurPart u s) : ∀ c ∈ s, IsDigit c ∨ c = u := by
  obtain ⟨a, n, ha, rfl⟩ := h
  intro c hc
  rcases List.mem_append.1 hc with hc | hc
  · exact .inl (ha.2.2.1 c hc)
  · exact .inr (List.mem_singleton.1 hc)

theorem rfcDuration_no_dot {s : Str} (h : RfcDuration s) : '.' ∉ s := by
  have part : ∀ {u : Char} {s : Str}, DurPart u s → u ≠ '.' → '.' ∉ s := by
    intro u s h hu hm
    rcases durPart_chars h _ hm with h | h
    · exact absurd h (by decide)
    · exact hu h.symm
  have sec : ∀ {s}, DurSecond s → '.' ∉ s := fun h => part h (by decide)
  have min : ∀ {s}, DurMinute s → '.' ∉ s := by
    rintro s ⟨a, b, rfl, ha, hb⟩ hm
    rcases List.mem_append.1 hm with hm | hm
    · exact part ha (by decide) hm
    · rcases hb with rfl | hb
      · cases hm
      · exact sec hb hm
  have hour : ∀ {s}, DurHour s → '.' ∉ s := by
    rintro s ⟨a, b, rfl, ha, hb⟩ hm
    rcases List.mem_append.1 hm with hm | hm
    · exact part ha (by decide) hm
    · rcases hb with rfl | hb
      · cases hm
      · exact min hb hm
  have time : ∀ {s}, DurTime s → '.' ∉ s := by
    rintro s ⟨a, rfl, h⟩ hm
    rcases List.mem_cons.1 hm with hm | hm
    · cases hm
    · rcases h with h | h | h
      · exact hour h hm
      · exact min h hm
      · exact sec h hm
  have date : ∀ {s}, DurDate s → '.' ∉ s := by
    rintro s ⟨a, b, rfl, ha, hb⟩ hm
    rcases List.mem_append.1 hm with hm | hm
    · exact part ha (by decide) hm
    · rcases hb with rfl | hb
      · cases hm
      · exact time hb hm
  obtain ⟨sign, a, rfl, hs, h⟩ := h
  intro hm
  rcases List.mem_append.1 hm with hm | hm
  · rcases hs with rfl | rfl | rfl <;> revert hm <;> decide
  · rcases List.mem_cons.1 hm with hm | hm
    · cases hm
    · rcases h with h | h | h
      · exact date h hm
      · exact time h hm
      · exact part h (by decide) hm

theorem rfcDuration_iff {d : Duration} : RfcDuration d.toStr ↔ (1000000000 : Int) ∣ d.nanos := by
  refine ⟨fun h => ?_, rfcDuration_toStr⟩
  by_cases hf : d.nanos.natAbs % 1000000000 = 0
  · omega
  · refine absurd ?_ (rfcDuration_no_dot h)
    unfold Duration.toStr
    simp only
    rw [if_neg (by omega), if_neg hf]
    simp

/-- **C95.** A trigger is written as RFC 5545 allows it exactly when it is a duration of whole seconds or a time in
UTC. -/
theorem trigger_conforms_iff {t : Trigger} (h : ∀ c, t = .dateTime c → RealDate (.dateTime c)) :
    RfcProperty c!"VALARM" t.toProperty ↔ SensibleTrigger t := by
  refine ⟨fun hp => ?_, rfc_trigger⟩
  have ht := hp.trigger (by
    cases t with
    | duration d r => cases r <;> rfl
    | dateTime t => cases t <;> rfl)
  cases t with
  | duration d r =>
    refine rfcDuration_iff.1 ?_
    cases r with
    | none =>
      rcases ht with ht | ht
      · exact ht.2.2
      · cases ht.1
    | some r =>
      rcases ht with ht | ht
      · exact ht.2.2
      · cases r <;> cases ht.1
  | dateTime t =>
    cases t with
    | utc t =>
      rcases ht with ht | ht
      · exact absurd ht.1 (show some c!"DATE-TIME" ∉ _ by decide)
      · exact ⟨h _ rfl, (rfcUtc_iff (h _ rfl)).1 ht.2.2.2⟩
    | floating t =>
      rcases ht with ht | ht
      · exact absurd ht.1 (show some c!"DATE-TIME" ∉ _ by decide)
      · exact not_rfcUtc_local t ht.2.2.2
    | zoned t z =>
      rcases ht with ht | ht
      · exact absurd ht.1 (show some c!"DATE-TIME" ∉ _ by decide)
      · cases ht.2.2.1

/-- **C95 is false for arguments RFC 5545 does not allow.** A priority above nine, a percentage above a hundred,
`last_modified` with any time, half a second and an alarm at a local time are written as they are. -/
theorem setters_conform_violated (t : UtcDateTime) (l : NaiveDateTime) :
    (¬ ∀ x ∈ Component.properties ((Call.priority 200).run Event.new), RfcProperty c!"VEVENT" x.2) ∧
    (¬ ∀ x ∈ Component.properties ((Call.lastModified t).run Event.new), RfcProperty c!"VEVENT" x.2) ∧
    (¬ ∀ x ∈ (Todo.new.percentComplete 101).inner.props, RfcProperty c!"VTODO" x.2) ∧
    (¬ ∀ x ∈ (Alarm.audio (.dateTime (.floating l))).inner.props, RfcProperty c!"VALARM" x.2) ∧
    ¬ ∀ x ∈ ((Alarm.audio (.ofDuration ⟨0⟩)).durationAndRepeat ⟨500000000⟩ 1).inner.props,
      RfcProperty c!"VALARM" x.2 := by
  refine ⟨fun h => ?_, fun h => ?_, fun h => ?_, fun h => ?_, fun h => ?_⟩
  · have := (h (c!"PRIORITY", ⟨c!"PRIORITY", c!"10", []⟩) List.mem_cons_self).priority rfl
    exact absurd (rfcInteger_iff (n := 10).1 this) (by decide)
  · exact absurd (h (c!"LAST_MODIFIED", ⟨c!"LAST_MODIFIED", fmtUtc t, []⟩) List.mem_cons_self).name
      (show ¬ RfcName c!"LAST_MODIFIED" by decide)
  · have := (h (c!"PERCENT-COMPLETE", ⟨c!"PERCENT-COMPLETE", c!"101", []⟩) List.mem_cons_self).percent rfl
    exact absurd (rfcInteger_iff (n := 101).1 this) (by decide)
  · have := h (c!"TRIGGER", (Trigger.dateTime (.floating l)).toProperty) (.tail _ List.mem_cons_self)
    have ht := this.trigger rfl
    rcases ht with ht | ht
    · exact absurd ht.1 (show some c!"DATE-TIME" ∉ _ by decide)
    · exact not_rfcUtc_local l ht.2.2.2
  · have := (h (c!"DURATION", ⟨c!"DURATION", c!"PT0.5S", []⟩) (.tail _ List.mem_cons_self)).duration rfl
    exact rfcDuration_no_dot this (by decide)

/-- a to-do with a due date, a percentage and a state -/
example : ∀ x ∈ ([TodoCall.common (.summary c!"Tax"), .common (.priority 1), .due (.date ⟨2024, 2, 29⟩),
      .percentComplete 95, .status .inProcess].foldl TodoCall.run Todo.new).inner.props, RfcProperty c!"VTODO" x.2 := by
  refine todo_conforms_partial _ ?_
  intro x hx
  simp only [List.mem_cons, List.not_mem_nil, or_false] at hx
  rcases hx with rfl | rfl | rfl | rfl | rfl
  · trivial
  · exact (by decide : (1 : Nat) ≤ 9)
  · exact ⟨by decide, by decide, by decide⟩
  · exact (by decide : (95 : Nat) ≤ 100)
  · trivial

/-- a value RFC 5545 does not allow -/
example : ¬ RfcProperty c!"VEVENT" ⟨c!"STATUS", c!"NEEDS-ACTION", []⟩ :=
  fun h => absurd (h.status rfl) (show c!"NEEDS-ACTION" ∉ rfcStatus c!"VEVENT" by decide)

end Ical
