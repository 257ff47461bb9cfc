import Verif.Spec.SayCalls
import Verif.Props.Strict
import Verif.Props.CallOrder
import Verif.Props.Values
import Verif.Props.Calendars
import Verif.Props.Built

/-!
C114: what builder calls must be given so that readers that follow RFC 5545 recover what was said.
-/

namespace Ical

namespace Spec

/-- What the calls of calendars must be given. -/
def CalCall.Sayable : CalCall → Prop
  | .push x => SayableOther x.toOther
  | .extend l => ∀ x ∈ l, SayableOther x.toOther
  | .append o => ∀ x ∈ o.comps, SayableOther x.toOther
  | .appendProperty p => Spec.Sayable p
  | .name s => SayableLine s
  | .description s => SayableLine s
  | .timezone s => SayableLine s
  | .ttl _ => True

end Spec

open Spec

/-! Generated values have no control characters. -/

theorem control_digit {c : Char} (h : IsDigit c) : ¬ ControlChar c := by
  have h1 : '0'.toNat ≤ c.toNat := h.1
  have h2 : c.toNat ≤ '9'.toNat := h.2
  simp at h1 h2
  rintro (⟨h3, -⟩ | h3) <;> omega

theorem natToStr_line (n : Nat) : SayableLine (natToStr n) := fun c hc => control_digit (isDigit_natToStr n c hc)

theorem fmtUtc_line (t : UtcDateTime) : SayableLine (fmtUtc t) := by
  intro c hc
  rcases fmtUtc_chars t c hc with h | h
  · exact control_digit h
  · revert h
    clear hc
    revert c
    decide

theorem fmtDateTime_line (t : NaiveDateTime) : SayableLine (fmtDateTime t) :=
  fun c hc => fmtUtc_line ⟨t⟩ c (by unfold fmtUtc; simp [hc])

theorem fmtDate_line (d : NaiveDate) : SayableLine (fmtDate d) :=
  fun c hc => fmtDateTime_line ⟨d, 0, 0, 0, 0⟩ c (by unfold fmtDateTime; simp [hc])

theorem sayableLine_append {a b : Str} : SayableLine (a ++ b) ↔ SayableLine a ∧ SayableLine b := by
  unfold SayableLine
  simp only [List.mem_append]
  exact ⟨fun h => ⟨fun c hc => h c (.inl hc), fun c hc => h c (.inr hc)⟩, fun h c hc => hc.elim (h.1 c) (h.2 c)⟩

theorem duration_line (d : Duration) : SayableLine d.toStr := by
  have hf : ∀ n m, SayableLine (fracDigits n m) := by
    intro n
    induction n with
    | zero => intro m; simp [fracDigits, SayableLine]
    | succ n ih =>
      intro m
      unfold fracDigits
      split
      · exact ih _
      · refine sayableLine_append.2 ⟨?_, natToStr_line m⟩
        intro c hc
        rw [List.eq_of_mem_replicate hc]
        decide
  unfold Duration.toStr
  simp only
  split
  · split <;> decide
  · simp only [sayableLine_append]
    refine ⟨⟨⟨⟨?_, by decide⟩, natToStr_line _⟩, ?_⟩, by decide⟩
    · split <;> decide
    · split
      · decide
      · rw [show ∀ l : Str, ('.' :: l) = ['.'] ++ l from fun _ => rfl, sayableLine_append]
        exact ⟨by decide, hf _ _⟩

/-! Properties. -/

theorem sayable_line_iff {k v : Str} (hk : RfcName k) (ht : k ∉ textNames) : Sayable ⟨k, v, []⟩ ↔ SayableLine v := by
  constructor
  · intro h c hc hcc
    exact ht (h.value c hc hcc).1
  · intro h
    exact ⟨hk, by simp, fun c hc hcc => absurd hcc (h c hc)⟩

theorem sayable_text_iff {k v : Str} (hk : RfcName k) (ht : k ∈ textNames) : Sayable ⟨k, v, []⟩ ↔ SayableText v := by
  constructor
  · intro h c hc hcc
    exact (h.value c hc hcc).2
  · intro h
    exact ⟨hk, by simp, fun c hc hcc => ⟨ht, h c hc hcc⟩⟩

theorem sayable_of_line {k v : Str} (hk : RfcName k) (h : SayableLine v) : Sayable ⟨k, v, []⟩ :=
  ⟨hk, by simp, fun c hc hcc => absurd hcc (h c hc)⟩

theorem sayable_param_iff {k v j u : Str} (hk : RfcName k) (hj : RfcName j) (h : SayableLine v) :
    Sayable ⟨k, v, [(j, u)]⟩ ↔ SayableParam u := by
  constructor
  · intro h
    exact (h.params (j, u) (by simp)).2
  · intro hu
    refine ⟨hk, ?_, fun c hc hcc => absurd hcc (h c hc)⟩
    intro kv hkv
    rw [List.mem_singleton.1 hkv]
    exact ⟨hj, hu⟩

theorem sayable_date_iff {k : Str} (hk : RfcName k) (d : DatePerhapsTime) :
    Sayable (Call.dateProperty k d) ↔ SayableDate d := by
  cases d with
  | date d => exact (sayable_param_iff hk (by decide) (fmtDate_line d)).trans (iff_of_true (by decide) trivial)
  | dateTime t =>
    cases t with
    | floating t => exact iff_of_true (sayable_of_line hk (fmtDateTime_line t)) trivial
    | utc t => exact iff_of_true (sayable_of_line hk (fmtUtc_line t)) trivial
    | zoned t z => exact sayable_param_iff hk (by decide) (fmtDateTime_line t)

/-- what a call does is sayable -/
def EffectsSayable (x : Call) : Prop :=
  (∀ p ∈ x.sets, Sayable p) ∧ (∀ p, x.appends = some p → Sayable p) ∧ (∀ o, x.adds = some o → SayableOther o)

theorem effects_one {x : Call} {p : Property} (h1 : x.sets = [p]) (h2 : x.appends = none) (h3 : x.adds = none) :
    EffectsSayable x ↔ Sayable p := by
  unfold EffectsSayable
  rw [h1, h2, h3]
  simp

theorem effects_iff (x : Call) : EffectsSayable x ↔ x.Sayable := by
  cases x with
  | appendProperty p => exact effects_one rfl rfl rfl
  | addProperty k v => exact effects_one rfl rfl rfl
  | appendMultiProperty p => simp [EffectsSayable, Call.sets, Call.appends, Call.adds, Call.Sayable]
  | addMultiProperty k v => simp [EffectsSayable, Call.sets, Call.appends, Call.adds, Call.Sayable]
  | appendComponent o => simp [EffectsSayable, Call.sets, Call.appends, Call.adds, Call.Sayable]
  | alarm a => simp [EffectsSayable, Call.sets, Call.appends, Call.adds, Call.Sayable]
  | timestamp t => exact (effects_one rfl rfl rfl).trans (iff_of_true (sayable_of_line (by decide) (fmtUtc_line t)) trivial)
  | priority n => exact (effects_one rfl rfl rfl).trans (iff_of_true (sayable_of_line (by decide) (natToStr_line _)) trivial)
  | summary s => exact (effects_one rfl rfl rfl).trans (sayable_text_iff (by decide) (by decide))
  | description s => exact (effects_one rfl rfl rfl).trans (sayable_text_iff (by decide) (by decide))
  | uid s => exact (effects_one rfl rfl rfl).trans (sayable_text_iff (by decide) (by decide))
  | sequence n => exact (effects_one rfl rfl rfl).trans (iff_of_true (sayable_of_line (by decide) (natToStr_line _)) trivial)
  | class_ k =>
    refine (effects_one rfl rfl rfl).trans (iff_of_true (sayable_of_line (by decide) ?_) trivial)
    cases k <;> exact (by decide)
  | url s => exact (effects_one rfl rfl rfl).trans (sayable_line_iff (by decide) (by decide))
  | lastModified t =>
    refine (effects_one rfl rfl rfl).trans (iff_of_false ?_ id)
    intro h
    exact absurd (show RfcName c!"LAST_MODIFIED" from h.name) (by decide)
  | created t => exact (effects_one rfl rfl rfl).trans (iff_of_true (sayable_of_line (by decide) (fmtUtc_line t)) trivial)
  | starts d => exact (effects_one rfl rfl rfl).trans (sayable_date_iff (by decide) d)
  | ends d => exact (effects_one rfl rfl rfl).trans (sayable_date_iff (by decide) d)
  | allDay d =>
    refine iff_of_true ⟨?_, by simp [Call.appends], by simp [Call.adds]⟩ trivial
    simp only [Call.sets, List.mem_cons, List.not_mem_nil, or_false]
    rintro p (rfl | rfl) <;> exact (sayable_date_iff (by decide) (.date d)).2 trivial
  | location s => exact (effects_one rfl rfl rfl).trans (sayable_text_iff (by decide) (by decide))
  | venue l u =>
    refine (effects_one rfl rfl rfl).trans ⟨fun h => ⟨fun c hc hcc => (h.value c hc hcc).2, (h.params (c!"VVENUE", u) (by simp)).2⟩, ?_⟩
    intro h
    refine ⟨(by decide : RfcName c!"LOCATION"), ?_, fun c hc hcc => ⟨(by decide : IsTextFor c!"LOCATION" none), h.1 c hc hcc⟩⟩
    intro kv hkv
    rw [List.mem_singleton.1 hkv]
    exact ⟨(by decide : RfcName c!"VVENUE"), h.2⟩

theorem eventCall_iff (x : EventCall) : x.generic.Sayable ↔ x.Sayable := by
  cases x with
  | common c => exact Iff.rfl
  | status s => cases s <;> exact iff_of_true (sayable_of_line (by decide) (by decide)) trivial

theorem todoCall_iff (x : TodoCall) : x.generic.Sayable ↔ x.Sayable := by
  cases x with
  | common c => exact Iff.rfl
  | percentComplete n => exact iff_of_true (sayable_of_line (by decide) (natToStr_line n)) trivial
  | due d => exact sayable_date_iff (by decide) d
  | completed t => exact iff_of_true (sayable_of_line (by decide) (fmtUtc_line t)) trivial
  | status s => cases s <;> exact iff_of_true (sayable_of_line (by decide) (by decide)) trivial

theorem venueCall_iff (x : VenueCall) : x.generic.Sayable ↔ x.Sayable := by
  cases x with
  | common c => exact Iff.rfl
  | _ => exact sayable_line_iff (by decide) (by decide)

/-! Histories. -/

theorem find_survives {l : List Property} {k : Str} {p : Property} :
    l.reverse.find? (fun q => q.key == k) = some p ↔ p.key = k ∧ Survives p l := by
  constructor
  · intro h
    have hk := List.find?_some h
    simp only [beq_iff_eq] at hk
    obtain ⟨-, as, bs, h1, h2⟩ := List.find?_eq_some_iff_append.1 h
    refine ⟨hk, bs.reverse, as.reverse, ?_, ?_⟩
    · have := congrArg List.reverse h1
      simpa using this
    · intro q hq
      have := h2 q (by simpa using hq)
      rw [hk]
      simpa using this
  · rintro ⟨rfl, before, after, rfl, h⟩
    refine List.find?_eq_some_iff_append.2 ⟨by simp, after.reverse, before.reverse, by simp, ?_⟩
    intro q hq
    have := h q (by simpa using hq)
    simpa using this

theorem mem_sets_iff {l : List Property} {x : Str × Property} :
    x ∈ l.foldl (fun (m : BMap Property) p => BMap.insert p.key p m) [] ↔ x.1 = x.2.key ∧ Survives x.2 l := by
  have hs : BMap.Sorted (l.foldl (fun (m : BMap Property) p => BMap.insert p.key p m) []) := by
    have := BMap.sorted_foldl (l.map fun p => (p.key, p)) [] BMap.sorted_nil
    rwa [List.foldl_map] at this
  have hg : x ∈ l.foldl (fun (m : BMap Property) p => BMap.insert p.key p m) [] ↔
      BMap.get x.1 (l.foldl (fun (m : BMap Property) p => BMap.insert p.key p m) []) = some x.2 :=
    ⟨fun h => BMap.get_of_mem hs h, fun h => BMap.get_mem h⟩
  rw [hg, get_sets]
  simp only [BMap.get, Option.or_none]
  rw [find_survives]
  exact ⟨fun h => ⟨h.1.symm, h.2⟩, fun h => ⟨h.1.symm, h.2⟩⟩

theorem sayableOthers_iff {l : List Other} : SayableOthers l ↔ ∀ o ∈ l, SayableOther o := by
  induction l with
  | nil => rw [SayableOthers]; simp
  | cons o l ih => rw [SayableOthers, ih]; simp

theorem multi_mem {m : BMap (List Property)} (hs : BMap.Sorted m) {p : Property} :
    (∃ x ∈ m, p ∈ x.2) ↔ ∃ k, p ∈ (m.get k).getD [] := by
  constructor
  · rintro ⟨x, hx, hp⟩
    exact ⟨x.1, by rw [BMap.get_of_mem hs hx]; exact hp⟩
  · rintro ⟨k, hp⟩
    cases hg : m.get k with
    | none => rw [hg] at hp; cases hp
    | some v => rw [hg] at hp; exact ⟨(k, v), BMap.get_mem hg, hp⟩

/-- **C114.** A component built by any history of calls is made of what RFC 5545 has a place for exactly if this holds
for every property that was set and not replaced later, and for everything that was added. -/
theorem built_sayable_iff {C : Type} [Component C] (c : C) (h0 : Component.inner c = .empty) (calls : List Call) :
    SayableOther (Component.toOther (calls.foldl Call.run c)) ↔
      RfcName (Component.kind c) ∧ (∀ p, Survives p (calls.flatMap Call.sets) → Sayable p) ∧
      (∀ p ∈ calls.filterMap Call.appends, Sayable p) ∧ (∀ o ∈ calls.filterMap Call.adds, SayableOther o) := by
  have hp := props_runs calls c
  have hm := multi_keeps_all c calls
  have hc := sub_components c calls
  have hs := sorted_multi_runs calls c (by rw [h0]; exact BMap.sorted_nil)
  unfold Component.multiProperties at hm
  unfold Component.subComponents at hc
  rw [h0] at hp hc hm
  simp only [Inner.empty] at hp hc hm
  unfold Component.toOther Other.ofInner
  rw [SayableOther, kind_runs, hc, hp, sayableOthers_iff]
  refine and_congr Iff.rfl (and_congr ?_ (and_congr ?_ (by simp)))
  · exact ⟨fun h p hp => h (p.key, p) (mem_sets_iff.2 ⟨rfl, hp⟩), fun h x hx => h x.2 (mem_sets_iff.1 hx).2⟩
  · have e : ∀ p, (∃ x ∈ (Component.inner (calls.foldl Call.run c)).multi, p ∈ x.2) ↔ p ∈ calls.filterMap Call.appends := by
      intro p
      rw [multi_mem hs]
      constructor
      · rintro ⟨k, hk⟩
        rw [(hm k).1] at hk
        simp [BMap.get] at hk
        obtain ⟨⟨x, hx, hp⟩, -⟩ := hk
        exact List.mem_filterMap.2 ⟨x, hx, hp⟩
      · intro h
        refine ⟨p.key, ?_⟩
        rw [(hm p.key).1]
        exact List.mem_append_right _ (List.mem_filter.2 ⟨h, by simp⟩)
    exact ⟨fun h p hp => by
      obtain ⟨x, hx, hpx⟩ := (e p).2 hp
      exact h x hx p hpx, fun h x hx p hpx => h p ((e p).1 ⟨x, hx, hpx⟩)⟩

theorem built_sayable {C : Type} [Component C] (c : C) (h0 : Component.inner c = .empty) (hk : RfcName (Component.kind c))
    {calls : List Call} (h : ∀ x ∈ calls, x.Sayable) : SayableOther (Component.toOther (calls.foldl Call.run c)) := by
  refine (built_sayable_iff c h0 calls).2 ⟨hk, ?_, ?_, ?_⟩
  · rintro p ⟨before, after, hs, -⟩
    obtain ⟨x, hx, hp⟩ := List.mem_flatMap.1 (show p ∈ calls.flatMap Call.sets by rw [hs]; simp)
    exact ((effects_iff x).2 (h x hx)).1 p hp
  · intro p hp
    obtain ⟨x, hx, hpx⟩ := List.mem_filterMap.1 hp
    exact ((effects_iff x).2 (h x hx)).2.1 p hpx
  · intro o ho
    obtain ⟨x, hx, hox⟩ := List.mem_filterMap.1 ho
    exact ((effects_iff x).2 (h x hx)).2.2 o hox

theorem call_sayable {C : Type} [Component C] (c : C) (h0 : Component.inner c = .empty) (hk : RfcName (Component.kind c))
    (x : Call) : SayableOther (Component.toOther (x.run c)) ↔ x.Sayable := by
  refine ⟨fun h => ?_, fun h => built_sayable c h0 hk (calls := [x]) (by simpa using h)⟩
  obtain ⟨-, h1, h2, h3⟩ := (built_sayable_iff c h0 [x]).1 h
  refine (effects_iff x).1 ⟨?_, ?_, ?_⟩
  · intro p hp
    refine h1 p ?_
    simp only [List.flatMap_cons, List.flatMap_nil, List.append_nil]
    cases x <;> simp only [Call.sets, List.mem_cons, List.not_mem_nil, or_false] at hp ⊢
    case allDay d =>
      rcases hp with rfl | rfl
      · exact ⟨[], _, rfl, by simp [dateProperty_key]⟩
      · exact ⟨[Call.dateProperty c!"DTSTART" (.date d)], [], rfl, by simp⟩
    all_goals first | exact hp.elim | (subst hp; exact ⟨[], [], rfl, by simp⟩)
  · intro p hp
    exact h2 p (by simp [hp])
  · intro o ho
    exact h3 o (by simp [ho])

/-! Calendars and alarms. -/

theorem calCall_iff (x : CalCall) :
    ((∀ p ∈ x.props, Sayable p) ∧ (∀ y ∈ x.comps, SayableOther y.toOther)) ↔ x.Sayable := by
  have two : ∀ {k j v : Str}, RfcName k → RfcName j → j ∉ textNames →
      (((∀ p ∈ [(⟨k, v, []⟩ : Property), ⟨j, v, []⟩], Sayable p) ∧ (∀ y ∈ ([] : List CalComp), SayableOther y.toOther)) ↔
        SayableLine v) := by
    intro k j v hk hj hn
    constructor
    · intro h
      exact (sayable_line_iff hj hn).1 (h.1 _ (by simp))
    · intro h
      refine ⟨?_, by simp⟩
      simp only [List.mem_cons, List.not_mem_nil, or_false]
      rintro p (rfl | rfl)
      · exact sayable_of_line hk h
      · exact sayable_of_line hj h
  cases x with
  | push x => simp [CalCall.props, CalCall.comps, CalCall.Sayable]
  | extend l => simp [CalCall.props, CalCall.comps, CalCall.Sayable]
  | append o => simp [CalCall.props, CalCall.comps, CalCall.Sayable]
  | appendProperty p => simp [CalCall.props, CalCall.comps, CalCall.Sayable]
  | name s => exact two (by decide) (by decide) (by decide)
  | description s => exact two (by decide) (by decide) (by decide)
  | timezone s => exact two (by decide) (by decide) (by decide)
  | ttl d =>
    refine iff_of_true ⟨?_, by simp [CalCall.comps]⟩ trivial
    simp only [CalCall.props, List.mem_cons, List.not_mem_nil, or_false]
    rintro p (rfl | rfl)
    · exact (sayable_param_iff (by decide) (by decide) (duration_line d)).2 (by decide)
    · exact sayable_of_line (by decide) (duration_line d)

theorem calendar_sayable (calls : List CalCall) :
    ((∀ p ∈ (calls.foldl CalCall.run Calendar.new).props, Sayable p) ∧
      SayableOthers ((calls.foldl CalCall.run Calendar.new).comps.map CalComp.toOther)) ↔ ∀ x ∈ calls, x.Sayable := by
  obtain ⟨h1, h2⟩ := calendar_history Calendar.new calls
  rw [h1, h2, sayableOthers_iff]
  constructor
  · intro h x hx
    refine (calCall_iff x).1 ⟨fun p hp => h.1 p ?_, fun y hy => h.2 y.toOther ?_⟩
    · exact List.mem_append_right _ (List.mem_flatMap.2 ⟨x, hx, hp⟩)
    · exact List.mem_map.2 ⟨y, List.mem_append_right _ (List.mem_flatMap.2 ⟨x, hx, hy⟩), rfl⟩
  · intro h
    constructor
    · intro p hp
      rcases List.mem_append.1 hp with hp | hp
      · simp only [Calendar.new, List.mem_cons, List.not_mem_nil, or_false] at hp
        rcases hp with rfl | rfl | rfl <;> exact sayable_of_line (by decide) (by decide)
      · obtain ⟨x, hx, hp⟩ := List.mem_flatMap.1 hp
        exact ((calCall_iff x).2 (h x hx)).1 p hp
    · intro o ho
      obtain ⟨y, hy, rfl⟩ := List.mem_map.1 ho
      rcases List.mem_append.1 hy with hy | hy
      · simp [Calendar.new] at hy
      · obtain ⟨x, hx, hy⟩ := List.mem_flatMap.1 hy
        exact ((calCall_iff x).2 (h x hx)).2 y hy

theorem trigger_sayable (t : Trigger) : Sayable t.toProperty ↔ SayableTrigger t := by
  have hk : RfcName c!"TRIGGER" := by decide
  have hv : RfcName c!"VALUE" := by decide
  have hz : RfcName c!"TZID" := by decide
  cases t with
  | duration d r =>
    refine iff_of_true ?_ trivial
    cases r with
    | none => exact sayable_of_line hk (duration_line d)
    | some r => cases r <;> exact (sayable_param_iff hk (by decide) (duration_line d)).2 (by decide)
  | dateTime t =>
    cases t with
    | floating t => exact iff_of_true ((sayable_param_iff hk hv (fmtDateTime_line t)).2 (by decide)) trivial
    | utc t => exact iff_of_true ((sayable_param_iff hk hv (fmtUtc_line t)).2 (by decide)) trivial
    | zoned t z =>
      show Sayable ⟨c!"TRIGGER", fmtDateTime t, [(c!"TZID", z), (c!"VALUE", c!"DATE-TIME")]⟩ ↔ SayableParam z
      constructor
      · intro h
        exact (h.params (c!"TZID", z) (by simp)).2
      · intro h
        refine ⟨hk, ?_, fun c hc hcc => absurd hcc (fmtDateTime_line t c hc)⟩
        simp only [List.mem_cons, List.not_mem_nil, or_false]
        rintro kv (rfl | rfl)
        · exact ⟨hz, h⟩
        · exact ⟨hv, (by decide : SayableParam c!"DATE-TIME")⟩

theorem trigger_key (t : Trigger) : t.toProperty.key = c!"TRIGGER" := by
  cases t with
  | duration d r => cases r <;> rfl
  | dateTime t => cases t <;> rfl

/-- **C114.** Alarms: the trigger must be sayable, and the description. Repetition adds nothing to that. -/
theorem alarm_sayable_iff (t : Trigger) (desc : Str) (a : Alarm) (d : Duration) (n : Nat) :
    (SayableOther (Component.toOther (Alarm.audio t)) ↔ SayableTrigger t) ∧
    (SayableOther (Component.toOther (Alarm.display desc t)) ↔ SayableText desc ∧ SayableTrigger t) ∧
    (SayableOther (Component.toOther a) → SayableOther (Component.toOther (a.durationAndRepeat d n))) := by
  have ha : (Component.toOther (Alarm.audio t)) =
      .mk c!"VALARM" [(c!"ACTION", Action.audio.toProperty), (c!"TRIGGER", t.toProperty)] [] [] := by
    simp [Alarm.audio, Alarm.done, Inner.done, Component.toOther, Other.ofInner, Component.appendProperty,
      Inner.appendProperty, Component.inner, Component.withInner, Component.kind, Inner.empty, BMap.insert, trigger_key,
      Action.toProperty, Property.new, strCmp]
  have hd : (Component.toOther (Alarm.display desc t)) =
      .mk c!"VALARM" [(c!"ACTION", Action.display.toProperty), (c!"DESCRIPTION", ⟨c!"DESCRIPTION", desc, []⟩),
        (c!"TRIGGER", t.toProperty)] [] [] := by
    simp [Alarm.display, Alarm.done, Inner.done, Component.toOther, Other.ofInner, Component.appendProperty,
      Component.addProperty,
      Inner.appendProperty, Component.inner, Component.withInner, Component.kind, Inner.empty, BMap.insert, trigger_key,
      Action.toProperty, Property.new, strCmp]
  have sa : Sayable Action.audio.toProperty := sayable_of_line (by decide) (by decide)
  have sd : Sayable Action.display.toProperty := sayable_of_line (by decide) (by decide)
  have hn : RfcName c!"VALARM" := by decide
  refine ⟨?_, ?_, ?_⟩
  · rw [ha, SayableOther, SayableOthers, ← trigger_sayable]
    simp [hn, sa]
  · rw [hd, SayableOther, SayableOthers, ← trigger_sayable,
      ← sayable_text_iff (k := c!"DESCRIPTION") (v := desc) (by decide) (by decide)]
    simp [hn, sd]
  · intro h
    have e : a.durationAndRepeat d n =
        [Call.appendProperty d.toProperty, .appendProperty (repeatToProperty n)].foldl Call.run a := rfl
    unfold Component.toOther Other.ofInner at h ⊢
    rw [SayableOther] at h ⊢
    rw [e, kind_runs, props_runs]
    refine ⟨h.1, ?_, h.2.2⟩
    intro x hx
    simp only [Call.sets, List.flatMap_cons, List.flatMap_nil, List.append_nil, List.cons_append, List.nil_append,
      List.foldl_cons, List.foldl_nil] at hx
    rcases BMap.mem_insert hx with rfl | hx
    · exact sayable_of_line (by decide) (natToStr_line n)
    · rcases BMap.mem_insert hx with rfl | hx
      · exact sayable_of_line (by decide) (duration_line d)
      · exact h.2.1 x hx

section
variable [Uni]

/-- **C114.** From what is written for a component built by calls of the right arguments, a reader that follows RFC 5545
recovers what was built. -/
theorem built_said {C : Type} [Component C] (c : C) (h0 : Component.inner c = .empty) (hk : RfcName (Component.kind c))
    (calls : List Call) (h : ∀ x ∈ calls, x.Sayable) (w : World) (hw : World.Ok w) (out : Str)
    (hout : Component.fmtWrite (calls.foldl Call.run c) w = .ok out) :
    ∃ xs, StrictText xs out ∧ SayComponent (Component.toOther (calls.foldl Call.run c)) xs :=
  (strict_component_iff _ w hw out hout).2 (built_sayable c h0 hk h)

/-- **C114.** For a single call the condition is exact. -/
theorem call_said_iff {C : Type} [Component C] (c : C) (h0 : Component.inner c = .empty) (hk : RfcName (Component.kind c))
    (x : Call) (w : World) (hw : World.Ok w) (out : Str) (hout : Component.fmtWrite (x.run c) w = .ok out) :
    (∃ xs, StrictText xs out ∧ SayComponent (Component.toOther (x.run c)) xs) ↔ x.Sayable :=
  (strict_component_iff _ w hw out hout).trans (call_sayable c h0 hk x)

/-- **C114.** Events, todos and venues built by their calls. -/
theorem kinds_said (es : List EventCall) (ts : List TodoCall) (vs : List VenueCall) (w : World) (hw : World.Ok w) (out : Str) :
    ((∀ x ∈ es, x.Sayable) → Component.fmtWrite (es.foldl EventCall.run Event.new) w = .ok out →
      ∃ xs, StrictText xs out ∧ SayComponent (Component.toOther (es.foldl EventCall.run Event.new)) xs) ∧
    ((∀ x ∈ ts, x.Sayable) → Component.fmtWrite (ts.foldl TodoCall.run Todo.new) w = .ok out →
      ∃ xs, StrictText xs out ∧ SayComponent (Component.toOther (ts.foldl TodoCall.run Todo.new)) xs) ∧
    ((∀ x ∈ vs, x.Sayable) → Component.fmtWrite (vs.foldl VenueCall.run Venue.new) w = .ok out →
      ∃ xs, StrictText xs out ∧ SayComponent (Component.toOther (vs.foldl VenueCall.run Venue.new)) xs) := by
  have e1 : ∀ (l : List EventCall) (e : Event), l.foldl EventCall.run e = (l.map EventCall.generic).foldl Call.run e := by
    intro l
    induction l with
    | nil => intro e; rfl
    | cons x l ih =>
      intro e
      rw [List.foldl_cons, ih, List.map_cons, List.foldl_cons, (specific_calls e x ⟨.empty⟩
        (.common (.url [])) ⟨.empty⟩ (.common (.url []))).1]
  have e2 : ∀ (l : List TodoCall) (t : Todo), l.foldl TodoCall.run t = (l.map TodoCall.generic).foldl Call.run t := by
    intro l
    induction l with
    | nil => intro e; rfl
    | cons x l ih =>
      intro t
      rw [List.foldl_cons, ih, List.map_cons, List.foldl_cons, (specific_calls ⟨.empty⟩ (.common (.url [])) t x
        ⟨.empty⟩ (.common (.url []))).2.1]
  refine ⟨?_, ?_, ?_⟩
  · intro h hout
    rw [e1] at hout ⊢
    refine built_said Event.new rfl (by decide) _ ?_ w hw out hout
    intro x hx
    obtain ⟨y, hy, rfl⟩ := List.mem_map.1 hx
    exact (eventCall_iff y).2 (h y hy)
  · intro h hout
    rw [e2] at hout ⊢
    refine built_said Todo.new rfl (by decide) _ ?_ w hw out hout
    intro x hx
    obtain ⟨y, hy, rfl⟩ := List.mem_map.1 hx
    exact (todoCall_iff y).2 (h y hy)
  · intro h hout
    rw [venue_runs] at hout ⊢
    refine built_said Venue.new rfl (by decide) _ ?_ w hw out hout
    intro x hx
    obtain ⟨y, hy, rfl⟩ := List.mem_map.1 hx
    exact (venueCall_iff y).2 (h y hy)

/-- **C114.** Calendars: a reader that follows RFC 5545 recovers a calendar built by calls exactly if all of them were
given what RFC 5545 has a place for. -/
theorem calendar_said_iff (calls : List CalCall) (w : World) (hw : World.Ok w) (out : Str)
    (hout : (calls.foldl CalCall.run Calendar.new).fmtWrite w = .ok out) :
    (∃ xs, StrictText xs out ∧ SayCalendar (calls.foldl CalCall.run Calendar.new) xs) ↔ ∀ x ∈ calls, x.Sayable :=
  (strict_calendar_iff _ w hw out hout).trans (calendar_sayable calls)

end

/-! Texts with line breaks and delimiters are recovered, zone ids with a comma are not, nor is `last_modified`. -/
example : ∀ x ∈ [Call.summary c!"a\nb;c,d: \\ \"e\"", .starts (.dateTime (.zoned ⟨⟨2026, 1, 1⟩, 1, 2, 3, 0⟩ c!"Europe/Berlin")),
    .priority 3, .alarm (Alarm.display c!"d" (Trigger.beforeStart ⟨60000000000⟩))], x.Sayable := by
  intro x hx
  simp only [List.mem_cons, List.not_mem_nil, or_false] at hx
  rcases hx with rfl | rfl | rfl | rfl
  · exact (by decide +kernel : SayableText c!"a\nb;c,d: \\ \"e\"")
  · exact (by decide +kernel : SayableParam c!"Europe/Berlin")
  · trivial
  · exact ((alarm_sayable_iff (Trigger.beforeStart ⟨60000000000⟩) c!"d" ⟨.empty⟩ ⟨0⟩ 0).2.1).2
      ⟨(by decide : SayableText c!"d"), trivial⟩
example : ¬ (Call.starts (.dateTime (.zoned ⟨⟨2026, 1, 1⟩, 1, 2, 3, 0⟩ c!"(UTC+1), Berlin"))).Sayable :=
  (by decide +kernel : ¬ SayableParam c!"(UTC+1), Berlin")
example (t : UtcDateTime) : ¬ (Call.lastModified t).Sayable := id
example : ¬ (CalCall.name c!"a\nb").Sayable := (by decide : ¬ SayableLine c!"a\nb")
example : (CalCall.ttl ⟨60000000000⟩).Sayable := trivial
/-- only what is not replaced matters -/
example : Survives ⟨c!"A", c!"2", []⟩ [⟨c!"A", c!"1", []⟩, ⟨c!"A", c!"2", []⟩, ⟨c!"B", c!"1", []⟩] ∧
    ¬ Survives ⟨c!"A", c!"1", []⟩ [⟨c!"A", c!"1", []⟩, ⟨c!"A", c!"2", []⟩] := by
  refine ⟨⟨[⟨c!"A", c!"1", []⟩], [⟨c!"B", c!"1", []⟩], rfl, by simp⟩, ?_⟩
  intro h
  have := (find_survives (k := c!"A")).2 ⟨rfl, h⟩
  revert this
  decide +kernel

end Ical
