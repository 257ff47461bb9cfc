import Verif.Props.Roundtrip
import Verif.Props.Order
import Verif.Props.Calendars

/-!
C59: what is made with the builder methods is well-formed, and so survives being written and read.
-/

namespace Ical

open Nom Spec

namespace Spec

variable [Uni]

/-- A text that can be written as it is: it does not end the line and contains no fold marker. -/
def OneLineText (s : Str) : Prop := ¬ ['\r', '\n'] <:+: s ∧ MarkerFree s

/-- A text that can be written as a parameter value. -/
def ParamText (s : Str) : Prop := Quotable s ∧ MarkerFree s

/-- The time zone id of a date-time, if any, can be written. -/
def ZoneOk : DatePerhapsTime → Prop
  | .dateTime (.zoned _ z) => ParamText z
  | _ => True

/-- What a call of a component method must be given. The typed setters take any text, number, time or
enumerated value; a URL must fit on a line, a time zone id and the uid of a venue must be parameter values. -/
def Call.ArgsOk : Call → Prop
  | .appendProperty p => p.key ∉ repeatable ∧ PropOk p
  | .addProperty k v => k ∉ repeatable ∧ PropOk ⟨k, v, []⟩
  | .appendMultiProperty p => p.key ∈ repeatable ∧ PropOk p
  | .addMultiProperty k v => k ∈ repeatable ∧ PropOk ⟨k, v, []⟩
  | .appendComponent o => OtherOk o
  | .url s => OneLineText s
  | .starts d => ZoneOk d
  | .ends d => ZoneOk d
  | .venue _ u => ParamText u
  | .alarm a => OtherOk (.mk c!"VALARM" a.inner.props a.inner.multi a.inner.comps)
  | _ => True

/-- What a call of a calendar method must be given. -/
def CalCall.ArgsOk : CalCall → Prop
  | .push x => CalCompOk x
  | .extend l => ∀ x ∈ l, CalCompOk x
  | .append o => ∀ x ∈ o.comps, CalCompOk x
  | .appendProperty p => PropOk p
  | .name s => OneLineText s
  | .description s => OneLineText s
  | .timezone s => OneLineText s
  | .ttl _ => True

/-- The texts a call is given survive being written and read (C08). -/
def Call.ArgsSafe (x : Call) : Prop :=
  (∀ p ∈ x.sets, ValueSafe p) ∧ (∀ p, x.appends = some p → ValueSafe p) ∧ (∀ o, x.adds = some o → OtherSafe o)

/-- see `Call.ArgsSafe` -/
def CalCall.ArgsSafe (x : CalCall) : Prop :=
  (∀ p ∈ x.props, ValueSafe p) ∧ (∀ y ∈ x.comps, OtherSafe y.toOther)

/-- The date-time of a trigger has a time zone id that can be written. -/
def TriggerOk : Trigger → Prop
  | .dateTime t => ZoneOk (.dateTime t)
  | _ => True

end Spec

variable [Uni]

/-- the content of a component is well-formed -/
structure Good (i : Inner) : Prop where
  inner : InnerOk i.props i.multi
  comps : OthersOk i.comps

omit [Uni] in
theorem othersOk_append [Uni] {a b : List Other} : OthersOk (a ++ b) ↔ OthersOk a ∧ OthersOk b := by
  induction a with
  | nil => simp [OthersOk]
  | cons o a ih => simp [OthersOk, ih, and_assoc]

theorem good_empty : Good Inner.empty :=
  ⟨⟨by simp [InOrder, Inner.empty], by simp [Inner.empty], by simp [InOrder, Inner.empty], by simp [Inner.empty]⟩, trivial⟩

theorem good_append {i : Inner} (h : Good i) {p : Property} (hr : p.key ∉ repeatable) (hp : PropOk p) :
    Good (i.appendProperty p) := by
  refine ⟨⟨BMap.sorted_insert h.inner.inOrder, ?_, h.inner.multiInOrder, h.inner.multiple⟩, h.comps⟩
  intro x hx
  rcases BMap.mem_insert hx with rfl | hx
  · exact ⟨rfl, hr, hp⟩
  · exact h.inner.single x hx

theorem good_insertMulti {i : Inner} (h : Good i) {p : Property} (hr : p.key ∈ repeatable) (hp : PropOk p) :
    Good (i.insertMulti p) := by
  have e : (i.insertMulti p).props = i.props ∧ (i.insertMulti p).comps = i.comps := ⟨rfl, rfl⟩
  refine ⟨⟨by rw [e.1]; exact h.inner.inOrder, by rw [e.1]; exact h.inner.single, ?_, ?_⟩, by rw [e.2]; exact h.comps⟩
  · unfold Inner.insertMulti
    simp only
    split <;> exact BMap.sorted_insert h.inner.multiInOrder
  · unfold Inner.insertMulti
    simp only
    split
    · rename_i v hv
      have hm := BMap.get_mem hv
      intro x hx
      rcases BMap.mem_insert hx with rfl | hx
      · refine ⟨hr, by simp, ?_⟩
        intro q hq
        rcases List.mem_append.1 hq with hq | hq
        · exact (h.inner.multiple _ hm).2.2 q hq
        · rw [List.mem_singleton.1 hq]; exact ⟨rfl, hp⟩
      · exact h.inner.multiple x hx
    · intro x hx
      rcases BMap.mem_insert hx with rfl | hx
      · refine ⟨hr, by simp, ?_⟩
        intro q hq
        rw [List.mem_singleton.1 hq]; exact ⟨rfl, hp⟩
      · exact h.inner.multiple x hx

theorem good_appendComponent {i : Inner} (h : Good i) {o : Other} (ho : OtherOk o) : Good (i.appendComponent o) :=
  ⟨h.inner, othersOk_append.2 ⟨h.comps, ho, trivial⟩⟩

/-- literal names are legal -/
theorem keyOk_ascii (s : Str) (h : ∀ c ∈ s, c = '-' ∨ c = '_' ∨ (0x41 ≤ c.toNat ∧ c.toNat ≤ 0x5A))
    (h1 : ¬ c!"END" <+: s) (h2 : ¬ c!"BEGIN" <+: s) (h3 : s.map lowerAscii ≠ c!"end") (h4 : s.map lowerAscii ≠ c!"begin") :
    KeyOk s := by
  refine ⟨?_, h1, h2, h3, h4⟩
  intro c hc
  rcases h c hc with rfl | rfl | h
  · right; decide
  · right; decide
  · left
    unfold isAlnum
    rw [if_pos (by omega)]
    simp only [Bool.or_eq_true, Bool.and_eq_true, decide_eq_true_eq]
    omega

theorem paramsOk_nil : ParamsOk [] := ⟨.nil, by simp, by simp⟩

/-- a value on one line without parameters -/
theorem propOk_line {k v : Str} (hk : KeyOk k) (hv : OneLineText v) : PropOk ⟨k, v, []⟩ :=
  ⟨hk, paramsOk_nil, .inr hv⟩

theorem propOk_text {k v : Str} (hk : KeyOk k) (ht : k ∈ textNames) : PropOk ⟨k, v, []⟩ :=
  ⟨hk, paramsOk_nil, .inl ht⟩

theorem paramsOk_one {k v : Str} (hk : IsName k) (hv : ParamText v) : ParamsOk [(k, v)] :=
  ⟨by simp, by simpa using hk, fun x hx => by rw [List.mem_singleton.1 hx]; exact hv⟩

theorem paramsOk_two {k v k' v' : Str} (h : strCmp k k' = .lt) (hk : IsName k) (hv : ParamText v) (hk' : IsName k')
    (hv' : ParamText v') : ParamsOk [(k, v), (k', v')] :=
  ⟨by simpa using h, by simpa using ⟨hk, hk'⟩, by
    intro x hx
    simp only [List.mem_cons, List.not_mem_nil, or_false] at hx
    rcases hx with rfl | rfl
    · exact hv
    · exact hv'⟩

omit [Uni] in
theorem oneLine_noLf {v : Str} (h : '\n' ∉ v) : OneLineText v :=
  ⟨fun hc => h (hc.mem (by simp)), markerFree_of_noLf h⟩

omit [Uni] in
theorem fmtDate_noLf (d : NaiveDate) : '\n' ∉ fmtDate d := by
  intro hc
  have := fmtUtc_not_mem ⟨⟨d, 0, 0, 0, 0⟩⟩ (x := '\n') (by decide) (by decide)
  apply this
  unfold fmtUtc fmtDateTime
  simp [hc]

omit [Uni] in
theorem fmtDateTime_noLf (t : NaiveDateTime) : '\n' ∉ fmtDateTime t := by
  intro hc
  have := fmtUtc_not_mem ⟨t⟩ (x := '\n') (by decide) (by decide)
  apply this
  unfold fmtUtc
  simp [hc]

omit [Uni] in
theorem fmtUtc_noLf (t : UtcDateTime) : '\n' ∉ fmtUtc t := fmtUtc_not_mem t (by decide) (by decide)

omit [Uni] in
theorem natToStr_noLf (n : Nat) : '\n' ∉ natToStr n := by
  intro hc
  have := isDigit_natToStr n _ hc
  revert this
  decide

theorem propOk_date {k : Str} (hk : KeyOk k) {d : DatePerhapsTime} (hz : ZoneOk d) : PropOk (Call.dateProperty k d) := by
  cases d with
  | date d =>
    exact ⟨hk, paramsOk_one (keyOk_ascii c!"VALUE" (by decide) (by decide) (by decide) (by decide) (by decide)).name
      ⟨by decide, markerFree_of_noLf (by decide)⟩, .inr (oneLine_noLf (fmtDate_noLf d))⟩
  | dateTime t =>
    cases t with
    | floating t => exact ⟨hk, paramsOk_nil, .inr (oneLine_noLf (fmtDateTime_noLf t))⟩
    | utc t => exact ⟨hk, paramsOk_nil, .inr (oneLine_noLf (fmtUtc_noLf t))⟩
    | zoned t z =>
      exact ⟨hk, paramsOk_one (keyOk_ascii c!"TZID" (by decide) (by decide) (by decide) (by decide) (by decide)).name hz,
        .inr (oneLine_noLf (fmtDateTime_noLf t))⟩

omit [Uni] in
theorem dateProperty_key (k : Str) (d : DatePerhapsTime) : (Call.dateProperty k d).key = k := by
  cases d with
  | date => rfl
  | dateTime x => cases x <;> rfl

/-- the effect of every call with proper arguments is well-formed -/
theorem call_ok {x : Call} (h : x.ArgsOk) :
    (∀ p ∈ x.sets, p.key ∉ repeatable ∧ PropOk p) ∧ (∀ p, x.appends = some p → p.key ∈ repeatable ∧ PropOk p) ∧
    (∀ o, x.adds = some o → OtherOk o) := by
  have K : ∀ s : Str, (∀ c ∈ s, c = '-' ∨ c = '_' ∨ (0x41 ≤ c.toNat ∧ c.toNat ≤ 0x5A)) → ¬ c!"END" <+: s → ¬ c!"BEGIN" <+: s →
      s.map lowerAscii ≠ c!"end" → s.map lowerAscii ≠ c!"begin" → KeyOk s := keyOk_ascii
  cases x with
  | appendProperty p => exact ⟨by simpa [Call.sets, Call.ArgsOk] using h, by simp [Call.appends], by simp [Call.adds]⟩
  | addProperty k v => exact ⟨by simpa [Call.sets, Call.ArgsOk] using h, by simp [Call.appends], by simp [Call.adds]⟩
  | appendMultiProperty p =>
    exact ⟨by simp [Call.sets], by simp only [Call.appends, Option.some.injEq]; rintro _ rfl; exact h, by simp [Call.adds]⟩
  | addMultiProperty k v =>
    exact ⟨by simp [Call.sets], by simp only [Call.appends, Option.some.injEq]; rintro _ rfl; exact h, by simp [Call.adds]⟩
  | appendComponent o =>
    exact ⟨by simp [Call.sets], by simp [Call.appends], by simp only [Call.adds, Option.some.injEq]; rintro _ rfl; exact h⟩
  | alarm a =>
    exact ⟨by simp [Call.sets], by simp [Call.appends], by simp only [Call.adds, Option.some.injEq]; rintro _ rfl; exact h⟩
  | allDay d =>
    refine ⟨?_, by simp [Call.appends], by simp [Call.adds]⟩
    simp only [Call.sets, List.mem_cons, List.not_mem_nil, or_false]
    rintro p (rfl | rfl)
    · exact ⟨by rw [dateProperty_key]; decide, propOk_date (K _ (by decide) (by decide) (by decide) (by decide) (by decide)) trivial⟩
    · exact ⟨by rw [dateProperty_key]; decide, propOk_date (K _ (by decide) (by decide) (by decide) (by decide) (by decide)) trivial⟩
  | starts d =>
    refine ⟨?_, by simp [Call.appends], by simp [Call.adds]⟩
    simp only [Call.sets, List.mem_singleton]
    rintro p rfl
    exact ⟨by rw [dateProperty_key]; decide, propOk_date (K _ (by decide) (by decide) (by decide) (by decide) (by decide)) h⟩
  | ends d =>
    refine ⟨?_, by simp [Call.appends], by simp [Call.adds]⟩
    simp only [Call.sets, List.mem_singleton]
    rintro p rfl
    exact ⟨by rw [dateProperty_key]; decide, propOk_date (K _ (by decide) (by decide) (by decide) (by decide) (by decide)) h⟩
  | venue l u =>
    refine ⟨?_, by simp [Call.appends], by simp [Call.adds]⟩
    simp only [Call.sets, List.mem_singleton]
    rintro p rfl
    refine ⟨by dsimp only; decide, K c!"LOCATION" (by decide) (by decide) (by decide) (by decide) (by decide),
      paramsOk_one (K c!"VVENUE" (by decide) (by decide) (by decide) (by decide) (by decide)).name h,
      .inl (show c!"LOCATION" ∈ textNames by decide)⟩
  | url s =>
    refine ⟨?_, by simp [Call.appends], by simp [Call.adds]⟩
    simp only [Call.sets, List.mem_singleton]
    rintro p rfl
    exact ⟨by dsimp only; decide, propOk_line (K _ (by decide) (by decide) (by decide) (by decide) (by decide)) h⟩
  | timestamp t | lastModified t | created t =>
    refine ⟨?_, by simp [Call.appends], by simp [Call.adds]⟩
    simp only [Call.sets, List.mem_singleton]
    rintro p rfl
    exact ⟨by dsimp only; decide, propOk_line (K _ (by decide) (by decide) (by decide) (by decide) (by decide)) (oneLine_noLf (fmtUtc_noLf t))⟩
  | priority n | sequence n =>
    refine ⟨?_, by simp [Call.appends], by simp [Call.adds]⟩
    simp only [Call.sets, List.mem_singleton]
    rintro p rfl
    exact ⟨by dsimp only; decide, propOk_line (K _ (by decide) (by decide) (by decide) (by decide) (by decide)) (oneLine_noLf (natToStr_noLf _))⟩
  | summary s | description s | uid s | class_ s | location s =>
    refine ⟨?_, by simp [Call.appends], by simp [Call.adds]⟩
    simp only [Call.sets, List.mem_singleton]
    rintro p rfl
    exact ⟨by dsimp only; decide, propOk_text (K _ (by decide) (by decide) (by decide) (by decide) (by decide)) (by decide)⟩

theorem good_run {C : Type} [Component C] {c : C} (hc : Good (Component.inner c)) {x : Call} (hx : x.ArgsOk) :
    Good (Component.inner (x.run c)) := by
  obtain ⟨h1, h2, h3⟩ := call_ok hx
  rw [inner_run]
  have hsets : ∀ (l : List Property) (i : Inner), Good i → (∀ p ∈ l, p.key ∉ repeatable ∧ PropOk p) →
      Good { i with props := l.foldl (fun m p => m.insert p.key p) i.props } := by
    intro l
    induction l with
    | nil => intro i hi _; exact hi
    | cons p l ih =>
      intro i hi hl
      exact ih (i.appendProperty p) (good_append hi (hl p (by simp)).1 (hl p (by simp)).2) (fun q hq => hl q (by simp [hq]))
  have g1 := hsets _ _ hc h1
  have g2 : Good { props := x.sets.foldl (fun m p => m.insert p.key p) (Component.inner c).props
                   multi := match x.appends with
                     | some p => ((Component.inner c).insertMulti p).multi
                     | none => (Component.inner c).multi
                   comps := (Component.inner c).comps } := by
    cases ha : x.appends with
    | none => exact g1
    | some p => exact good_insertMulti g1 (h2 p ha).1 (h2 p ha).2
  refine ⟨g2.inner, ?_⟩
  simp only
  cases hadd : x.adds with
  | none => simpa using hc.comps
  | some o => exact othersOk_append.2 ⟨hc.comps, h3 o hadd, trivial⟩

theorem good_runs {C : Type} [Component C] {c : C} (hc : Good (Component.inner c)) {calls : List Call}
    (h : ∀ x ∈ calls, x.ArgsOk) : Good (Component.inner (calls.foldl Call.run c)) := by
  induction calls generalizing c with
  | nil => exact hc
  | cons x calls ih => exact ih (good_run hc (h x (by simp))) (fun y hy => h y (by simp [hy]))

/-- **C59.** Whatever calls are made on a new event, to-do or venue, the result is well-formed. -/
theorem built_component_ok (calls : List Call) (h : ∀ x ∈ calls, x.ArgsOk) :
    CalCompOk (.event (calls.foldl Call.run Event.new)) ∧
    CalCompOk (.todo (calls.foldl Call.run Todo.new)) ∧
    CalCompOk (.venue (calls.foldl Call.run Venue.new)) := by
  have key : ∀ {C : Type} [Component C] (c : C) (n : Str), Component.inner c = Inner.empty → IsName n →
      OtherOk (.mk n (Component.inner (calls.foldl Call.run c)).props (Component.inner (calls.foldl Call.run c)).multi
        (Component.inner (calls.foldl Call.run c)).comps) := by
    intro C _ c n hc hn
    have := good_runs (c := c) (by rw [hc]; exact good_empty) h
    exact ⟨hn, this.inner, this.comps⟩
  exact ⟨key Event.new _ rfl (isName_upper _ (by decide)), key Todo.new _ rfl (isName_upper _ (by decide)),
    key Venue.new _ rfl (isName_upper _ (by decide))⟩

/-- **C59.** The calls particular to events, to-dos and venues have proper arguments, if a venue's texts fit on
a line. -/
theorem specific_args_ok (s : EventStatus) (s' : TodoStatus) (n : Nat) (d : DatePerhapsTime) (hd : ZoneOk d) (u : UtcDateTime)
    (t : Str) (ht : OneLineText t) :
    (EventCall.status s).generic.ArgsOk ∧ (TodoCall.status s').generic.ArgsOk ∧ (TodoCall.percentComplete n).generic.ArgsOk ∧
    (TodoCall.due d).generic.ArgsOk ∧ (TodoCall.completed u).generic.ArgsOk ∧
    (VenueCall.streetAddress t).generic.ArgsOk ∧ (VenueCall.extendedAddress t).generic.ArgsOk ∧
    (VenueCall.locality t).generic.ArgsOk ∧ (VenueCall.region t).generic.ArgsOk ∧ (VenueCall.country t).generic.ArgsOk ∧
    (VenueCall.postalCode t).generic.ArgsOk := by
  have K : ∀ s : Str, (∀ c ∈ s, c = '-' ∨ c = '_' ∨ (0x41 ≤ c.toNat ∧ c.toNat ≤ 0x5A)) → ¬ c!"END" <+: s → ¬ c!"BEGIN" <+: s →
      s.map lowerAscii ≠ c!"end" → s.map lowerAscii ≠ c!"begin" → KeyOk s := keyOk_ascii
  refine ⟨?_, ?_, ?_, ?_, ?_, ?_, ?_, ?_, ?_, ?_, ?_⟩
  · cases s <;>
      exact ⟨by decide, propOk_text (K _ (by decide) (by decide) (by decide) (by decide) (by decide)) (by decide)⟩
  · cases s' <;>
      exact ⟨by decide, propOk_text (K _ (by decide) (by decide) (by decide) (by decide) (by decide)) (by decide)⟩
  · exact ⟨by decide, propOk_line (K _ (by decide) (by decide) (by decide) (by decide) (by decide)) (oneLine_noLf (natToStr_noLf n))⟩
  · exact ⟨by rw [dateProperty_key]; decide, propOk_date (K _ (by decide) (by decide) (by decide) (by decide) (by decide)) hd⟩
  · exact ⟨by decide, propOk_line (K _ (by decide) (by decide) (by decide) (by decide) (by decide)) (oneLine_noLf (fmtUtc_noLf u))⟩
  all_goals exact ⟨by decide, propOk_line (K _ (by decide) (by decide) (by decide) (by decide) (by decide)) ht⟩

omit [Uni] in
theorem duration_noLf (d : Duration) : '\n' ∉ d.toStr := by
  have hf : ∀ n m, '\n' ∉ fracDigits n m := by
    intro n
    induction n with
    | zero => intro m; simp [fracDigits]
    | succ n ih =>
      intro m
      unfold fracDigits
      split
      · exact ih _
      · simp only [List.mem_append, not_or]
        refine ⟨?_, natToStr_noLf m⟩
        intro hc
        exact absurd (List.eq_of_mem_replicate hc) (by decide)
  unfold Duration.toStr
  simp only
  split
  · split <;> simp
  · simp only [List.mem_append, not_or]
    refine ⟨⟨⟨⟨?_, by decide⟩, natToStr_noLf _⟩, ?_⟩, by decide⟩
    · split <;> simp
    · split
      · simp
      · simp [hf]

theorem trigger_ok {t : Trigger} (h : TriggerOk t) : t.toProperty.key ∉ repeatable ∧ PropOk t.toProperty := by
  have K : ∀ s : Str, (∀ c ∈ s, c = '-' ∨ c = '_' ∨ (0x41 ≤ c.toNat ∧ c.toNat ≤ 0x5A)) → ¬ c!"END" <+: s → ¬ c!"BEGIN" <+: s →
      s.map lowerAscii ≠ c!"end" → s.map lowerAscii ≠ c!"begin" → KeyOk s := keyOk_ascii
  have kt : KeyOk c!"TRIGGER" := K _ (by decide) (by decide) (by decide) (by decide) (by decide)
  have kv : KeyOk c!"VALUE" := K _ (by decide) (by decide) (by decide) (by decide) (by decide)
  have pv : ParamText c!"DATE-TIME" := ⟨by decide, markerFree_of_noLf (by decide)⟩
  cases t with
  | duration d r =>
    cases r with
    | none => exact ⟨by dsimp only [Trigger.toProperty, Property.new]; decide, propOk_line kt (oneLine_noLf (duration_noLf d))⟩
    | some r =>
      refine ⟨by dsimp only [Trigger.toProperty, Property.new, Property.addParameter]; decide, kt,
        paramsOk_one (k := c!"RELATED") (v := r.toStr) (K _ (by decide) (by decide) (by decide) (by decide) (by decide)).name ?_,
        .inr (oneLine_noLf (duration_noLf d))⟩
      cases r <;> exact ⟨by decide, markerFree_of_noLf (by decide)⟩
  | dateTime t =>
    cases t with
    | floating t => exact ⟨by dsimp only [Trigger.toProperty, CalDateTime.toProperty, Property.new, Property.addParameter]; decide,
        kt, paramsOk_one kv.name pv, .inr (oneLine_noLf (fmtDateTime_noLf t))⟩
    | utc t => exact ⟨by dsimp only [Trigger.toProperty, CalDateTime.toProperty, Property.new, Property.addParameter]; decide,
        kt, paramsOk_one kv.name pv, .inr (oneLine_noLf (fmtUtc_noLf t))⟩
    | zoned t z => exact ⟨by dsimp only [Trigger.toProperty, CalDateTime.toProperty, Property.new, Property.addParameter]; decide,
        kt, paramsOk_two (k := c!"TZID") (by decide) (K _ (by decide) (by decide) (by decide) (by decide) (by decide)).name h kv.name pv,
        .inr (oneLine_noLf (fmtDateTime_noLf t))⟩

/-- **C59.** Alarms made by the constructors, with any further calls, are well-formed. -/
theorem built_alarm_ok (t : Trigger) (ht : TriggerOk t) (desc : Str) (a : Alarm) (ha : (Call.alarm a).ArgsOk) (calls : List Call)
    (h : ∀ x ∈ calls, x.ArgsOk) (d : Duration) (n : Nat) :
    (Call.alarm (Alarm.audio t)).ArgsOk ∧ (Call.alarm (Alarm.display desc t)).ArgsOk ∧
    (Call.alarm (a.durationAndRepeat d n)).ArgsOk ∧ (Call.alarm (calls.foldl Call.run a)).ArgsOk := by
  have K : ∀ s : Str, (∀ c ∈ s, c = '-' ∨ c = '_' ∨ (0x41 ≤ c.toNat ∧ c.toNat ≤ 0x5A)) → ¬ c!"END" <+: s → ¬ c!"BEGIN" <+: s →
      s.map lowerAscii ≠ c!"end" → s.map lowerAscii ≠ c!"begin" → KeyOk s := keyOk_ascii
  have hn : IsName c!"VALARM" := isName_upper _ (by decide)
  have key : ∀ b : Alarm, Good b.inner → (Call.alarm b).ArgsOk := fun b hb => ⟨hn, hb.inner, hb.comps⟩
  have ga : Good a.inner := ⟨ha.2.1, ha.2.2⟩
  have hact : ∀ b : Action, b = .audio ∨ b = .display → b.toProperty.key ∉ repeatable ∧ PropOk b.toProperty := by
    intro b _
    exact ⟨by dsimp only [Action.toProperty, Property.new]; decide,
      propOk_text (K c!"ACTION" (by decide) (by decide) (by decide) (by decide) (by decide)) (by decide)⟩
  have htr := trigger_ok ht
  refine ⟨key _ ?_, key _ ?_, key _ ?_, key _ ?_⟩
  · exact good_append (good_append good_empty (hact _ (.inl rfl)).1 (hact _ (.inl rfl)).2) htr.1 htr.2
  · exact good_append (good_append (good_append good_empty (hact _ (.inr rfl)).1 (hact _ (.inr rfl)).2) htr.1 htr.2)
      (p := ⟨c!"DESCRIPTION", desc, []⟩) (by dsimp only; decide)
      (propOk_text (K _ (by decide) (by decide) (by decide) (by decide) (by decide)) (by decide))
  · refine good_append (good_append ga ?_ ?_) ?_ ?_
    · dsimp only [Duration.toProperty, Property.new]; decide
    · exact propOk_line (K c!"DURATION" (by decide) (by decide) (by decide) (by decide) (by decide)) (oneLine_noLf (duration_noLf d))
    · dsimp only [repeatToProperty, Property.new]; decide
    · exact propOk_line (K c!"REPEAT" (by decide) (by decide) (by decide) (by decide) (by decide)) (oneLine_noLf (natToStr_noLf n))
  · exact good_runs (c := a) ga h

/-- **C59.** Whatever calls are made on a new or empty calendar, the result is well-formed. -/
theorem built_calendar_ok (c : Calendar) (hc : c = Calendar.new ∨ c = Calendar.empty) (calls : List CalCall)
    (h : ∀ x ∈ calls, x.ArgsOk) : CalendarOk (calls.foldl CalCall.run c) := by
  have K : ∀ s : Str, (∀ c ∈ s, c = '-' ∨ c = '_' ∨ (0x41 ≤ c.toNat ∧ c.toNat ≤ 0x5A)) → ¬ c!"END" <+: s → ¬ c!"BEGIN" <+: s →
      s.map lowerAscii ≠ c!"end" → s.map lowerAscii ≠ c!"begin" → KeyOk s := keyOk_ascii
  obtain ⟨h1, h2⟩ := calendar_history c calls
  constructor
  · rw [h2]
    intro p hp
    rcases List.mem_append.1 hp with hp | hp
    · rcases hc with rfl | rfl
      · simp only [Calendar.new, List.mem_cons, List.not_mem_nil, or_false] at hp
        rcases hp with rfl | rfl | rfl <;>
          exact propOk_text (K _ (by decide) (by decide) (by decide) (by decide) (by decide)) (by decide)
      · simp [Calendar.empty] at hp
    · obtain ⟨x, hx, hp⟩ := List.mem_flatMap.1 hp
      have hx := h x hx
      cases x with
      | push | extend | append => simp [CalCall.props] at hp
      | appendProperty p => obtain rfl := List.mem_singleton.1 hp; exact hx
      | name s =>
        simp only [CalCall.props, List.mem_cons, List.not_mem_nil, or_false] at hp
        rcases hp with rfl | rfl <;>
          exact propOk_line (K _ (by decide) (by decide) (by decide) (by decide) (by decide)) hx
      | description s =>
        simp only [CalCall.props, List.mem_cons, List.not_mem_nil, or_false] at hp
        rcases hp with rfl | rfl <;>
          exact propOk_line (K _ (by decide) (by decide) (by decide) (by decide) (by decide)) hx
      | timezone s =>
        simp only [CalCall.props, List.mem_cons, List.not_mem_nil, or_false] at hp
        rcases hp with rfl | rfl <;>
          exact propOk_line (K _ (by decide) (by decide) (by decide) (by decide) (by decide)) hx
      | ttl d =>
        simp only [CalCall.props, List.mem_cons, List.not_mem_nil, or_false] at hp
        rcases hp with rfl | rfl
        · exact ⟨K c!"REFRESH-INTERVAL" (by decide) (by decide) (by decide) (by decide) (by decide),
            paramsOk_one (K c!"VALUE" (by decide) (by decide) (by decide) (by decide) (by decide)).name
              ⟨by decide, markerFree_of_noLf (by decide)⟩, .inr (oneLine_noLf (duration_noLf d))⟩
        · exact propOk_line (K _ (by decide) (by decide) (by decide) (by decide) (by decide)) (oneLine_noLf (duration_noLf d))
  · rw [h1]
    intro x hx
    rcases List.mem_append.1 hx with hx | hx
    · rcases hc with rfl | rfl <;> simp [Calendar.new, Calendar.empty] at hx
    · obtain ⟨y, hy, hx⟩ := List.mem_flatMap.1 hx
      have hy := h y hy
      cases y with
      | push y => obtain rfl := List.mem_singleton.1 hx; exact hy
      | extend l => exact hy x hx
      | append o => exact hy x hx
      | _ => simp [CalCall.comps] at hx

omit [Uni] in
theorem othersSafe_append {a b : List Other} : OthersSafe (a ++ b) ↔ OthersSafe a ∧ OthersSafe b := by
  induction a with
  | nil => simp [OthersSafe]
  | cons o a ih => simp [OthersSafe, ih, and_assoc]

omit [Uni] in
/-- the texts of what is built are those that were given -/
theorem safe_runs {C : Type} [Component C] (n : Str) {c : C}
    (hc : OtherSafe (.mk n (Component.inner c).props (Component.inner c).multi (Component.inner c).comps)) {calls : List Call}
    (h : ∀ x ∈ calls, x.ArgsSafe) :
    OtherSafe (.mk n (Component.inner (calls.foldl Call.run c)).props (Component.inner (calls.foldl Call.run c)).multi
      (Component.inner (calls.foldl Call.run c)).comps) := by
  induction calls generalizing c with
  | nil => exact hc
  | cons x calls ih =>
    refine ih ?_ (fun y hy => h y (by simp [hy]))
    obtain ⟨h1, h2, h3⟩ := h x (by simp)
    rw [inner_run]
    obtain ⟨s1, s2, s3⟩ := hc
    refine ⟨?_, ?_, ?_⟩
    · have : ∀ (l : List Property) (m : BMap Property), (∀ p ∈ l, ValueSafe p) → (∀ y ∈ m, ValueSafe y.2) →
          ∀ y ∈ l.foldl (fun m p => m.insert p.key p) m, ValueSafe y.2 := by
        intro l
        induction l with
        | nil => intro m _ hm; exact hm
        | cons p l ih =>
          intro m hl hm
          refine ih _ (fun q hq => hl q (by simp [hq])) ?_
          intro y hy
          rcases BMap.mem_insert hy with rfl | hy
          · exact hl p (by simp)
          · exact hm y hy
      exact this _ _ h1 s1
    · cases ha : x.appends with
      | none => exact s2
      | some p =>
        have hp := h2 p ha
        unfold Inner.insertMulti
        simp only
        split
        · rename_i v hv
          have hm := BMap.get_mem hv
          intro y hy
          rcases BMap.mem_insert hy with rfl | hy
          · intro q hq
            rcases List.mem_append.1 hq with hq | hq
            · exact s2 _ hm q hq
            · rw [List.mem_singleton.1 hq]; exact hp
          · exact s2 y hy
        · intro y hy
          rcases BMap.mem_insert hy with rfl | hy
          · intro q hq
            rw [List.mem_singleton.1 hq]; exact hp
          · exact s2 y hy
    · simp only
      cases hadd : x.adds with
      | none => simpa using s3
      | some o => exact othersSafe_append.2 ⟨s3, h3 o hadd, trivial⟩

/-- **C59.** Calendars of events built by any calls: what is read back is the calendar, with DTSTAMP and UID
generated where none was set. -/
theorem built_roundtrip (calls : List CalCall) (h : ∀ x ∈ calls, x.ArgsOk) (hs : ∀ x ∈ calls, x.ArgsSafe)
    (w : World) (hw : World.Ok w) (out : Str) (hout : (calls.foldl CalCall.run Calendar.new).fmtWrite w = .ok out) :
    ∃ c', Calendar.fromStr out = some c' ∧ CalStamped (calls.foldl CalCall.run Calendar.new) c' := by
  refine missing_stamps _ (built_calendar_ok _ (.inl rfl) calls h) ?_ w hw out hout
  obtain ⟨h1, h2⟩ := calendar_history Calendar.new calls
  constructor
  · rw [h2]
    intro p hp
    rcases List.mem_append.1 hp with hp | hp
    · simp only [Calendar.new, List.mem_cons, List.not_mem_nil, or_false] at hp
      rcases hp with rfl | rfl | rfl <;> (intro _; simp only [Property.new]; decide)
    · obtain ⟨x, hx, hp⟩ := List.mem_flatMap.1 hp
      exact (hs x hx).1 p hp
  · rw [h1]
    intro y hy
    rcases List.mem_append.1 hy with hy | hy
    · simp [Calendar.new] at hy
    · obtain ⟨x, hx, hy⟩ := List.mem_flatMap.1 hy
      exact (hs x hx).2 y hy

/-- **C59.** A calendar of any number of events, each made by any calls. -/
theorem built_events_roundtrip (events : List (List Call)) (h : ∀ calls ∈ events, ∀ x ∈ calls, x.ArgsOk)
    (hs : ∀ calls ∈ events, ∀ x ∈ calls, x.ArgsSafe) (w : World) (hw : World.Ok w) (out : Str)
    (hout : (Calendar.new.extend (events.map fun calls => .event (calls.foldl Call.run Event.new))).fmtWrite w = .ok out) :
    ∃ c', Calendar.fromStr out = some c' ∧
      CalStamped (Calendar.new.extend (events.map fun calls => .event (calls.foldl Call.run Event.new))) c' := by
  refine built_roundtrip [.extend (events.map fun calls : List Call => CalComp.event (calls.foldl Call.run Event.new))]
    ?_ ?_ w hw out hout
  · simp only [List.mem_singleton]
    rintro _ rfl x hx
    obtain ⟨calls, hc, rfl⟩ := List.mem_map.1 hx
    exact (built_component_ok calls (h calls hc)).1
  · simp only [List.mem_singleton]
    rintro _ rfl
    refine ⟨by simp [CalCall.props], ?_⟩
    intro x hx
    obtain ⟨calls, hc, rfl⟩ := List.mem_map.1 hx
    exact safe_runs c!"VEVENT" (c := Event.new) ⟨by simp [Event.new, Component.inner, Inner.empty],
      by simp [Event.new, Component.inner, Inner.empty], trivial⟩ (hs calls hc)

end Ical

namespace Ical

open Nom Spec

/-- the theorem applies to an event with hostile texts, an alarm and attendees -/
example : ∀ x ∈ [Call.summary c!"a\r\nEND:VEVENT;b,c", .uid c!"x y", .priority 99, .url c!"http://x/;y:z",
      .starts (.dateTime (.zoned ⟨⟨2026, 1, 1⟩, 1, 2, 3, 0⟩ c!"Europe/Berlin")),
      .appendMultiProperty ⟨c!"ATTENDEE", c!"mailto:x", [(c!"CN", c!"A;B")]⟩,
      .alarm (Alarm.display c!"d" (Trigger.beforeStart ⟨60000000000⟩))],
    @Call.ArgsOk Uni.ascii x := by
  have ht : @TriggerOk (Trigger.beforeStart ⟨60000000000⟩) := trivial
  intro x hx
  simp only [List.mem_cons, List.not_mem_nil, or_false] at hx
  rcases hx with rfl | rfl | rfl | rfl | rfl | rfl | rfl
  · trivial
  · trivial
  · trivial
  · exact oneLine_noLf (by decide)
  · exact ⟨by decide, markerFree_of_noLf (by decide)⟩
  · exact ⟨by decide, by decide +kernel⟩
  · exact (@built_alarm_ok Uni.ascii _ ht c!"d" ⟨.empty⟩ 
      ⟨by decide +kernel, @Good.inner Uni.ascii _ (@good_empty Uni.ascii), @Good.comps Uni.ascii _ (@good_empty Uni.ascii)⟩ [] (by simp) ⟨0⟩ 0).2.1

end Ical
