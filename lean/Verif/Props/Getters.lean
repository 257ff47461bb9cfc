import Verif.Props.Writes

/-!
C55 (through text), C61: what the getters return does not change when a calendar is written and read.
-/

namespace Ical

open Nom Spec

/-- two maps in order with the same entries below a key have the same value there -/
theorem get_congr {m m' : BMap Property} {k : Str} (hm : InOrder m) (hm' : InOrder m')
    (h : ∀ p, (k, p) ∈ m' ↔ (k, p) ∈ m) : BMap.get k m' = BMap.get k m := by
  cases hg : BMap.get k m with
  | some p => exact BMap.get_of_mem hm' ((h p).2 (BMap.get_mem hg))
  | none =>
    cases hg' : BMap.get k m' with
    | none => rfl
    | some p =>
      have := BMap.get_of_mem hm ((h p).1 (BMap.get_mem hg'))
      rw [hg] at this
      cases this

theorem added_get {k k' : Str} {p : Property} {m m' : BMap Property} (hm : InOrder m) (h : AddedIfMissing k p m m')
    (hk : k' ≠ k ∨ (BMap.get k m).isSome) : BMap.get k' m' = BMap.get k' m := by
  obtain ⟨h1, h2⟩ := h
  split at h2
  · rw [h2]
  · rename_i hn
    rcases hk with hk | hk
    · apply get_congr hm h1
      intro q
      rw [h2]
      constructor
      · rintro (h | h)
        · exact absurd (congrArg Prod.fst h) hk
        · exact h
      · exact .inr
    · obtain ⟨q, hq⟩ := Option.isSome_iff_exists.1 hk
      exact absurd ⟨_, BMap.get_mem hq, rfl⟩ hn

/-- what is looked up in a component read back -/
theorem stamped_get {o o' : Other} (h : Stamped o o') (ho : InOrder o.inner.props) (k : Str)
    (h1 : k ≠ c!"DTSTAMP" ∨ (BMap.get k o.inner.props).isSome) (h2 : k ≠ c!"UID" ∨ (BMap.get k o.inner.props).isSome) :
    BMap.get k o'.inner.props = BMap.get k o.inner.props := by
  cases h with
  | mk hn hu a1 a2 hc =>
    simp only [Other.inner] at *
    have e1 : BMap.get k _ = BMap.get k _ := added_get ho a1 (by
      rcases h1 with h1 | h1
      · exact .inl h1
      · by_cases hk : k = c!"DTSTAMP"
        · subst hk; exact .inr h1
        · exact .inl hk)
    rw [← e1]
    refine added_get a1.1 a2 ?_
    rcases h2 with h2 | h2
    · exact .inl h2
    · by_cases hk : k = c!"UID"
      · subst hk
        rw [e1]
        exact .inr h2
      · exact .inl hk

theorem stamped_rest {o o' : Other} (h : Stamped o o') : o'.name = o.name ∧ o'.inner.multi = o.inner.multi := by
  cases h with
  | mk => exact ⟨rfl, rfl⟩

variable [Uni]

theorem calCompOk_inOrder {x : CalComp} (h : CalCompOk x) : InOrder x.toOther.inner.props := by
  have := calCompOk_other h
  generalize x.toOther = o at *
  obtain ⟨n, p, m, c⟩ := o
  exact this.2.1.inOrder

/-- **C61.** Every calendar getter, and every lookup of a property in a component, gives the same before and
after; only a DTSTAMP or UID that was not set differs. -/
theorem getters_survive [Iso8601] (c : Calendar) (hc : CalendarOk c) (hs : CalendarSafe c) (w : World) (hw : World.Ok w)
    (out : Str) (h : c.fmtWrite w = .ok out) :
    ∃ c', Calendar.fromStr out = some c' ∧
      c'.getName = c.getName ∧ c'.getDescription = c.getDescription ∧ c'.getTimezone = c.getTimezone ∧
      c'.getTtl = c.getTtl ∧ (∀ k, c'.propertyValue k = c.propertyValue k) ∧
      c'.comps.length = c.comps.length ∧
      ∀ (i : Nat) x x', c.comps[i]? = some x → c'.comps[i]? = some x' →
        SameKind x x' ∧ x'.toOther.name = x.toOther.name ∧
        (∀ k, k ≠ c!"DTSTAMP" → k ≠ c!"UID" → BMap.get k x'.toOther.inner.props = BMap.get k x.toOther.inner.props) ∧
        (∀ k p, BMap.get k x.toOther.inner.props = some p → BMap.get k x'.toOther.inner.props = some p) ∧
        x'.toOther.inner.multi = x.toOther.inner.multi := by
  obtain ⟨c', h1, h2⟩ := missing_stamps c hc hs w hw out h
  have hp := h2.props
  refine ⟨c', h1, ?_, ?_, ?_, ?_, ?_, h2.length, ?_⟩
  · unfold Calendar.getName Calendar.propertyValue; rw [hp]
  · unfold Calendar.getDescription Calendar.propertyValue; rw [hp]
  · unfold Calendar.getTimezone Calendar.propertyValue; rw [hp]
  · unfold Calendar.getTtl Calendar.propertyValue; rw [hp]
  · intro k; unfold Calendar.propertyValue; rw [hp]
  · intro i x x' hx hx'
    obtain ⟨hk, hst⟩ := h2.comps i x x' hx hx'
    have ho := calCompOk_inOrder (hc.comps x (List.mem_of_getElem? hx))
    refine ⟨hk, (stamped_rest hst).1, ?_, ?_, (stamped_rest hst).2⟩
    · intro k k1 k2
      exact stamped_get hst ho k (.inl k1) (.inl k2)
    · intro k p hp
      rw [stamped_get hst ho k (.inr (by rw [hp]; rfl)) (.inr (by rw [hp]; rfl)), hp]

omit [Uni] in
/-- the values found below the names in a component read back -/
theorem values_survive {C : Type} [Component C] {e e' : C} {n n' : Str}
    (h : Stamped (.mk n (Component.inner e).props (Component.inner e).multi (Component.inner e).comps)
      (.mk n' (Component.inner e').props (Component.inner e').multi (Component.inner e').comps))
    (ho : InOrder (Component.inner e).props) :
    (∀ k, k ≠ c!"DTSTAMP" → k ≠ c!"UID" → BMap.get k (Component.properties e') = BMap.get k (Component.properties e)) ∧
    (∀ k, k ≠ c!"DTSTAMP" → k ≠ c!"UID" → Component.propertyValue e' k = Component.propertyValue e k) ∧
    (∀ k s, Component.propertyValue e k = some s → Component.propertyValue e' k = some s) := by
  have g : ∀ k, k ≠ c!"DTSTAMP" → k ≠ c!"UID" → BMap.get k (Component.properties e') = BMap.get k (Component.properties e) :=
    fun k k1 k2 => stamped_get h ho k (.inl k1) (.inl k2)
  refine ⟨g, ?_, ?_⟩
  · intro k k1 k2
    unfold Component.propertyValue
    rw [g k k1 k2]
  · intro k s hs
    unfold Component.propertyValue at *
    cases hg : BMap.get k (Component.properties e) with
    | none => rw [hg] at hs; cases hs
    | some p =>
      have : BMap.get k (Component.properties e') = BMap.get k (Component.properties e) :=
        stamped_get h ho k (.inr (Option.isSome_iff_exists.2 ⟨p, hg⟩)) (.inr (Option.isSome_iff_exists.2 ⟨p, hg⟩))
      rw [this, ← hs]

/-- the component read back in the place of another -/
theorem comp_survives (c : Calendar) (hc : CalendarOk c) (hs : CalendarSafe c) (w : World) (hw : World.Ok w)
    (out : Str) (h : c.fmtWrite w = .ok out) (i : Nat) (x : CalComp) (hi : c.comps[i]? = some x) :
    ∃ c' x', Calendar.fromStr out = some c' ∧ c'.comps[i]? = some x' ∧ SameKind x x' ∧ Stamped x.toOther x'.toOther ∧
      InOrder x.toOther.inner.props := by
  obtain ⟨c', h1, h2⟩ := missing_stamps c hc hs w hw out h
  have hlen := h2.length
  obtain ⟨x', hx'⟩ : ∃ x', c'.comps[i]? = some x' := by
    have := (List.getElem?_eq_some_iff.1 hi).1
    exact ⟨_, List.getElem?_eq_getElem (hlen ▸ this)⟩
  obtain ⟨hk, hst⟩ := h2.comps i _ x' hi hx'
  exact ⟨c', x', h1, hx', hk, hst, calCompOk_inOrder (hc.comps _ (List.mem_of_getElem? hi))⟩

namespace Spec

/-- The getters every component has, on two components. -/
structure SameGetters {C : Type} [Component C] (e e' : C) : Prop where
  start : Component.getStart e' = Component.getStart e
  fin : Component.getEnd e' = Component.getEnd e
  summary : Component.getSummary e' = Component.getSummary e
  description : Component.getDescription e' = Component.getDescription e
  location : Component.getLocation e' = Component.getLocation e
  url : Component.getUrl e' = Component.getUrl e
  priority : Component.getPriority e' = Component.getPriority e
  sequence : Component.getSequence e' = Component.getSequence e
  klass : Component.getClass e' = Component.getClass e
  created : Component.getCreated e' = Component.getCreated e
  lastModified : Component.getLastModified e' = Component.getLastModified e
  uid : ∀ u, Component.getUid e = some u → Component.getUid e' = some u
  timestamp : ∀ t, Component.getTimestamp e = some t → Component.getTimestamp e' = some t

end Spec

theorem sameGetters {C : Type} [Component C] {e e' : C}
    (h : (∀ k, k ≠ c!"DTSTAMP" → k ≠ c!"UID" → BMap.get k (Component.properties e') = BMap.get k (Component.properties e)) ∧
    (∀ k, k ≠ c!"DTSTAMP" → k ≠ c!"UID" → Component.propertyValue e' k = Component.propertyValue e k) ∧
    (∀ k s, Component.propertyValue e k = some s → Component.propertyValue e' k = some s)) : SameGetters e e' := by
  obtain ⟨g, v, v2⟩ := h
  refine ⟨?_, ?_, v _ (by decide) (by decide), v _ (by decide) (by decide), v _ (by decide) (by decide),
    v _ (by decide) (by decide), ?_, ?_, ?_, ?_, ?_, fun u hu => v2 _ u hu, ?_⟩
  · unfold Component.getStart; rw [g _ (by decide) (by decide)]
  · unfold Component.getEnd; rw [g _ (by decide) (by decide)]
  · unfold Component.getPriority; rw [v _ (by decide) (by decide)]
  · unfold Component.getSequence; rw [v _ (by decide) (by decide)]
  · unfold Component.getClass; rw [v _ (by decide) (by decide)]
  · unfold Component.getCreated; rw [v _ (by decide) (by decide)]
  · unfold Component.getLastModified; rw [v _ (by decide) (by decide)]
  · intro t ht
    unfold Component.getTimestamp at *
    cases hp : Component.propertyValue e c!"DTSTAMP" with
    | none => rw [hp] at ht; cases ht
    | some s => rw [v2 _ s hp, ← ht, hp]

/-- **C61.** The typed getters of an event. -/
theorem event_getters_survive (c : Calendar) (hc : CalendarOk c) (hs : CalendarSafe c) (w : World) (hw : World.Ok w)
    (out : Str) (h : c.fmtWrite w = .ok out) (i : Nat) (e : Event) (hi : c.comps[i]? = some (.event e)) :
    ∃ c' e', Calendar.fromStr out = some c' ∧ c'.comps[i]? = some (.event e') ∧
      SameGetters e e' ∧ e'.getStatus = e.getStatus := by
  obtain ⟨c', x', h1, hx', hk, hst, ho⟩ := comp_survives c hc hs w hw out h i _ hi
  cases x' with
  | event e' =>
    have v := values_survive (e := e) (e' := e') hst ho
    refine ⟨c', e', h1, hx', sameGetters v, ?_⟩
    unfold Event.getStatus
    rw [v.2.1 _ (by decide) (by decide)]
  | _ => exact hk.elim

/-- **C61.** The typed getters of a to-do. -/
theorem todo_getters_survive (c : Calendar) (hc : CalendarOk c) (hs : CalendarSafe c) (w : World) (hw : World.Ok w)
    (out : Str) (h : c.fmtWrite w = .ok out) (i : Nat) (e : Todo) (hi : c.comps[i]? = some (.todo e)) :
    ∃ c' e', Calendar.fromStr out = some c' ∧ c'.comps[i]? = some (.todo e') ∧
      SameGetters e e' ∧ e'.getStatus = e.getStatus ∧ e'.getDue = e.getDue ∧ e'.getCompleted = e.getCompleted ∧
      e'.getPercentComplete = e.getPercentComplete := by
  obtain ⟨c', x', h1, hx', hk, hst, ho⟩ := comp_survives c hc hs w hw out h i _ hi
  cases x' with
  | todo e' =>
    have v := values_survive (e := e) (e' := e') hst ho
    refine ⟨c', e', h1, hx', sameGetters v, ?_, ?_, ?_, ?_⟩
    · unfold Todo.getStatus; rw [v.2.1 _ (by decide) (by decide)]
    · unfold Todo.getDue; rw [v.1 _ (by decide) (by decide)]
    · unfold Todo.getCompleted; rw [v.2.1 _ (by decide) (by decide)]
    · unfold Todo.getPercentComplete; rw [v.2.1 _ (by decide) (by decide)]
  | _ => exact hk.elim

/-- **C61.** The getters of a venue. -/
theorem venue_getters_survive (c : Calendar) (hc : CalendarOk c) (hs : CalendarSafe c) (w : World) (hw : World.Ok w)
    (out : Str) (h : c.fmtWrite w = .ok out) (i : Nat) (e : Venue) (hi : c.comps[i]? = some (.venue e)) :
    ∃ c' e', Calendar.fromStr out = some c' ∧ c'.comps[i]? = some (.venue e') ∧
      SameGetters e e' ∧ e'.getStreetAddress = e.getStreetAddress ∧ e'.getExtendedAddress = e.getExtendedAddress ∧
      e'.getLocality = e.getLocality ∧ e'.getRegion = e.getRegion ∧ e'.getCountry = e.getCountry ∧
      e'.getPostalCode = e.getPostalCode := by
  obtain ⟨c', x', h1, hx', hk, hst, ho⟩ := comp_survives c hc hs w hw out h i _ hi
  cases x' with
  | venue e' =>
    have v := values_survive (e := e) (e' := e') hst ho
    exact ⟨c', e', h1, hx', sameGetters v, v.2.1 _ (by decide) (by decide), v.2.1 _ (by decide) (by decide),
      v.2.1 _ (by decide) (by decide), v.2.1 _ (by decide) (by decide), v.2.1 _ (by decide) (by decide),
      v.2.1 _ (by decide) (by decide)⟩
  | _ => exact hk.elim

/-- **C55.** The refresh interval is read back from the text of the calendar. -/
theorem ttl_document [Iso8601] (c : Calendar) (hc : CalendarOk c) (hs : CalendarSafe c)
    (hr : c.propertyValue c!"REFRESH-INTERVAL" = none) (n : Nat) (hn : n < 4294967296) (w : World) (hw : World.Ok w)
    (out : Str) (h : (c.ttl ⟨n * 1000000000⟩).fmtWrite w = .ok out) :
    ∃ c', Calendar.fromStr out = some c' ∧ c'.getTtl = some ⟨n * 1000000000⟩ := by
  have ht := ttl_roundtrip c n hn [] hr
  generalize (⟨n * 1000000000⟩ : Duration) = d at h ht ⊢
  simp only [List.foldl_cons, List.foldl_nil, CalCall.run] at ht
  have e : (c.ttl d).props = c.props ++ (CalCall.ttl d).props ∧ (c.ttl d).comps = c.comps := by
    simp [Calendar.ttl, Calendar.appendProperty, CalCall.props, Property.new, Property.addParameter, BMap.insert]
  have hnew := built_calendar_ok Calendar.empty (.inr rfl) [.ttl d] (by simp [CalCall.ArgsOk])
  have hok : CalendarOk (c.ttl d) := by
    constructor
    · rw [e.1]
      intro p hp
      rcases List.mem_append.1 hp with hp | hp
      · exact hc.props p hp
      · refine hnew.props p ?_
        rw [(calendar_history _ _).2]
        simpa [Calendar.empty] using hp
    · rw [e.2]; exact hc.comps
  have hsafe : CalendarSafe (c.ttl d) := by
    constructor
    · rw [e.1]
      intro p hp
      rcases List.mem_append.1 hp with hp | hp
      · exact hs.props p hp
      · simp only [CalCall.props, List.mem_cons, List.not_mem_nil, or_false] at hp
        rcases hp with rfl | rfl
        · intro h
          exact absurd (show IsTextFor c!"REFRESH-INTERVAL" (some c!"DURATION") from h) (by decide)
        · intro h
          exact absurd (show IsTextFor c!"X-PUBLISHED-TTL" none from h) (by decide)
    · rw [e.2]; exact hs.comps
  obtain ⟨c', h1, -, -, -, h2, -⟩ := getters_survive _ hok hsafe w hw out h
  exact ⟨c', h1, h2.trans ht⟩

end Ical

namespace Ical

open Nom Spec

/-- The theorems apply to a calendar that is written, with an event whose summary holds line breaks; its summary
is a value the getter finds. -/
example : @CalendarOk Uni.ascii (Calendar.empty.push (.event (Component.summary Event.new c!"a\nEND:VEVENT"))) ∧
    CalendarSafe (Calendar.empty.push (.event (Component.summary Event.new c!"a\nEND:VEVENT"))) ∧
    Component.getSummary (Component.summary Event.new c!"a\nEND:VEVENT") = some c!"a\nEND:VEVENT" := by
  refine ⟨@built_calendar_ok Uni.ascii Calendar.empty (.inr rfl) [.push (.event (Component.summary Event.new c!"a\nEND:VEVENT"))]
      ?_, ?_, by decide⟩
  · simp only [List.mem_singleton]
    rintro _ rfl
    exact (@built_component_ok Uni.ascii [.summary c!"a\nEND:VEVENT"] (by simp [Call.ArgsOk])).1
  · refine @CalendarSafe.mk _ (by simp [Calendar.empty, Calendar.push]) ?_
    simp only [Calendar.empty, Calendar.push, List.nil_append, List.mem_singleton]
    rintro _ rfl
    exact @safe_runs _ _ c!"VEVENT" Event.new (by
      exact ⟨by simp [Event.new, Component.inner, Inner.empty], by simp [Event.new, Component.inner, Inner.empty], trivial⟩)
      [.summary c!"a\nEND:VEVENT"] (by
        simp [Call.ArgsSafe, Call.sets, Call.appends, Call.adds]
        intro _; dsimp only; decide)

end Ical
