import Verif.Spec.ZoneRefs
import Verif.Props.Builders
import Verif.Props.CallOrder
import Verif.Props.SayCalls
import Verif.Props.Roundtrip

/-!
C117: are the time zones a calendar refers to defined in it?
-/

namespace Ical

open Spec

theorem usesZone_iff {z name : Str} {props : BMap Property} {multi : BMap (List Property)} {comps : List Other} :
    UsesZone z (.mk name props multi comps) ↔ (∃ x ∈ props, zoneOf x.2 = some z) ∨
      (∃ x ∈ multi, ∃ p ∈ x.2, zoneOf p = some z) ∨ ∃ o ∈ comps, UsesZone z o := by
  constructor
  · rintro (⟨h1, h2⟩ | ⟨h1, h2, h3⟩ | ⟨h1, h2⟩)
    · exact .inl ⟨_, h1, h2⟩
    · exact .inr (.inl ⟨_, h1, _, h2, h3⟩)
    · exact .inr (.inr ⟨_, h1, h2⟩)
  · rintro (⟨x, h1, h2⟩ | ⟨x, h1, p, h2, h3⟩ | ⟨o, h1, h2⟩)
    · exact .own h1 h2
    · exact .multi h1 h2 h3
    · exact .sub h1 h2

theorem mem_multi_runs {C : Type} [Component C] (c : C) (h0 : Component.inner c = .empty) (calls : List Call) (p : Property) :
    (∃ x ∈ (Component.inner (calls.foldl Call.run c)).multi, p ∈ x.2) ↔ p ∈ calls.filterMap Call.appends := by
  have hs := sorted_multi_runs calls c (by rw [h0]; exact BMap.sorted_nil)
  have key := multi_keeps_all c calls
  unfold Component.multiProperties at key
  rw [h0] at key
  constructor
  · rintro ⟨x, h1, h2⟩
    have := (key x.1).1
    rw [BMap.get_of_mem hs h1] at this
    simp only [Option.getD_some, Inner.empty, BMap.get, Option.getD_none, List.nil_append] at this
    rw [this] at h2
    exact (List.mem_filter.1 h2).1
  · intro h
    have := (key p.key).1
    simp only [Inner.empty, BMap.get, Option.getD_none, List.nil_append] at this
    have hm : p ∈ (calls.filterMap Call.appends).filter (fun q => q.key == p.key) := List.mem_filter.2 ⟨h, by simp⟩
    rw [← this] at hm
    cases hg : BMap.get p.key (Component.inner (calls.foldl Call.run c)).multi with
    | none => rw [hg] at hm; simp at hm
    | some l =>
      rw [hg] at hm
      exact ⟨(p.key, l), BMap.get_mem hg, by simpa using hm⟩

/-- **C117.** A component built by any history of calls refers to exactly the zones in the parameters of the properties that were
set last under their names, of the properties that were appended, and in the components that were added. -/
theorem calls_zones {C : Type} [Component C] (c : C) (h0 : Component.inner c = .empty) (calls : List Call) (z : Str) :
    UsesZone z (Component.toOther (calls.foldl Call.run c)) ↔
      (∃ p, Survives p (calls.flatMap Call.sets) ∧ zoneOf p = some z) ∨
      (∃ p ∈ calls.filterMap Call.appends, zoneOf p = some z) ∨ ∃ o ∈ calls.filterMap Call.adds, UsesZone z o := by
  unfold Component.toOther Other.ofInner
  rw [usesZone_iff]
  have h1 : (∃ x ∈ (Component.inner (calls.foldl Call.run c)).props, zoneOf x.2 = some z) ↔
      ∃ p, Survives p (calls.flatMap Call.sets) ∧ zoneOf p = some z := by
    rw [props_runs, h0]
    constructor
    · rintro ⟨x, hx, hz⟩
      exact ⟨x.2, (mem_sets_iff.1 hx).2, hz⟩
    · rintro ⟨p, hp, hz⟩
      exact ⟨(p.key, p), mem_sets_iff.2 ⟨rfl, hp⟩, hz⟩
  have h2 : (∃ x ∈ (Component.inner (calls.foldl Call.run c)).multi, ∃ p ∈ x.2, zoneOf p = some z) ↔
      ∃ p ∈ calls.filterMap Call.appends, zoneOf p = some z := by
    constructor
    · rintro ⟨x, hx, p, hp, hz⟩
      exact ⟨p, (mem_multi_runs c h0 calls p).1 ⟨x, hx, hp⟩, hz⟩
    · rintro ⟨p, hp, hz⟩
      obtain ⟨x, hx, hpx⟩ := (mem_multi_runs c h0 calls p).2 hp
      exact ⟨x, hx, p, hpx, hz⟩
  have h3 : (Component.inner (calls.foldl Call.run c)).comps = calls.filterMap Call.adds := by
    have := sub_components c calls
    unfold Component.subComponents at this
    rw [this, h0]
    rfl
  rw [h1, h2, h3]

/-- **C117** (partial: without VTIMEZONE components). A calendar to which no VTIMEZONE was added defines the zones it refers to only
if it refers to none. -/
theorem zones_none_partial (c : Calendar) (h : ∀ x ∈ c.comps, x.toOther.name ≠ c!"VTIMEZONE") :
    ZonesDefined c ↔ ∀ z, ¬ Refers c z := by
  constructor
  · intro hz z hr
    obtain ⟨x, hx, hd⟩ := hz z hr
    have := h x hx
    cases hxo : x.toOther with
    | mk name props multi comps =>
      rw [hxo] at hd this
      exact this hd.1
  · intro hz z hr
    exact absurd hr (hz z)

/-- **C117** (partial: components that refer to no undefined zone). Adding a component keeps the zones defined exactly if the zones
it refers to are defined in the calendar or by itself. -/
theorem zones_push_partial (c : Calendar) (x : CalComp) (h : ZonesDefined c) :
    ZonesDefined (c.push x) ↔ ∀ z, UsesZone z x.toOther → Defines c z ∨ DefinesZone z x.toOther := by
  have hd : ∀ z, Defines (c.push x) z ↔ Defines c z ∨ DefinesZone z x.toOther := by
    intro z
    unfold Defines Calendar.push
    simp only [List.mem_append, List.mem_singleton]
    constructor
    · rintro ⟨y, hy | rfl, hz⟩
      · exact .inl ⟨y, hy, hz⟩
      · exact .inr hz
    · rintro (⟨y, hy, hz⟩ | hz)
      · exact ⟨y, .inl hy, hz⟩
      · exact ⟨x, .inr rfl, hz⟩
  constructor
  · intro hz z hu
    exact (hd z).1 (hz z (.inr ⟨x, by simp [Calendar.push], hu⟩))
  · intro H z hr
    rw [hd]
    rcases hr with hr | ⟨y, hy, hu⟩
    · exact .inl (h z (.inl hr))
    · simp only [Calendar.push, List.mem_append, List.mem_singleton] at hy
      rcases hy with hy | rfl
      · exact .inl (h z (.inr ⟨y, hy, hu⟩))
      · exact H z hu

/-- **C117 (violated).** Whatever an event is, once it is made to start at a time in a zone, and added to a calendar that does not
define the zone, the calendar refers to a zone that is not defined: the library never adds the definition. -/
theorem zones_defined_violated (c : Calendar) (calls : List Call) (t : NaiveDateTime) (z : Str) (h : ¬ Defines c z) :
    ¬ ZonesDefined (c.push (.event (Component.starts (calls.foldl Call.run Event.new) (.dateTime (.zoned t z))))) := by
  intro H
  have hr : UsesZone z (CalComp.toOther (.event (Component.starts (calls.foldl Call.run Event.new)
      (.dateTime (.zoned t z))))) := by
    have := (calls_zones Event.new rfl (calls ++ [Call.starts (.dateTime (.zoned t z))]) z).2
      (.inl ⟨Call.dateProperty c!"DTSTART" (.dateTime (.zoned t z)),
        ⟨calls.flatMap Call.sets, [], by simp [Call.sets], by simp⟩, rfl⟩)
    rw [List.foldl_append] at this
    exact this
  obtain ⟨x, hx, hd⟩ := H z (.inr ⟨_, by simp [Calendar.push], hr⟩)
  simp only [Calendar.push, List.mem_append, List.mem_singleton] at hx
  rcases hx with hx | rfl
  · exact h ⟨x, hx, hd⟩
  · have := hd.1
    have hk := kind_runs (calls ++ [Call.starts (.dateTime (.zoned t z))]) Event.new
    rw [List.foldl_append] at hk
    exact absurd (hk.symm.trans this) (by decide)


/-- A typed call that is given no time in a zone. -/
def Zoneless : Call → Prop
  | .appendProperty _ | .addProperty _ _ | .appendMultiProperty _ | .addMultiProperty _ _ | .appendComponent _ | .alarm _ => False
  | .starts d | .ends d => ∀ t z, d ≠ .dateTime (.zoned t z)
  | _ => True

theorem zoneOf_dateProperty {k z : Str} {d : DatePerhapsTime} (h : ∀ t z, d ≠ .dateTime (.zoned t z)) :
    zoneOf (Call.dateProperty k d) ≠ some z := by
  rcases d with (t | t | ⟨t, y⟩) | d
  · simp [zoneOf, Call.dateProperty]
  · simp [zoneOf, Call.dateProperty]
  · exact absurd rfl (h t y)
  · simp [zoneOf, Call.dateProperty]

/-- **C117** (partial: only typed calls without zoned times). Such components refer to no zone at all. -/
theorem zoneless_calls_partial {C : Type} [Component C] (c : C) (h0 : Component.inner c = .empty) (calls : List Call)
    (h : ∀ k ∈ calls, Zoneless k) (z : Str) : ¬ UsesZone z (Component.toOther (calls.foldl Call.run c)) := by
  rw [calls_zones c h0]
  rintro (⟨p, hp, hz⟩ | ⟨p, hp, hz⟩ | ⟨o, ho, hz⟩)
  · obtain ⟨l1, l2, e, -⟩ := hp
    have hm : p ∈ calls.flatMap Call.sets := by rw [e]; simp
    obtain ⟨k, hk, hpk⟩ := List.mem_flatMap.1 hm
    have hl := h k hk
    cases k <;> simp only [Call.sets, List.mem_cons, List.not_mem_nil, or_false] at hpk <;>
      first
        | exact hl.elim
        | (subst hpk; exact zoneOf_dateProperty hl hz)
        | (subst hpk; simp [zoneOf] at hz)
        | (rcases hpk with rfl | rfl <;> first | (simp [zoneOf] at hz; done) | exact zoneOf_dateProperty (by simp) hz)
  · obtain ⟨k, hk, hpk⟩ := List.mem_filterMap.1 hp
    have hl := h k hk
    cases k <;> first | exact hl.elim | simp [Call.appends] at hpk
  · obtain ⟨k, hk, hpk⟩ := List.mem_filterMap.1 ho
    have hl := h k hk
    cases k <;> first | exact hl.elim | simp [Call.adds] at hpk

theorem added_zone {k z : Str} {p : Property} {m m' : BMap Property} (h : AddedIfMissing k p m m') (hp : zoneOf p = none) :
    (∃ x ∈ m', zoneOf x.2 = some z) ↔ ∃ x ∈ m, zoneOf x.2 = some z := by
  obtain ⟨-, h⟩ := h
  split at h
  · rw [h]
  · constructor
    · rintro ⟨x, hx, hz⟩
      rcases (h x).1 hx with rfl | hx
      · rw [hp] at hz; cases hz
      · exact ⟨x, hx, hz⟩
    · rintro ⟨x, hx, hz⟩
      exact ⟨x, (h x).2 (.inr hx), hz⟩

theorem added_tzid {k : Str} {p q : Property} {m m' : BMap Property} (h : AddedIfMissing k p m m') (hk : k ≠ c!"TZID") :
    (c!"TZID", q) ∈ m' ↔ (c!"TZID", q) ∈ m := by
  obtain ⟨-, h⟩ := h
  split at h
  · rw [h]
  · rw [h]
    constructor
    · rintro (e | h)
      · exact absurd (congrArg Prod.fst e).symm hk
      · exact h
    · exact .inr

mutual
theorem stamped_uses {o o' : Other} (h : Stamped o o') (z : Str) : UsesZone z o' ↔ UsesZone z o := by
  cases h with
  | mk hn hu h1 h2 h3 =>
    rw [usesZone_iff, usesZone_iff, added_zone h2 rfl, added_zone h1 rfl, stampedAll_uses h3 z]
theorem stampedAll_uses {l l' : List Other} (h : StampedAll l l') (z : Str) :
    (∃ o ∈ l', UsesZone z o) ↔ ∃ o ∈ l, UsesZone z o := by
  cases h with
  | nil => exact Iff.rfl
  | cons h1 h2 =>
    have a := stamped_uses h1 z
    have b := stampedAll_uses h2 z
    simp only [List.mem_cons, exists_eq_or_imp]
    rw [a, b]
end

theorem stamped_defines {o o' : Other} (h : Stamped o o') (z : Str) : DefinesZone z o' ↔ DefinesZone z o := by
  cases h with
  | mk hn hu h1 h2 h3 =>
    unfold DefinesZone
    constructor
    · rintro ⟨a, p, hp, b⟩
      exact ⟨a, p, (added_tzid h1 (by decide)).1 ((added_tzid h2 (by decide)).1 hp), b⟩
    · rintro ⟨a, p, hp, b⟩
      exact ⟨a, p, (added_tzid h2 (by decide)).2 ((added_tzid h1 (by decide)).2 hp), b⟩

theorem mem_paired {c c' : Calendar} (h : CalStamped c c') {P : Other → Prop} (hP : ∀ {o o'}, Stamped o o' → (P o' ↔ P o)) :
    (∃ x ∈ c'.comps, P x.toOther) ↔ ∃ x ∈ c.comps, P x.toOther := by
  constructor
  · rintro ⟨x, hx, hp⟩
    obtain ⟨i, hi⟩ := List.getElem?_of_mem hx
    have hlt : i < c.comps.length := by
      rw [← h.length]; exact (List.getElem?_eq_some_iff.1 hi).1
    exact ⟨c.comps[i], List.getElem_mem _, (hP (h.comps i _ _ (List.getElem?_eq_getElem hlt) hi).2).1 hp⟩
  · rintro ⟨x, hx, hp⟩
    obtain ⟨i, hi⟩ := List.getElem?_of_mem hx
    have hlt : i < c'.comps.length := by
      rw [h.length]; exact (List.getElem?_eq_some_iff.1 hi).1
    exact ⟨c'.comps[i], List.getElem_mem _, (hP (h.comps i _ _ hi (List.getElem?_eq_getElem hlt)).2).2 hp⟩

/-- **C117.** Writing and reading back neither adds nor loses a reference to a zone or its definition. -/
theorem zones_kept [Uni] (c : Calendar) (hc : CalendarOk c) (hs : CalendarSafe c) (w : World) (hw : World.Ok w)
    (out : Str) (h : c.fmtWrite w = .ok out) :
    ∃ c', Calendar.fromStr out = some c' ∧ (∀ z, (Refers c' z ↔ Refers c z) ∧ (Defines c' z ↔ Defines c z)) ∧
      (ZonesDefined c' ↔ ZonesDefined c) := by
  obtain ⟨c', h1, h2⟩ := missing_stamps c hc hs w hw out h
  have hr : ∀ z, Refers c' z ↔ Refers c z := fun z => by
    unfold Refers
    rw [h2.props, mem_paired h2 (P := UsesZone z) fun hst => stamped_uses hst z]
  have hd : ∀ z, Defines c' z ↔ Defines c z := fun z => mem_paired h2 (P := DefinesZone z) fun hst => stamped_defines hst z
  refine ⟨c', h1, fun z => ⟨hr z, hd z⟩, ?_⟩
  unfold ZonesDefined
  constructor
  · intro H z hz
    exact (hd z).1 (H z ((hr z).2 hz))
  · intro H z hz
    exact (hd z).2 (H z ((hr z).1 hz))

/-- A VTIMEZONE can be added by hand; then the zone of an event is defined. -/
example (t : NaiveDateTime) :
    let zone : CalComp := .other (.mk c!"VTIMEZONE" [(c!"TZID", .new c!"TZID" c!"Europe/Berlin")] [] [])
    let event : CalComp := .event (Component.starts Event.new (.dateTime (.zoned t c!"Europe/Berlin")))
    ZonesDefined ((Calendar.empty.push zone).push event) ∧ ¬ ZonesDefined (Calendar.empty.push event) := by
  intro zone event
  constructor
  · have h0 : ZonesDefined (Calendar.empty.push zone) := by
      refine (zones_push_partial _ _ ?_).2 ?_
      · rintro z (⟨p, hp, -⟩ | ⟨x, hx, -⟩)
        · exact absurd hp (by simp [Calendar.empty])
        · exact absurd hx (by simp [Calendar.empty])
      · intro z hz
        have hz' : UsesZone z (.mk c!"VTIMEZONE" [(c!"TZID", .new c!"TZID" c!"Europe/Berlin")] [] []) := hz
        simp [usesZone_iff, zoneOf, Property.new] at hz'
    refine (zones_push_partial _ _ h0).2 ?_
    intro z hz
    have := (calls_zones Event.new rfl [Call.starts (.dateTime (.zoned t c!"Europe/Berlin"))] z).1 hz
    rcases this with ⟨p, ⟨l1, l2, e, -⟩, hp⟩ | ⟨p, hp, -⟩ | ⟨o, ho, -⟩
    · have hm : p ∈ [Call.starts (.dateTime (.zoned t c!"Europe/Berlin"))].flatMap Call.sets := by rw [e]; simp
      simp only [List.flatMap_cons, List.flatMap_nil, List.append_nil, Call.sets, List.mem_singleton] at hm
      subst hm
      have hz' : c!"Europe/Berlin" = z := Option.some.inj hp
      subst hz'
      exact .inl ⟨zone, by simp [Calendar.push], rfl, _, List.mem_singleton.2 rfl, rfl⟩
    · simp [Call.appends] at hp
    · simp [Call.adds] at ho
  · exact zones_defined_violated Calendar.empty [] t _ (by simp [Defines, Calendar.empty])

end Ical
