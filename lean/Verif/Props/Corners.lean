import Verif.Props.Kinds
import Verif.Props.Alarms
import Verif.Props.Uids
import Verif.Props.Numerals
import Verif.Props.LooseDates

/-!
C31, C39, C44, C50, C54, C98: exactly when these claims, which the code violates, are true.
-/

namespace Ical

open Spec

/-! ### C31 -/

/-- All properties of a name that a component has, the single one and the repeatable ones. -/
def Spec.occurrences (o : Other) (k : Str) : List Property :=
  (o.inner.props.get k).toList ++ (o.inner.multi.get k).getD []

theorem single_none (c : PComp) {k : Str} (hk : k ∈ repeatable) : c.toCalComp.toOther.inner.props.get k = none := by
  rw [toOther_toCalComp]
  obtain ⟨n, props, l⟩ := c
  have hm : multis.contains k = true := by rw [List.contains_eq_mem]; exact decide_eq_true hk
  unfold PComp.toOther Other.ofInner innerOfProps
  simp only [Other.inner, (foldl_insertMulti_rest _ _).1]
  rw [BMap.get_ofList, Option.map_eq_none_iff, List.find?_eq_none]
  intro x hx
  simp only [List.mem_reverse, List.mem_map, List.mem_filter] at hx
  obtain ⟨p, ⟨_, hp⟩, rfl⟩ := hx
  simp only [beq_iff_eq]
  rintro rfl
  rw [show p.isMulti = multis.contains p.name from rfl, hm] at hp
  cases hp

theorem multi_none (c : PComp) {k : Str} (hk : k ∉ repeatable) : (c.toCalComp.toOther.inner.multi.get k).getD [] = [] := by
  rw [toOther_toCalComp]
  obtain ⟨n, props, l⟩ := c
  have hm : multis.contains k = false := by rw [List.contains_eq_mem]; exact decide_eq_false hk
  unfold PComp.toOther Other.ofInner innerOfProps
  simp only [Other.inner]
  have hfold : ∀ (l : List PProp) (i : Inner), l.foldl (fun c p => c.insertMulti p.toProperty) i =
      (l.map PProp.toProperty).foldl Inner.insertMulti i := by
    intro l i
    rw [List.foldl_map]
  obtain ⟨-, -, -, h4⟩ := foldl_insertMulti ((props.filter PProp.isMulti).map PProp.toProperty)
      { props := BMap.ofList ((props.filter (fun p => !p.isMulti)).map (fun p => (p.name, p.toProperty)))
        multi := [], comps := toOthers l } BMap.sorted_nil
  rw [hfold, h4]
  have e : ((props.filter PProp.isMulti).map PProp.toProperty).filter (fun p => p.key == k) = [] := by
    rw [List.filter_eq_nil_iff]
    intro x hx
    simp only [List.mem_map, List.mem_filter] at hx
    obtain ⟨p, ⟨_, hp⟩, rfl⟩ := hx
    show ¬ (p.name == k) = true
    simp only [beq_iff_eq]
    rintro rfl
    rw [show p.isMulti = multis.contains p.name from rfl, hm] at hp
    cases hp
  rw [e]
  rfl

/-- **C31 (exactly).** All properties of a name are kept, in order, if and only if the name is one of those the code
takes as repeatable or there is at most one. -/
theorem repeated_kept_iff (c : PComp) (k : Str) :
    occurrences c.toCalComp.toOther k = (c.props.filter (fun p => p.name == k)).map PProp.toProperty ↔
      k ∈ repeatable ∨ (c.props.filter (fun p => p.name == k)).length ≤ 1 := by
  unfold occurrences
  by_cases hk : k ∈ repeatable
  · have h : (c.toCalComp.toOther.inner.multi.get k).getD [] = (c.props.filter (fun p => p.name == k)).map PProp.toProperty := by
      rw [toOther_toCalComp]
      obtain ⟨n, p, l⟩ := c
      unfold PComp.toOther
      exact multi_of_props p _ hk
    rw [single_none c hk, h]
    simp [hk]
  · rw [multi_none c hk, repeated_single c k hk, List.append_nil]
    have hf : c.props.reverse.find? (fun p => p.name == k) = (c.props.filter (fun p => p.name == k)).reverse.head? := by
      rw [← List.filter_reverse, List.head?_filter]
    rw [hf]
    simp only [hk, false_or]
    cases c.props.filter (fun p => p.name == k) with
    | nil => simp
    | cons a l =>
      cases l with
      | nil => simp
      | cons b l =>
        refine ⟨fun h => ?_, fun h => by simp at h⟩
        have := congrArg List.length h
        simp only [List.length_map, List.length_cons, Option.length_toList] at this
        split at this <;> omega

/-- of two RELATED-TO one is lost, one alone is kept -/
example (a b : Str) :
    occurrences (PComp.mk c!"VTODO" [⟨c!"RELATED-TO", a, []⟩, ⟨c!"RELATED-TO", b, []⟩] []).toCalComp.toOther c!"RELATED-TO" =
      [⟨c!"RELATED-TO", b, []⟩] ∧
    occurrences (PComp.mk c!"VTODO" [⟨c!"RELATED-TO", a, []⟩] []).toCalComp.toOther c!"RELATED-TO" =
      [⟨c!"RELATED-TO", a, []⟩] := ⟨rfl, rfl⟩

/-! ### C39 -/

/-- **C39 (exactly).** After any history in which the percentage was set last to `n`, the getter stays within 0..=100 if
and only if `n` does. -/
theorem percent_bounded_iff (t : Todo) (before after : List TodoCall) (n : Nat) (hn : n < 2 ^ 8)
    (h : ∀ y ∈ after, ∀ q ∈ y.generic.sets, q.key ≠ c!"PERCENT-COMPLETE") :
    (∀ m, ((before ++ .percentComplete n :: after).foldl TodoCall.run t).getPercentComplete = some m → m ≤ 100) ↔
      n ≤ 100 := by
  rw [percent_roundtrip t before after n hn h]
  exact ⟨fun h => h n rfl, fun h m hm => by cases hm; exact h⟩

/-- a hundred and one -/
example (t : Todo) : ¬ ∀ m, (t.percentComplete 101).getPercentComplete = some m → m ≤ 100 := fun h =>
  absurd ((percent_bounded_iff t [] [] 101 (by decide) (by simp)).1 h) (by decide)

/-! ### C44 -/

/-- The value of the first property of a name. -/
def Spec.firstValue (k : Str) : List Property → Option Str
  | [] => none
  | p :: l => if p.key = k then some p.val else firstValue k l

theorem propertyValue_first (c : Calendar) (k : Str) : c.propertyValue k = firstValue k c.props := by
  unfold Calendar.propertyValue
  induction c.props with
  | nil => rfl
  | cons p l ih =>
    simp only [firstValue, List.find?_cons]
    by_cases h : p.key = k
    · simp [h]
    · simp only [h, if_false]
      have : (p.key == k) = false := by simp [h]
      rw [this]
      exact ih

/-- **C44 (exactly).** What `get_timezone` returns: the first TIMEZONE_ID (spelt with an underscore) or else the first
X-WR-TIMEZONE. So a calendar with TIMEZONE-ID reports it if and only if one of these says the same. -/
theorem timezone_exact_partial (c : Calendar) (s : Str) :
    c.getTimezone = some s ↔ firstValue c!"TIMEZONE_ID" c.props = some s ∨
      firstValue c!"TIMEZONE_ID" c.props = none ∧ firstValue c!"X-WR-TIMEZONE" c.props = some s := by
  unfold Calendar.getTimezone
  rw [propertyValue_first, propertyValue_first]
  cases firstValue c!"TIMEZONE_ID" c.props with
  | none => simp
  | some v => simp

/-- the property of the documentation, before and after another one -/
example : (Calendar.new.appendProperty (.new c!"TIMEZONE-ID" c!"A")).getTimezone = none ∧
    ((Calendar.new.appendProperty (.new c!"TIMEZONE-ID" c!"A")).appendProperty (.new c!"X-WR-TIMEZONE" c!"B")).getTimezone =
      some c!"B" := ⟨rfl, rfl⟩

/-! ### C50 -/

/-- **C50 (violated, in general).** A LAST-MODIFIED property never has an effect on `get_last_modified`, whatever the
component has. -/
theorem last_modified_ignored_violated {C : Type} [Component C] (c : C) (v : Str) :
    Component.getLastModified (Component.addProperty c c!"LAST-MODIFIED" v) = Component.getLastModified c := by
  unfold Component.getLastModified Component.addProperty Component.appendProperty Component.propertyValue
    Component.properties
  rw [Component.inner_withInner]
  unfold Inner.appendProperty Property.new
  rw [BMap.get_insert_ne _ _ _ (show c!"LAST_MODIFIED" ≠ c!"LAST-MODIFIED" by decide)]

/-- **C50 (exactly).** The last modification of a component read from a text is the one its last LAST_MODIFIED line
(with an underscore) names in UTC. -/
theorem last_modified_exact_partial (c : PComp) (u : UtcDateTime) :
    Component.getLastModified c.toCalComp.toOther = some u ↔
      ∃ p, c.props.reverse.find? (fun p => p.name == c!"LAST_MODIFIED") = some p ∧ LooseDateTime p.val u.naive ['Z'] := by
  have h := repeated_single c c!"LAST_MODIFIED" (by decide)
  unfold Component.getLastModified Component.propertyValue Component.properties
  show ((c.toCalComp.toOther.inner.props.get c!"LAST_MODIFIED").map Property.val).bind parseUtc = some u ↔ _
  rw [h]
  cases c.props.reverse.find? (fun p => p.name == c!"LAST_MODIFIED") with
  | none => simp
  | some p =>
    simp only [Option.map_some, Option.bind_some, Option.some.injEq, exists_eq_left']
    exact parseUtc_iff p.val u

/-- the two spellings -/
example : (Component.getLastModified (PComp.mk c!"VEVENT"
      [⟨c!"LAST-MODIFIED", c!"20200101T000000Z", []⟩] []).toCalComp.toOther).isNone ∧
    (Component.getLastModified (PComp.mk c!"VEVENT"
      [⟨c!"LAST-MODIFIED", c!"20200101T000000Z", []⟩, ⟨c!"LAST_MODIFIED", c!"20200102T000000Z", []⟩] []).toCalComp.toOther).isSome := by
  decide +kernel

/-! ### C54 -/

/-- **C54 (exactly, for durations).** A relative trigger is read back as the duration the crate iso8601 reads from its text,
with the same relation; so it survives if and only if the crate reads that text as the duration. -/
theorem trigger_duration_exact [Iso8601] (d : Duration) (r : Option Related) :
    Trigger.tryFrom (Trigger.duration d r).toProperty = (Iso8601.parse d.toStr).map (fun d' => .duration d' r) := by
  have key : ∀ q : Property, q.key = c!"TRIGGER" → q.params.get c!"VALUE" = none →
      q.val = d.toStr → q.getParamAs c!"RELATED" Related.fromStr = r →
      Trigger.tryFrom q = (Iso8601.parse d.toStr).map (fun d' => .duration d' r) := by
    intro q h1 h2 h3 h4
    unfold Trigger.tryFrom
    rw [if_pos h1, h2, h3]
    cases Iso8601.parse d.toStr with
    | none => rfl
    | some x => simp [h4]
  rcases r with _ | (_ | _) <;> exact key _ rfl rfl rfl rfl

/-- ten minutes before the end are not read back -/
example : letI := Iso8601.sample
    Trigger.tryFrom (Trigger.beforeEnd ⟨600000000000⟩).toProperty = none :=
  letI := Iso8601.sample
  (trigger_duration_exact _ _).trans (by
    have : (Duration.neg ⟨600000000000⟩).toStr = '-' :: c!"PT600S" := by decide +kernel
    rw [this]
    unfold Iso8601.parse
    rw [Iso8601.parse_neg]
    rfl)

/-! ### C98 -/

variable [Uni]

/-- **C98 (exactly).** DTSTAMP and UID are generated only where RFC 5545 allows them if and only if all other components
have both. -/
theorem stamps_allowed_iff (c : Calendar) (hc : CalendarOk c) (w : World) (hw : World.Ok w) (out : Str)
    (h : c.fmtWrite w = .ok out) :
    (∃ c', Calendar.fromStr out = some c' ∧
      ∀ n ∈ stampGainersAll (c.comps.map CalComp.toOther) (c'.comps.map CalComp.toOther), n ∈ rfcStampedKinds) ↔
      ∀ n ∈ unstampedAll (c.comps.map CalComp.toOther), n ∈ rfcStampedKinds := by
  obtain ⟨c', h1, h2⟩ := stamps_gained c hc w hw out h
  constructor
  · rintro ⟨c'', h3, h4⟩
    rw [h1] at h3
    cases h3
    rwa [h2] at h4
  · intro h3
    exact ⟨c', h1, by rwa [h2]⟩

/-- a time zone without a UID -/
example : unstampedAll [(PComp.mk c!"VTIMEZONE" [⟨c!"TZID", c!"A", []⟩] []).toCalComp.toOther] =
    [c!"VTIMEZONE"] ∧ c!"VTIMEZONE" ∉ rfcStampedKinds := by decide +kernel

end Ical
