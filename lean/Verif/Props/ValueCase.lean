import Verif.Spec.NameCase
import Verif.Props.Values
import Verif.Props.DateText
import Verif.Props.TriggerTexts

/-!
C123: the letter case of enumerated values (RFC 5545, section 2: "property values and parameter values are
case-insensitive unless otherwise stated", said so for CLASS, STATUS, VALUE and RELATED).
-/

namespace Ical

open Spec

/-- **C123 (what holds of it).** Among the texts that are the name of a variant up to letter case, the getters read
exactly the one in capitals as that variant, and read nothing (the default kind of the property for VALUE) from any
other. -/
theorem value_case_partial [Uni] {C : Type} [Component C] (c : C) (e : Event) (t : Todo) (p : Property) (s : Str) :
    (∀ k, SameName s (Call.classText k) → Component.propertyValue c c!"CLASS" = some s →
      Component.getClass c = if s = Call.classText k then some k else none) ∧
    (∀ k, SameName s (eventStatusText k) → Component.propertyValue e c!"STATUS" = some s →
      e.getStatus = if s = eventStatusText k then some k else none) ∧
    (∀ k, SameName s (todoStatusText k) → Component.propertyValue t c!"STATUS" = some s →
      t.getStatus = if s = todoStatusText k then some k else none) ∧
    (∀ k, SameName s (relatedText k) → p.params.lookup c!"RELATED" = some s →
      p.getParamAs c!"RELATED" Related.fromStr = if s = relatedText k then some k else none) ∧
    (∀ k : ValueType, SameName s k.toStr → p.params.lookup c!"VALUE" = some s →
      p.valueType = if s = k.toStr then some k else ValueType.byName p.key) := by
  obtain ⟨h1, h2, h3, h4, h5⟩ := enum_texts s
  -- a text that is one name up to letter case and another name exactly is that name: they differ in letters
  have key : ∀ {α : Type} (f : Str → Option α) (n : α → Str), (∀ k, f s = some k ↔ s = n k) →
      (∀ a b, SameName (n a) (n b) → a = b) → ∀ k, SameName s (n k) → f s = if s = n k then some k else none := by
    intro α f n hf hn k hs
    split
    · exact (hf k).mpr ‹_›
    · cases hfs : f s with
      | none => rfl
      | some j =>
        have hj := (hf j).mp hfs
        rw [hj] at hs
        have := hn j k hs
        subst this
        exact absurd hj ‹_›
  refine ⟨?_, ?_, ?_, ?_, ?_⟩
  · intro k hs hv
    unfold Component.getClass
    rw [hv]
    exact key _ _ h1 (by intro a b; cases a <;> cases b <;> decide) k hs
  · intro k hs hv
    unfold Event.getStatus
    rw [hv]
    exact key _ _ h2 (by intro a b; cases a <;> cases b <;> decide) k hs
  · intro k hs hv
    unfold Todo.getStatus
    rw [hv]
    exact key _ _ h3 (by intro a b; cases a <;> cases b <;> decide) k hs
  · intro k hs hv
    unfold Property.getParamAs
    rw [← lookup_eq_get, hv]
    exact key _ _ h4 (by intro a b; cases a <;> cases b <;> decide) k hs
  · intro k hs hv
    have := key _ _ h5 (by intro a b; cases a <;> cases b <;> decide) k hs
    unfold Property.valueType
    rw [← lookup_eq_get, hv, show (some s).bind ValueType.fromStr = ValueType.fromStr s from rfl, this]
    by_cases hc : s = k.toStr
    · rw [if_pos hc, if_pos hc]
    · rw [if_neg hc, if_neg hc]

/-- **C123 (violated).** A property with a date and `VALUE=DATE` in any other letter case is read as no date at all,
so `get_start`, `get_end` and `get_due` of a component that has one are empty. -/
theorem value_date_case_violated [Uni] {C : Type} [Component C] (c : C) (t : Todo) (p : Property) (v : Str) (d : NaiveDate)
    (hv : p.params.lookup c!"VALUE" = some v) (hd : v ≠ c!"DATE") (hp : parseDate p.val = some d) :
    DatePerhapsTime.fromProperty p = none ∧
    ((Component.properties c).get c!"DTSTART" = some p → Component.getStart c = none) ∧
    ((Component.properties c).get c!"DTEND" = some p → Component.getEnd c = none) ∧
    ((Component.properties t).get c!"DUE" = some p → t.getDue = none) ∧
    (∀ q : Property, q.params.lookup c!"VALUE" = some c!"DATE" → q.val = p.val →
      DatePerhapsTime.fromProperty q = some (.date d)) := by
  have h : DatePerhapsTime.fromProperty p = none := by
    unfold DatePerhapsTime.fromProperty
    have hn : p.valueType ≠ some .date := by
      intro h
      rw [valueType_date_iff, hv] at h
      exact hd (Option.some.inj h)
    obtain ⟨e1, e2⟩ := (parse_exclusive p.val).1 d hp
    have e3 : CalDateTime.fromProperty p = none := by
      unfold CalDateTime.fromProperty CalDateTime.fromStr
      rw [e1]
      cases p.params.get c!"TZID" with
      | some _ => rfl
      | none => simp [e2]
    rw [if_neg hn, e3]
  refine ⟨h, ?_, ?_, ?_, ?_⟩
  · intro hs; unfold Component.getStart; rw [hs]; exact h
  · intro hs; unfold Component.getEnd; rw [hs]; exact h
  · intro hs; unfold Todo.getDue; rw [hs]; exact h
  · intro q hq hval
    unfold DatePerhapsTime.fromProperty
    rw [if_pos ((valueType_date_iff q).mpr hq), hval, hp]

/-- **C123 (violated).** A trigger whose RELATED says END in any other letter case is read as one that does not say
what it is related to, which means the start (RFC 5545, section 3.2.14). -/
theorem related_case_violated [Iso8601] (p : Property) (v : Str) (d : Duration) (hk : p.key = c!"TRIGGER")
    (hd : Iso8601.parse p.val = some d) (hn : p.params.lookup c!"VALUE" = none)
    (hv : p.params.lookup c!"RELATED" = some v) (hs : SameName v c!"END") (he : v ≠ c!"END") :
    Trigger.tryFrom p = some (.duration d none) ∧
    ∀ q : Property, q.key = p.key → q.val = p.val → q.params.lookup c!"VALUE" = none →
      q.params.lookup c!"RELATED" = some c!"END" → Trigger.tryFrom q = some (.duration d (some .end_)) := by
  constructor
  · rw [trigger_read_iff]
    refine ⟨hk, Or.inl hn, hd, ?_⟩
    intro y
    constructor
    · intro h; cases h
    · intro h
      rw [hv] at h
      have := Option.some.inj h
      cases y
      · rw [this] at hs; revert hs; decide
      · exact absurd this he
  · intro q hqk hqv hqn hqr
    rw [trigger_read_iff]
    refine ⟨hqk.trans hk, Or.inl hqn, hqv ▸ hd, ?_⟩
    intro y
    rw [hqr]
    cases y <;> decide

/-- **C123 (violated).** A trigger with any other VALUE than DATE-TIME or DURATION in capitals is not read, so not one
that differs in letter case. -/
theorem trigger_case_violated [Iso8601] (p : Property) (v : Str) (hv : p.params.lookup c!"VALUE" = some v)
    (h1 : v ≠ c!"DATE-TIME") (h2 : v ≠ c!"DURATION") :
    Trigger.tryFrom p = none := by
  cases h : Trigger.tryFrom p with
  | none => rfl
  | some x =>
    rw [trigger_read_iff] at h
    obtain ⟨-, h⟩ := h
    rw [hv] at h
    match x, h with
    | .duration d r, ⟨.inr h, _⟩ => exact absurd (Option.some.inj h) h2
    | .dateTime (.utc t), ⟨h, _⟩ => exact absurd (Option.some.inj h) h1
    | .dateTime (.floating t), ⟨h, _⟩ => exact absurd (Option.some.inj h) h1

/-- `STATUS:confirmed`, `CLASS:Private` are nothing; a day with `VALUE=date` is lost; `RELATED=end` and a time with
`VALUE=date-time` too -/
example : letI := Uni.ascii; letI := Iso8601.sample
    (Component.addProperty Event.new c!"STATUS" c!"confirmed").getStatus = none ∧
    (Component.addProperty Event.new c!"STATUS" c!"CONFIRMED").getStatus = some .confirmed ∧
    Component.getClass (Component.addProperty Todo.new c!"CLASS" c!"Private") = none ∧
    SameName c!"Private" (Call.classText .priv) ∧
    Component.getStart (Component.appendProperty Event.new ⟨c!"DTSTART", c!"20240229", [(c!"VALUE", c!"date")]⟩) = none ∧
    Component.getStart (Component.appendProperty Event.new ⟨c!"DTSTART", c!"20240229", [(c!"VALUE", c!"DATE")]⟩) =
      some (.date ⟨2024, 2, 29⟩) ∧
    Trigger.tryFrom ⟨c!"TRIGGER", c!"PT300S", [(c!"RELATED", c!"end")]⟩ = some (.duration ⟨300 * 1000000000⟩ none) ∧
    Trigger.tryFrom ⟨c!"TRIGGER", c!"20240105T010203Z", [(c!"VALUE", c!"date-time")]⟩ = none := by decide +kernel

end Ical
