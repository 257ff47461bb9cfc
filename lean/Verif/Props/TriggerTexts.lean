import Verif.Props.Alarms
import Verif.Props.LooseDates

/-!
C89: exactly which properties are read as triggers.
-/

namespace Ical

open Spec

theorem related_iff (s : Str) (r : Related) : Related.fromStr s = some r ↔ s = relatedText r := by
  unfold Related.fromStr
  constructor
  · intro h
    split at h
    · cases h; assumption
    · split at h
      · cases h; assumption
      · cases h
  · rintro rfl
    cases r <;> rfl

/-- **C89.** What is read from a property as trigger: only from one called TRIGGER; a duration exactly without VALUE
or with VALUE=DURATION if the text is a duration, related to start or end exactly if RELATED says so; a time exactly
with VALUE=DATE-TIME from the texts of C107, UTC with a final `Z` and floating without, whatever the TZID. -/
theorem trigger_read_iff [Iso8601] (p : Property) (x : Trigger) :
    Trigger.tryFrom p = some x ↔ p.key = c!"TRIGGER" ∧
      match x with
      | .duration d r =>
        (p.params.lookup c!"VALUE" = none ∨ p.params.lookup c!"VALUE" = some c!"DURATION") ∧
        Iso8601.parse p.val = some d ∧
        ∀ y, r = some y ↔ p.params.lookup c!"RELATED" = some (relatedText y)
      | .dateTime (.utc t) => p.params.lookup c!"VALUE" = some c!"DATE-TIME" ∧ LooseDateTime p.val t.naive ['Z']
      | .dateTime (.floating t) => p.params.lookup c!"VALUE" = some c!"DATE-TIME" ∧ LooseDateTime p.val t []
      | .dateTime (.zoned _ _) => False := by
  have hz : ∀ t u, parseDateTime p.val = some t → parseUtc p.val = some u → False := fun t u h1 h2 =>
    parseDateTime_noZ h1 (parseUtc_z h2)
  have hrel : ∀ r, p.getParamAs c!"RELATED" Related.fromStr = r ↔
      ∀ y, r = some y ↔ p.params.get c!"RELATED" = some (relatedText y) := by
    have key : ∀ y, p.getParamAs c!"RELATED" Related.fromStr = some y ↔
        p.params.get c!"RELATED" = some (relatedText y) := by
      intro y
      unfold Property.getParamAs
      rw [Option.bind_eq_some_iff]
      constructor
      · rintro ⟨v, h1, h2⟩
        rw [h1, (related_iff _ _).1 h2]
      · intro h
        exact ⟨_, h, (related_iff _ _).2 rfl⟩
    intro r
    constructor
    · rintro rfl y
      exact key y
    · intro h
      refine Option.ext fun y => ?_
      rw [key, h]
  simp only [lookup_eq_get, ← parseDateTime_iff, ← parseUtc_iff, ← hrel]
  unfold Trigger.tryFrom
  by_cases hk : p.key = c!"TRIGGER"
  · rw [if_pos hk]
    simp only [hk, true_and]
    have hdur : (match Iso8601.parse p.val with
        | some d => some (Trigger.duration d (p.getParamAs c!"RELATED" Related.fromStr))
        | none => none) = some x ↔
        match x with
        | .duration d r => Iso8601.parse p.val = some d ∧ p.getParamAs c!"RELATED" Related.fromStr = r
        | .dateTime _ => False := by
      cases Iso8601.parse p.val with
      | none => cases x <;> simp
      | some d => cases x <;> simp
    cases hv : p.params.get c!"VALUE" with
    | none =>
      refine hdur.trans ?_
      cases x with
      | duration d r => simp
      | dateTime t => cases t <;> simp
    | some v =>
      simp only
      by_cases h1 : v = c!"DATE-TIME"
      · rw [if_pos h1, h1]
        unfold CalDateTime.fromStr
        cases hu : parseUtc p.val with
        | some u =>
          cases x with
          | duration d r => simp
          | dateTime t =>
            cases t with
            | zoned t z => simp
            | utc t => simp
            | floating t => simp; exact fun h => hz _ _ h hu
        | none =>
          cases hd : parseDateTime p.val with
          | none =>
            cases x with
            | duration d r => simp
            | dateTime t => cases t <;> simp
          | some t' =>
            cases x with
            | duration d r => simp
            | dateTime t => cases t <;> simp
      · rw [if_neg h1]
        by_cases h2 : v = c!"DURATION"
        · rw [if_pos h2, h2]
          refine hdur.trans ?_
          cases x with
          | duration d r => simp
          | dateTime t => cases t <;> simp
        · rw [if_neg h2]
          cases x with
          | duration d r => simp [h2]
          | dateTime t => cases t <;> simp [h1]
  · rw [if_neg hk]
    simp [hk]

/-- five minutes before the end; without VALUE, with VALUE=DURATION; a date is not a trigger -/
example : letI := Iso8601.sample
    Trigger.tryFrom ⟨c!"TRIGGER", c!"PT300S", [(c!"RELATED", c!"END"), (c!"VALUE", c!"DURATION")]⟩ =
      some (.afterEnd ⟨300 * 1000000000⟩) ∧
    Trigger.tryFrom ⟨c!"TRIGGER", c!"PT300S", [(c!"RELATED", c!"end")]⟩ = some (.duration ⟨300 * 1000000000⟩ none) ∧
    Trigger.tryFrom ⟨c!"TRIGGER", c!"20240105", [(c!"VALUE", c!"DATE")]⟩ = none ∧
    Trigger.tryFrom ⟨c!"TRIGGER", c!"20240105T010203Z", []⟩ = none ∧
    Trigger.tryFrom ⟨c!"TRIGGER", c!"20240105T010203Z", [(c!"TZID", c!"Europe/Berlin"), (c!"VALUE", c!"DATE-TIME")]⟩ =
      some (.dateTime (.utc ⟨⟨⟨2024, 1, 5⟩, 1, 2, 3, 0⟩⟩)) := by decide +kernel

end Ical
