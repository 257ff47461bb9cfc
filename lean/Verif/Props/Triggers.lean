import Verif.Props.Alarms
import Verif.Props.DateText

/-!
C89: what is read from a TRIGGER property, whoever wrote it.
-/

namespace Ical

open Spec

/-- The relation a RELATED parameter names; other texts name none. -/
def Spec.relationNamed : Option Str → Option Related
  | some r => if r = c!"START" then some .start else if r = c!"END" then some .end_ else none
  | none => none

theorem related_param (p : Property) :
    p.getParamAs c!"RELATED" Related.fromStr = relationNamed (p.params.lookup c!"RELATED") := by
  rw [lookup_eq_get]
  unfold Property.getParamAs relationNamed
  cases p.params.get c!"RELATED" <;> rfl

/-- **C89.** A TRIGGER property is a duration if it has no VALUE parameter or VALUE=DURATION. The text decides which
one, and RELATED whether it counts from the start or from the end; a RELATED that is neither is taken as absent. -/
theorem trigger_duration_read [Iso8601] (p : Property) (hk : p.key = c!"TRIGGER")
    (hv : p.params.lookup c!"VALUE" = none ∨ p.params.lookup c!"VALUE" = some c!"DURATION") :
    (∀ n, n < 4294967296 → (p.val = c!"PT" ++ natToStr n ++ ['S'] ∨ n = 0 ∧ p.val = c!"P0D") →
      Trigger.tryFrom p = some (.duration ⟨n * 1000000000⟩ (relationNamed (p.params.lookup c!"RELATED")))) ∧
    (∀ s, p.val = '-' :: s → Trigger.tryFrom p = none) ∧
    (∀ t, Trigger.tryFrom p = some t →
      t.asDateTime = none ∧ t.related = relationNamed (p.params.lookup c!"RELATED")) := by
  have key : Trigger.tryFrom p = (Iso8601.parse p.val).map fun d =>
      .duration d (relationNamed (p.params.lookup c!"RELATED")) := by
    unfold Trigger.tryFrom
    rw [if_pos hk, ← related_param]
    rw [lookup_eq_get] at hv
    rcases hv with hv | hv
    · rw [hv]
      cases Iso8601.parse p.val <;> rfl
    · rw [hv]
      simp only
      rw [if_neg (by decide), if_pos trivial]
      cases Iso8601.parse p.val <;> rfl
  rw [key]
  refine ⟨?_, ?_, ?_⟩
  · intro n hn h
    have : Iso8601.parse p.val = some ⟨n * 1000000000⟩ := by
      rcases h with h | ⟨h0, h⟩
      · rw [h]; exact Iso8601.parse_secs n hn
      · subst h0; rw [h]; exact Iso8601.parse_zero
    rw [this]
    rfl
  · intro s h
    unfold Iso8601.parse
    rw [h, Iso8601.parse_neg]
    rfl
  · intro t h
    cases hp : Iso8601.parse p.val with
    | none => rw [hp] at h; cases h
    | some d => rw [hp] at h; cases h; exact ⟨rfl, rfl⟩

/-- **C89.** A TRIGGER property with VALUE=DATE-TIME is the time its text names, if there is such a time: UTC if the
text ends in `Z`, floating otherwise. TZID and RELATED do not count. -/
theorem trigger_date_time_read [Iso8601] (p : Property) (hk : p.key = c!"TRIGGER")
    (hv : p.params.lookup c!"VALUE" = some c!"DATE-TIME") (s t : Str) (y m d h mi sec : Nat)
    (hs : DateText s y m d) (ht : TimeText t h mi sec) :
    (p.val = s ++ 'T' :: t ++ ['Z'] →
      Trigger.tryFrom p = if DayExists y m d ∧ TimeExists h mi sec then
        some (.dateTime (.utc ⟨timeOn ⟨y, m, d⟩ h mi sec⟩)) else none) ∧
    (p.val = s ++ 'T' :: t →
      Trigger.tryFrom p = if DayExists y m d ∧ TimeExists h mi sec then
        some (.dateTime (.floating (timeOn ⟨y, m, d⟩ h mi sec))) else none) ∧
    (p.val = s → Trigger.tryFrom p = none) := by
  have key : Trigger.tryFrom p = (CalDateTime.fromStr p.val).map .dateTime := by
    unfold Trigger.tryFrom
    rw [lookup_eq_get] at hv
    rw [if_pos hk, hv]
    rfl
  rw [key]
  unfold CalDateTime.fromStr
  refine ⟨?_, ?_, ?_⟩
  · intro hp
    obtain ⟨_, h2, h3⟩ := utc_parses hs ht
    rw [hp, h2, h3]
    by_cases he : DayExists y m d ∧ TimeExists h mi sec
    · rw [if_pos he, if_pos he]; rfl
    · rw [if_neg he, if_neg he]; rfl
  · intro hp
    obtain ⟨_, h2, h3⟩ := dateTime_parses hs ht
    rw [hp, h2, h3]
    by_cases he : DayExists y m d ∧ TimeExists h mi sec
    · rw [if_pos he, if_pos he]; rfl
    · rw [if_neg he, if_neg he]; rfl
  · intro hp
    obtain ⟨_, h2, h3⟩ := date_parses hs
    rw [hp, h2, h3]
    rfl

/-- **C89.** Nothing else is a trigger: neither a property with another name, whatever its letters, nor one with
another VALUE. -/
theorem trigger_nothing_else [Iso8601] (p : Property) (t : Trigger) (h : Trigger.tryFrom p = some t) :
    p.key = c!"TRIGGER" ∧
    (t.asDateTime = none ∧
        (p.params.lookup c!"VALUE" = none ∨ p.params.lookup c!"VALUE" = some c!"DURATION") ∨
      t.asDuration = none ∧ p.params.lookup c!"VALUE" = some c!"DATE-TIME") := by
  unfold Trigger.tryFrom at h
  rw [lookup_eq_get]
  split at h
  · rename_i hk
    refine ⟨hk, ?_⟩
    cases hg : p.params.get c!"VALUE" with
    | none =>
      rw [hg] at h
      simp only at h
      cases hp : Iso8601.parse p.val with
      | none => rw [hp] at h; cases h
      | some d => rw [hp] at h; cases h; exact .inl ⟨rfl, .inl rfl⟩
    | some v =>
      rw [hg] at h
      simp only at h
      split at h
      · rename_i hv
        subst hv
        cases hp : CalDateTime.fromStr p.val with
        | none => rw [hp] at h; cases h
        | some d => rw [hp] at h; cases h; exact .inr ⟨rfl, rfl⟩
      · split at h
        · rename_i hv
          subst hv
          cases hp : Iso8601.parse p.val with
          | none => rw [hp] at h; cases h
          | some d => rw [hp] at h; cases h; exact .inl ⟨rfl, .inr rfl⟩
        · cases h
  · cases h

/-- five minutes after the end, with the type of the value spelled out -/
example : letI := Iso8601.sample
    Trigger.tryFrom ⟨c!"TRIGGER", c!"PT300S", [(c!"RELATED", c!"END"), (c!"VALUE", c!"DURATION")]⟩ =
      some (.afterEnd ⟨300 * 1000000000⟩) :=
  letI := Iso8601.sample
  (trigger_duration_read ⟨c!"TRIGGER", c!"PT300S", [(c!"RELATED", c!"END"), (c!"VALUE", c!"DURATION")]⟩ rfl
    (.inr (by decide +kernel))).1 300 (by decide) (.inl (by decide +kernel))

/-- New Year's Day 2000 -/
example : letI := Iso8601.sample
    Trigger.tryFrom ⟨c!"TRIGGER", c!"20000101T000000Z", [(c!"VALUE", c!"DATE-TIME")]⟩ =
      some (.dateTime (.utc ⟨⟨⟨2000, 1, 1⟩, 0, 0, 0, 0⟩⟩)) := by
  decide +kernel

end Ical
