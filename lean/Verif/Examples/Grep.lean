import Verif.Examples.Redact
import Verif.Props.Grep

/-! The theorems about looking for the lines of a name, applied to a concrete calendar. -/

namespace Ical.Sample

open Nom Spec

theorem c_whole : ∀ p ∈ calendarProps c, p.key = c!"LOCALITY" → ∀ line, ContentLine p line → blen line ≤ 75 := by
  intro p hp hk
  have := c_named p hp
  unfold ShortNamed at this
  rwa [if_pos hk] at this

theorem c_findable : ∀ p ∈ calendarProps c, p.key = c!"LOCALITY" → Findable p :=
  fun p hp hk line hl => .inl (c_whole p hp hk line hl)

-- a property with a long line that is findable
example : Findable ⟨c!"COMMENT", List.replicate 100 'a', []⟩ := by
  rintro line ⟨params, forms, hp, hf, rfl⟩
  obtain rfl := hp.eq_nil
  cases forms with
  | nil => exact .inr (by decide +kernel)
  | cons => cases hf

-- C146
example := lines_of_name (k := c!"UID") ✓ c_ok c_unbroken (.inr c_stamps) w_ok c_text
example := lines_of_name (k := c!"SUMMARY") ✓ c_ok c_unbroken (.inl (by decide)) w_ok c_text
example := lines_found (k := c!"LOCALITY") ✓ c_ok c_unbroken (.inl (by decide)) c_findable w_ok c_text
example := lines_whole (k := c!"LOCALITY") ✓ c_ok c_unbroken (.inl (by decide)) c_whole w_ok c_text

end Ical.Sample
