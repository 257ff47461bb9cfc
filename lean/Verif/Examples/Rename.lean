import Verif.Examples.Grep
import Verif.Props.Rename

/-! The theorems about renaming lines, applied to concrete files. -/

namespace Ical.Sample

open Nom Spec

theorem c_all_findable : ∀ p ∈ calendarProps c, Findable p := by
  have key : ∀ p ∈ calendarProps c, (∀ c ∈ p.key, c.toNat < 128) ∧ p.key.length ≤ 73 ∧ p.val.head?.all (!isWhitespace ·) ∧
      ∀ x ∈ p.params, x.1.head?.all (!isWhitespace ·) := by
    simp only [calendarProps, c, List.map_cons, List.map_nil, propsWithinAll, CalComp.toOther, Component.toOther,
      Other.ofInner, propsWithin]
    decide +kernel
  intro p hp
  obtain ⟨h1, h2, h3, h4⟩ := key p hp
  refine plain_findable h1 h2 (fun c hc => ?_) (fun x hx c hc => ?_)
  · rw [hc] at h3; simpa using h3
  · have := h4 x hx; rw [hc] at this; simpa using this

theorem c_no_summary : ∀ p ∈ calendarProps c, p.key ≠ c!"SUMMARY" := by
  simp only [calendarProps, c, List.map_cons, List.map_nil, propsWithinAll, CalComp.toOther, Component.toOther,
    Other.ofInner, propsWithin]
  decide +kernel

-- C153
example := plain_findable (p := ⟨c!"DTSTART", c!"20260102", [(c!"VALUE", c!"DATE")]⟩) (by decide) (by decide) (by decide) (by decide)
-- the description is folded
example := written_notCut (k := c!"DESCRIPTION") ✓ c_ok c_unbroken c_all_findable w_ok c_text
example := renamed_written (k := c!"DESCRIPTION") (k' := c!"SUMMARY") ✓ ✓ (by decide) c_ok c_safe c_stamps c_unbroken c_all_findable c_no_summary w_ok c_text
example := renamed_unfold (k := c!"LOCALITY") (k' := c!"X-TOWN") (s := cText) (by decide) (by decide) (by decide +kernel)
-- a line of the name that is continued
example := renamed_unfold (k := c!"LOCATION") (k' := c!"X-PLACE")
  (s := c!"BEGIN:VEVENT\r\nLOCATION;X=y:a\r\n b\r\n LOCATION:c\r\nEND:VEVENT\r\n") (by decide) (by decide) (by decide +kernel)
example := renamed_document (k := c!"ACTION") (k' := c!"X-ACTION") ✓ ✓ (doc2_ok .crlf) doc2_unbroken doc2_presents (by decide +kernel)
example := renamed_calendar (k := c!"DTSTART") (k' := c!"DTEND") ✓ ✓ (by decide) (doc2_ok .lf) doc2_unbroken
  (by simp only [Unnamed]; decide +kernel) doc2_presents_lf (by decide +kernel)

end Ical.Sample
