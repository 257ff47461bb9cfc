import Verif.Examples.Rename
import Verif.Props.EditFolded

/-! The theorems about removing and replacing folded lines, applied to concrete files. -/

namespace Ical.Sample

open Nom Spec

-- C154
example := removed_folded (k := c!"DESCRIPTION") (s := c!"DESCRIPTION:a\r\n b\r\nSUMMARY:c\r\n") (by decide) (by decide +kernel)
example := replaced_folded (k := c!"DESCRIPTION") (x := c!"DESCRIPTION:d\r") (s := c!"DESCRIPTION:a\r\n b\r\nSUMMARY:c\r\n") (by decide)
  (by decide) ⟨by decide, by decide⟩ (by decide +kernel)
example := removed_calendar (k := c!"ACTION") ✓ (doc2_ok .crlf) doc2_unbroken doc2_presents (by decide +kernel)
-- the description is folded
example := removed_written (k := c!"DESCRIPTION") ✓ c_ok c_safe c_stamps c_unbroken c_all_findable w_ok c_text
example := exchanged_calendar (k := c!"DTSTART") (params := []) (val := c!"20260101") ✓ (doc2_ok .lf) doc2_unbroken doc2_presents_lf
  (by decide +kernel) (by simp only [Item.Ok]; exact ⟨by decide +kernel, (fun _ h => by cases h), by simp only [ValOk]; decide⟩)
  (by simp only [Item.Unbroken]; decide +kernel)
example := exchanged_written c_ok c_safe c_stamps c_unbroken c_all_findable w_ok c_text
  (p := ⟨c!"DTSTART", c!"20260101T000000Z", []⟩) (by decide +kernel) (by decide +kernel) ⟨by decide, by decide, by decide⟩ w_ok
  (line := c!"DTSTART:20260101T000000Z\r\n") (by decide +kernel)

-- the whole description is removed or replaced, a continuation of another line is kept
example : withoutFolded c!"DESCRIPTION" c!"SUMMARY:a\n b\nDESCRIPTION:c\n d\n\te\nCLASS:f\n g\n" = c!"SUMMARY:a\n b\nCLASS:f\n g\n" := by
  decide +kernel
example : replaceFolded c!"DESCRIPTION" c!"DESCRIPTION:h\n" c!"SUMMARY:a\n b\nDESCRIPTION:c\n d\n\te\nCLASS:f\n g\n" =
    c!"SUMMARY:a\n b\nDESCRIPTION:h\nCLASS:f\n g\n" := by
  decide +kernel

end Ical.Sample
