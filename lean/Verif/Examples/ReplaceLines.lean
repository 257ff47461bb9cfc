import Verif.Examples.Redact
import Verif.Props.ReplaceLines

/-! The theorems about replacing lines, applied to concrete files. -/

namespace Ical.Sample

open Nom Spec

-- C152
example := restated_unfold (k := c!"LOCALITY") (x := c!"LOCALITY:Berlin\r") (s := cText) (by decide) (by decide)
  ⟨by decide, by decide⟩ (by decide +kernel)
example := restated_document (k := c!"ACTION") (params := []) (val := c!"AUDIO") ✓ (doc2_ok .crlf) doc2_unbroken doc2_presents
  (by decide +kernel) (by simp only [Item.Ok]; exact ⟨by decide +kernel, (fun _ h => by cases h), by simp only [ValOk]; decide⟩)
  (by simp only [Item.Unbroken]; decide +kernel)
example := restated_calendar (k := c!"DTSTART") (params := []) (val := c!"20260101") ✓ (doc2_ok .lf) doc2_unbroken doc2_presents_lf
  (by decide +kernel) (by simp only [Item.Ok]; exact ⟨by decide +kernel, (fun _ h => by cases h), by simp only [ValOk]; decide⟩)
  (by simp only [Item.Unbroken]; decide +kernel)
example := restated_written c_ok c_safe c_stamps c_unbroken w_ok c_text (p := ⟨c!"DTSTART", c!"20260101T000000Z", []⟩) (by decide +kernel)
  (by decide +kernel) ⟨by decide, by decide, by decide⟩ w_ok (line := c!"DTSTART:20260101T000000Z\r\n") (by decide +kernel)
  (by decide +kernel)
example := restated_short c_ok c_safe c_stamps c_unbroken w_ok c_text (p := ⟨c!"LOCALITY", c!"Berlin", []⟩) (by decide +kernel)
  (by decide +kernel) ⟨by decide, by decide, by decide⟩ w_ok (line := c!"LOCALITY:Berlin\r\n") (by decide +kernel) c_named

-- the place is replaced in the event and in the alarm, a value with the same text is not
example : replaceLines c!"LOCATION" c!"LOCATION:a\n"
    c!"BEGIN:VEVENT\nLOCATION;X=y:b\nSUMMARY:LOCATION:b\nBEGIN:VALARM\nLOCATION:c\nEND:VALARM\nEND:VEVENT\n" =
    c!"BEGIN:VEVENT\nLOCATION:a\nSUMMARY:LOCATION:b\nBEGIN:VALARM\nLOCATION:a\nEND:VALARM\nEND:VEVENT\n" := by
  decide +kernel

end Ical.Sample
