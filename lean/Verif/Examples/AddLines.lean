import Verif.Examples.Redact
import Verif.Props.AddLines

/-! The theorems about adding lines to components, applied to concrete files. -/

namespace Ical.Sample

open Nom Spec

-- C151
example := added_file (key := c!"CLASS") (params := []) (val := c!"PRIVATE") (doc2_ok .crlf) doc2_unbroken doc2_presents
  (by simp only [Item.Ok]; exact ⟨by decide +kernel, (fun _ h => by cases h), by simp only [ValOk]; decide⟩) (by simp only [Item.Unbroken]; decide +kernel) false c!"VEVENT"
example := added_file (key := c!"CATEGORIES") (params := []) (val := c!"a") (doc2_ok .lf) doc2_unbroken doc2_presents_lf
  (by simp only [Item.Ok]; exact ⟨by decide +kernel, (fun _ h => by cases h), by simp only [ValOk]; decide⟩) (by simp only [Item.Unbroken]; decide +kernel) true c!"VALARM"
example := added_unfold true c!"VEVENT" (x := c!"CLASS:PRIVATE\r")
  (s := c!"BEGIN:VCALENDAR\r\nBEGIN:VEVENT\r\nSUMMARY:a\r\n BEGIN:VEVENT\r\nEND:VEVENT\r\nEND:VCALENDAR\r\n") (by decide) ⟨by decide, by decide⟩
  ⟨by decide, by decide⟩ (by decide +kernel)
example := added_written c_ok c_safe c_stamps c_unbroken w_ok c_text (p := ⟨c!"CLASS", c!"PRIVATE", []⟩) (by decide +kernel)
  (by decide +kernel) ⟨by decide, by decide, by decide⟩ w_ok (line := c!"CLASS:PRIVATE\r\n") (by decide +kernel) false c!"VEVENT"

-- every event gets a class, the alarm does not
example : addLine true c!"VEVENT" c!"CLASS:PRIVATE\n"
    c!"BEGIN:VCALENDAR\nBEGIN:VEVENT\nBEGIN:VALARM\nEND:VALARM\nEND:VEVENT\nbegin:VEVENT\nend:VEVENT\nEND:VCALENDAR\n" =
    c!"BEGIN:VCALENDAR\nBEGIN:VEVENT\nBEGIN:VALARM\nEND:VALARM\nCLASS:PRIVATE\nEND:VEVENT\nbegin:VEVENT\nCLASS:PRIVATE\nend:VEVENT\nEND:VCALENDAR\n" := by
  decide +kernel

end Ical.Sample
