import Verif.Examples.Redact
import Verif.Props.Recombine

/-! The theorems about files put together from parts of files, applied to a concrete calendar. -/

namespace Ical.Sample

open Nom Spec

theorem c_parts : ∀ x ∈ c.comps.zip (blocksOf cText), InAFile x :=
  fun _ hx => ⟨c, w, cText, c_ok, c_safe, c_stamps, c_unbroken, w_ok, c_text, hx⟩

-- there is one text for each of the four components
example : (c.comps.zip (blocksOf cText)).length = 4 := by decide +kernel

-- C150
example := file_parts c_ok c_unbroken w_ok c_text
-- the components in reverse order
example := recombined c_ok c_safe c_unbroken w_ok c_text (picks := (c.comps.zip (blocksOf cText)).reverse)
  (fun x hx => c_parts x (List.mem_reverse.1 hx))
-- all of them twice
example := recombined c_ok c_safe c_unbroken w_ok c_text (picks := c.comps.zip (blocksOf cText) ++ c.comps.zip (blocksOf cText))
  (fun x hx => c_parts x ((List.mem_append.1 hx).elim id id))

example : blocksOf c!"BEGIN:VCALENDAR\r\nX:1\r\nBEGIN:VEVENT\r\nBEGIN:VALARM\r\nEND:VALARM\r\nEND:VEVENT\r\nBEGIN:VTODO\r\nEND:VTODO\r\nEND:VCALENDAR\r\n" =
    [c!"BEGIN:VEVENT\r\nBEGIN:VALARM\r\nEND:VALARM\r\nEND:VEVENT\r\n", c!"BEGIN:VTODO\r\nEND:VTODO\r\n"] := by decide +kernel

end Ical.Sample
