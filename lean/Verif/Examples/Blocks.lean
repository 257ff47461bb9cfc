import Verif.Examples.Redact
import Verif.Props.Blocks

/-! The theorems about copying components line by line, applied to a concrete calendar. -/

namespace Ical.Sample

open Nom Spec

-- C147
example := selected_written c_ok c_unbroken w_ok c_text (fun block => decide (c!"BEGIN:VEVENT" <+: block))
example := selected_read c_ok c_safe c_stamps c_unbroken w_ok c_text (fun block => decide (block.length < 100))

-- an event is left out with the alarm in it, the rest is copied
example : selectBlocks (fun block => decide (c!"BEGIN:VTODO" <+: block))
    c!"BEGIN:VCALENDAR\r\nX:1\r\nBEGIN:VEVENT\r\nBEGIN:VALARM\r\nEND:VALARM\r\nEND:VEVENT\r\nBEGIN:VTODO\r\nEND:VTODO\r\nEND:VCALENDAR\r\n" =
    c!"BEGIN:VCALENDAR\r\nX:1\r\nBEGIN:VTODO\r\nEND:VTODO\r\nEND:VCALENDAR\r\n" := by decide +kernel

end Ical.Sample
