import Verif.Examples.Redact
import Verif.Props.FileBlocks

/-! The theorem about copying components of the files of others, applied to concrete files. -/

namespace Ical.Sample

open Nom Spec

-- C148
example := selected_file (doc2_ok .crlf) doc2_unbroken doc2_presents (fun block => decide (c!"BEGIN:VEVENT" <+: block))
example := selected_file (doc2_ok .lf) doc2_unbroken doc2_presents_lf (fun block => decide (block.length < 100))
example := selected_unfold (fun block => decide (c!"BEGIN:VEVENT" <+: block))
  (s := c!"BEGIN:VCALENDAR\r\nBEGIN:VEVENT\r\nSUMMARY:a\r\n BEGIN:VEVENT\r\nEND:VEVENT\r\nEND:VCALENDAR\r\n") ⟨by decide, by decide⟩ (by decide +kernel)
example := selected_folded (doc2_ok .crlf) doc2_unbroken doc2_presents (by decide +kernel) (fun block => decide (block.length < 100))

-- in files in which the end of a component is folded, a part of it is left
example : selectBlocks (fun _ => false) c!"BEGIN:VCALENDAR\r\nBEGIN:VEVENT\r\nEND:VEV\r\n ENT\r\nEND:VCALENDAR\r\n" =
    c!"BEGIN:VCALENDAR\r\n ENT\r\nEND:VCALENDAR\r\n" := by decide +kernel

-- an event with blank lines in it is left out, the lines after it are copied
example : selectBlocks (fun block => decide (c!"BEGIN:VTODO" <+: block))
    c!"\nBegin:VCALENDAR\n\nBEGIN:VEVENT\n\nBEGIN:VALARM\nend:VALARM\nEND:VEVENT\n\nX:1\nBEGIN:VTODO\nEND:VTODO\nEND:VCALENDAR" =
    c!"\nBegin:VCALENDAR\n\n\nX:1\nBEGIN:VTODO\nEND:VTODO\nEND:VCALENDAR" := by decide +kernel

end Ical.Sample
