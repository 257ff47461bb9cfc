import Verif.Examples.Redact
import Verif.Props.Brackets

/-! The theorems about the lines that begin and end components, applied to concrete files. -/

namespace Ical.Sample

open Nom Spec

-- C145
example := brackets_read (doc2_ok .crlf) doc2_unbroken doc2_presents
example := brackets_written c_ok c_unbroken w_ok c_text
example := count_written c_ok c_unbroken w_ok c_text true c!"VEVENT"

-- the file of a calendar with a long description that has the text of a line that begins a component in it
example : brackets c!"BEGIN:VCALENDAR\r\nDESCRIPTION:a\r\n BEGIN:VEVENT\r\nbegin:VEVENT\nEND:VEVENT\r\nEnd:VCALENDAR" =
    [(true, c!"VCALENDAR"), (true, c!"VEVENT"), (false, c!"VEVENT"), (false, c!"VCALENDAR")] := by decide +kernel

end Ical.Sample
