import Verif.Examples.StripBlocks
import Verif.Props.Retitle

/-! The theorems about giving components another name in a file, applied to concrete files. -/

namespace Ical.Sample

open Nom Spec

theorem doc2_capital : CapitalBlocks c!"VALARM" [.prop c!"NAME" [] c!"x\\,y",
    .comp c!"BEGIN:" c!"end:" c!"VEVENT" [.prop c!"DTSTART" [⟨c!"VALUE", some (false, c!"DATE")⟩, ⟨c!"X", some (true, c!"a:b")⟩]
      c!"20260101", .comp c!"BEGIN:" c!"END:" c!"VALARM" [.prop c!"ACTION" [] c!"AUDIO"]], .prop c!"VERSION" [] c!"2.0"] := by
  simp only [CapitalBlocks]
  decide +kernel

-- C156
example := retitled_unfold (k := c!"VALARM") (k' := c!"X-ALARM") (s := cText) (by decide +kernel) (by decide +kernel) (by decide +kernel)
example := retitled_document (k := c!"VALARM") (k' := c!"X-ALARM") (by decide +kernel) (by decide +kernel) (doc2_ok .crlf) doc2_unbroken
  (by decide) doc2_capital doc2_presents (by decide +kernel)
example := retitled_calendar (k := c!"VALARM") (k' := c!"X-ALARM") (by decide +kernel) (by decide +kernel) (by decide) (doc2_ok .lf)
  doc2_unbroken doc2_capital doc2_presents_lf (by decide +kernel)
example := retitled_written (k := c!"VTODO") (k' := c!"VEVENT") (by decide +kernel) (by decide +kernel) (by decide) c_ok c_safe c_stamps
  c_unbroken c_all_findable w_ok c_text

-- a task becomes an event; a value with the same text, a longer name and a continued line stay
example : retitleBlocks c!"VTODO" c!"VEVENT"
    c!"BEGIN:VTODO\r\nSUMMARY:BEGIN:VTODO\r\nBEGIN:VTODOS\nEND:VTODOS\nX:a\n BEGIN:VTODO\nEND:VTODO\n" =
    c!"BEGIN:VEVENT\r\nSUMMARY:BEGIN:VTODO\r\nBEGIN:VTODOS\nEND:VTODOS\nX:a\n BEGIN:VTODO\nEND:VEVENT\n" := by
  decide +kernel

end Ical.Sample
