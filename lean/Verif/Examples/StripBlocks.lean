import Verif.Examples.Rename
import Verif.Props.StripBlocks

/-! The theorems about removing components from a file, applied to concrete files. -/

namespace Ical.Sample

open Nom Spec

theorem doc2_flatBlocks : FlatBlocks c!"VALARM" [.prop c!"NAME" [] c!"x\\,y",
    .comp c!"BEGIN:" c!"end:" c!"VEVENT" [.prop c!"DTSTART" [⟨c!"VALUE", some (false, c!"DATE")⟩, ⟨c!"X", some (true, c!"a:b")⟩]
      c!"20260101", .comp c!"BEGIN:" c!"END:" c!"VALARM" [.prop c!"ACTION" [] c!"AUDIO"]], .prop c!"VERSION" [] c!"2.0"] := by
  simp only [FlatBlocks, NoBlock]
  decide +kernel

theorem c_unnested : Unnested c!"VALARM" (c.comps.map CalComp.toOther) := by
  simp [c, CalComp.toOther, Component.toOther, Other.ofInner, Unnested, NoneNamed, Component.kind, Component.inner, event, todo,
    venue, Other.inner, Other.name]

-- C155
example := unblocked_unfold (k := c!"VALARM") (s := cText) (by decide) (by decide +kernel)
example := unblocked_document (k := c!"VALARM") (by decide +kernel) (doc2_ok .crlf) doc2_unbroken (by decide) doc2_flatBlocks doc2_presents
  (by decide +kernel)
example := unblocked_calendar (k := c!"VALARM") (by decide +kernel) (by decide) (doc2_ok .lf) doc2_unbroken doc2_flatBlocks doc2_presents_lf
  (by decide +kernel)
example := unblocked_written (k := c!"VALARM") (by decide +kernel) (by decide) c_ok c_safe c_stamps c_unbroken c_all_findable c_unnested w_ok c_text

-- both alarms are removed, a value with the same text is not
example : withoutBlocks c!"VALARM"
    c!"BEGIN:VEVENT\nBEGIN:VALARM\nACTION:a\nEND:VALARM\nSUMMARY:BEGIN:VALARM\nBEGIN:VALARM\nX:b\n c\nEND:VALARM\nEND:VEVENT\n" =
    c!"BEGIN:VEVENT\nSUMMARY:BEGIN:VALARM\nEND:VEVENT\n" := by
  decide +kernel

-- why components of the name must not contain each other: an end is left over
example : withoutBlocks c!"X" c!"BEGIN:X\nBEGIN:X\nEND:X\nEND:X\n" = c!"END:X\n" := by
  decide +kernel

end Ical.Sample
