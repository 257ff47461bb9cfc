import Verif.Examples.Grep
import Verif.Props.TakeOut

/-! The theorems about taking components out of a file by a line, applied to a concrete calendar. -/

namespace Ical.Sample

open Nom Spec

theorem c_uids : ∀ p ∈ calendarProps c, p.key = c!"UID" → ∀ line, ContentLine p line → blen line ≤ 75 := by
  have key : ∀ p ∈ calendarProps c, p.key = c!"UID" → p.params = [] ∧ blen (p.key ++ ':' :: rawText p) ≤ 75 := by
    simp only [calendarProps, c, List.map_cons, List.map_nil, propsWithinAll, CalComp.toOther, Component.toOther,
      Other.ofInner, propsWithin]
    decide +kernel
  intro p hp hk line hl
  rw [(contentLine_single (key p hp hk).1).1 hl]
  exact (key p hp hk).2

-- C149
example := taken_out (k := c!"UID") (v := c!"u3") ✓ c_ok c_safe c_stamps c_unbroken c_uids w_ok c_text
example := taken_only (k := c!"LOCALITY") (v := c!"Bonn") ✓ c_ok c_safe c_stamps c_unbroken c_whole w_ok c_text

-- the event has the UID of the alarm in it, among its lines
example : c.comps.map (fun x => decide (Carries c!"UID" c!"u2" x)) = [true, false, false, false] := by decide +kernel
example : c.comps.map (fun x => decide (Carries c!"UID" c!"u3" x)) = [false, true, false, false] := by decide +kernel
example : takeOut c!"UID:u3\r\n" c!"BEGIN:VCALENDAR\r\nBEGIN:VTODO\r\nUID:u3\r\nEND:VTODO\r\nBEGIN:VEVENT\r\nUID:u31\r\nEND:VEVENT\r\nEND:VCALENDAR\r\n" =
    c!"BEGIN:VCALENDAR\r\nBEGIN:VEVENT\r\nUID:u31\r\nEND:VEVENT\r\nEND:VCALENDAR\r\n" := by decide +kernel

end Ical.Sample
