import Verif.Examples.Samples
import Verif.Props.Search

/-! The theorems about searching, applied to a concrete calendar. -/

namespace Ical.Sample

open Nom Spec

/-- the place of the venue -/
def bonn : Property := ⟨c!"LOCALITY", c!"Bonn", []⟩

theorem bonn_mem : bonn ∈ calendarProps c := by
  simp only [calendarProps, c, List.map_cons, List.map_nil, propsWithinAll, List.mem_append]
  right; right; right; left
  simp only [CalComp.toOther, Component.toOther, Other.ofInner, propsWithin, List.mem_append]
  left
  decide +kernel

theorem bonn_word : SearchWord c!"onn" := ⟨by decide, by decide⟩

theorem bonn_short : ∀ line, ContentLine bonn line → blen line ≤ 75 := by
  rintro line ⟨params, forms, h, h', rfl⟩
  obtain rfl : params = [] := h.eq_nil
  cases forms with
  | nil => decide +kernel
  | cons x l => exact h'.elim

-- C143
example := search_value brokenSummary (w := c!"November") ⟨by decide, by decide⟩
example := search_lines c c_plain.1 c_plain.2 w w_ok cText c_text
example := search_finds c c_plain.1 c_plain.2 w w_ok cText c_text bonn_mem bonn_word (by decide)
example := search_folded p w w_ok pText p_text
example := search_short c w w_ok cText c_text bonn_mem bonn_short bonn_word (by decide)

end Ical.Sample
