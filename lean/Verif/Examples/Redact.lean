import Verif.Examples.Breaks
import Verif.Examples.Search
import Verif.Props.Redact

/-! The theorems about removing lines, applied to concrete files. -/

namespace Ical.Sample

open Nom Spec

theorem doc2_unbroken : doc.Unbroken := by
  simp only [doc, Item.Unbroken, ItemsUnbroken]
  decide +kernel

theorem c_named : ∀ p ∈ calendarProps c, ShortNamed c!"LOCALITY" p := by
  have key : ∀ p ∈ calendarProps c, (p.key = c!"LOCALITY" → p = bonn) ∧
      (p.key ≠ c!"LOCALITY" → (∀ c ∈ p.key, c.toNat < 128) ∧ p.key.length ≤ 74 ∧ ¬ p.key <+: c!"LOCALITY") := by
    simp only [calendarProps, c, List.map_cons, List.map_nil, propsWithinAll, CalComp.toOther, Component.toOther,
      Other.ofInner, propsWithin]
    decide +kernel
  intro p hp
  unfold ShortNamed
  split
  · rename_i h
    rw [(key p hp).1 h]
    exact bonn_short
  · rename_i h
    exact (key p hp).2 h

-- C144
example := redacted_unfold (k := c!"LOCALITY") (s := cText) (by decide) (by decide +kernel)
example := redacted_document (k := c!"ACTION") ✓ (doc2_ok .crlf) doc2_unbroken doc2_presents (by decide +kernel)
example := redacted_calendar (k := c!"DTSTART") ✓ (doc2_ok .lf) doc2_unbroken doc2_presents_lf (by decide +kernel)
example := redacted_written (k := c!"DTSTART") ✓ c_ok c_safe c_stamps c_unbroken w_ok c_text (by decide +kernel)
example := redacted_leak (k := c!"DESCRIPTION") (by decide) (pre := c!"BEGIN:VEVENT\r\n") (x := c!"CLASS:PRIVATE\r")
  (y := c!"DESCRIPTION:a\r") (b := ' ') (r := c!"b\r\nEND:VEVENT\r\n") (.inr ✓) (by decide) (by decide) (by decide) (by decide)
  (.inl rfl)
example := name_not_cut (key := c!"DESCRIPTION") (d := ':') (rest := c!"a") (out := c!"DESCRIPTION:a") (by decide +kernel)
  (by unfold IsAscii; decide) (by decide) (by decide)
example := written_notContinued (k := c!"LOCALITY") ✓ c_ok c_unbroken c_named w_ok c_text
example := redacted_short (k := c!"LOCALITY") ✓ c_ok c_safe c_stamps c_unbroken c_named w_ok c_text

end Ical.Sample
