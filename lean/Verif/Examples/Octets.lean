import Verif.Examples.Merge
import Verif.Props.Octets

/-!
Applications of the theorems about octets (C138).
-/

namespace Ical.Sample

open Nom Spec

example : octets c!"aä€😀" = [0x61, 0xC3, 0xA4, 0xE2, 0x82, 0xAC, 0xF0, 0x9F, 0x98, 0x80] := by decide

/-- a fold in the middle of a character, as in `fixtures/icalendar-rb-bad-utf8/bad_wrapping.ics` -/
example : octetUnfold [0x61, 0xC3, 13, 10, 32, 0xA4] = octets c!"aä" := by decide

example := octet_programs c!"SUMMARY:ä\r\n b\r\n"

example := split_character (c := 'ä') (u := [0xC3]) (v := [0xA4]) (by decide) (by decide) (by decide) .crlf c!"a" [32, 0xA4]

theorem split_folded : OctetFolded .crlf (octets c!"aä") [0x61, 0xC3, 13, 10, 32, 0xA4] :=
  .keep (.keep (.fold (o := [0xA4]) (f := [0xA4]) (.inl rfl) (.keep .nil)))

example := octet_folded (br := .crlf) (t := c!"aä") (by decide) nofun split_folded

example := written_octet_lines p p_ok (by decide +kernel) (by decide +kernel) w w_ok pText p_text

theorem octetFolded_self (br : Break) (o : List Nat) : OctetFolded br o o := by
  induction o with
  | nil => exact .nil
  | cons x o ih => exact .keep ih

example := refolded_octets c_ok c_safe c_stamps w_ok c_text
  (.fold (.inl rfl) (octetFolded_self .crlf (octetUnfold (octets cText))))

end Ical.Sample
