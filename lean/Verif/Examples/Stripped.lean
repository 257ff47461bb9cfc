import Verif.Examples.Replaced
import Verif.Props.Stripped

/-!
Applications of the theorems about blanks at the ends of lines (C141).
-/

namespace Ical.Sample

open Nom Spec

example := stripped_same c!"a b\r\n c"

example : stripped c!"a \r\nb \t\n c  d\t" = c!"a\r\nb\n c  d" := by decide +kernel

example : BlanksMissing (unfold c!"a \r\n b \r\nc") (unfold (stripped c!"a \r\n b \r\nc")) := stripped_text (by decide +kernel)

/-- a document with blanks at the ends of values -/
def blanks : List Item :=
  [.prop c!"NAME" [⟨c!"X", some (true, c!"a: b ")⟩, ⟨c!"VALUE", some (false, c!"TEXT")⟩] c!"a, b  ",
   .comp c!"BEGIN:" c!"END:" c!"VEVENT" [.prop c!"UID" [] c!"1 "]]

theorem blanks_ok : (Item.comp c!"BEGIN:" c!"END:" c!"VCALENDAR" blanks).Ok .crlf := by
  simp only [blanks, Item.Ok, ItemsOk, ValOk, DParam.Ok, and_true, List.forall_mem_cons, List.not_mem_nil, false_implies,
    implies_true]
  repeat' apply And.intro
  all_goals decide +kernel

theorem blanks_names : (Item.comp c!"BEGIN:" c!"END:" c!"VCALENDAR" blanks).NamesAre AnyName PlainStart := by
  simp only [blanks, Item.NamesAre, ItemsNamesAre]
  decide +kernel

example := stripped_document blanks_ok blanks_names (presents (br := .crlf) ✓ nofun) (by decide +kernel)

example := stripped_calendar blanks_ok blanks_names (presents (br := .crlf) ✓ nofun) (by decide +kernel)

theorem c_plainStarts : NamesAreCal AnyName PlainStart c :=
  ⟨by decide +kernel, c_comps ⟨by decide +kernel, by decide +kernel, by decide +kernel,
      ⟨by decide +kernel, by decide +kernel, by decide +kernel, trivial⟩, trivial⟩
    ⟨by decide +kernel, by decide +kernel, by decide +kernel, trivial⟩
    ⟨by decide +kernel, by decide +kernel, by decide +kernel, trivial⟩
    ⟨by decide +kernel, by decide +kernel, by decide +kernel, trivial⟩⟩

example := stripped_written c_ok c_safe c_stamps c_plainStarts w_ok c_text (by decide +kernel)

/-- a line that consists of blanks is a fold before, and an empty line after -/
example : ¬ SafeEnds c!"a\n \nb" ∧ unfold c!"a\n \nb" = c!"a\nb" ∧ unfold (stripped c!"a\n \nb") = c!"a\n\nb" := by decide +kernel

/-- a backslash before the blanks comes to stand before the next character -/
example : ¬ SafeEnds c!"a\\ \r\n n" ∧ unescapeText (unfold c!"a\\ \r\n n") = c!"a\\ n" ∧
    unescapeText (unfold (stripped c!"a\\ \r\n n")) = c!"a\n" := by decide +kernel

end Ical.Sample
