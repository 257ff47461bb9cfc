import Verif.Examples.Lossy
import Verif.Props.Replaced

/-!
Applications of the theorems about replaced characters (C140).
-/

namespace Ical.Sample

open Nom Spec

/-- everything that is not in ASCII becomes a question mark -/
def question (c : Char) : Str := if c.toNat < 128 then [c] else ['?']

theorem question_ok : Replacement question where
  ascii := fun c hc => by simp [question, hc]
  some := fun c hc => by rw [question, if_neg (by omega)]; simp
  plain := fun c hc => by rw [question, if_neg (by omega)]; decide

theorem question_mild : MildReplacement question := fun c hc => by rw [question, if_neg (by omega)]; decide

/-- `ä` becomes `ae`, `ñ` becomes `n`, the space that does not break becomes a space, and everything else becomes `_` -/
def latin (c : Char) : Str :=
  if c.toNat < 128 then [c] else if c = 'ä' then c!"ae" else if c = 'ñ' then ['n'] else if c.toNat = 160 then [' '] else ['_']

theorem latin_ok : Replacement latin where
  ascii := fun c hc => by simp [latin, hc]
  some := fun c hc => by
    rw [latin, if_neg (by omega)]
    split
    · decide
    · split
      · simp
      · split <;> simp
  plain := fun c hc => by
    rw [latin, if_neg (by omega)]
    split
    · decide
    · split
      · decide
      · split <;> decide

example := mild_replacement question_mild c!"ä\\,ä"

example := replaced_text question_ok c!"aä\r\n b"

/-- a text in which nothing appears; the other side conditions hold as well -/
theorem latin_text : NoNewFold latin umlautFile ∧ NoNewEscape latin (unfold umlautFile) := by
  have h : ∀ x : Char, x ∈ umlautFile → 128 ≤ x.toNat → x = 'ä' := by decide +kernel
  have hu : unfold umlautFile = umlautFile := by decide +kernel
  rw [hu]
  constructor
  · intro c hc hi
    rw [h c (hi.subset (by simp)) hc]
    decide
  · intro c hc hi
    rw [h c (hi.subset (by simp)) hc]
    decide

theorem umlaut_types : (Item.comp c!"BEGIN:" c!"END:" c!"VCALENDAR" umlaut).NamesAre Ascii AsciiType := by
  simp only [umlaut, Item.NamesAre, ItemsNamesAre]
  decide +kernel

example := replaced_document latin_ok umlaut_ok umlaut_types (presents (br := .crlf) ✓ nofun) latin_text.1 latin_text.2

example := replaced_calendar latin_ok umlaut_ok umlaut_types (presents (br := .crlf) ✓ nofun) latin_text.1 latin_text.2

example : replaced latin c!"NAME;X=\"ä\":ä" = c!"NAME;X=\"ae\":ae" := by decide +kernel

theorem c_asciiTypes : NamesAreCal Ascii AsciiType c :=
  ⟨by decide +kernel, c_comps ⟨by decide +kernel, by decide +kernel, by decide +kernel,
      ⟨by decide +kernel, by decide +kernel, by decide +kernel, trivial⟩, trivial⟩
    ⟨by decide +kernel, by decide +kernel, by decide +kernel, trivial⟩
    ⟨by decide +kernel, by decide +kernel, by decide +kernel, trivial⟩
    ⟨by decide +kernel, by decide +kernel, by decide +kernel, trivial⟩⟩

example := replaced_written question_ok c_ok c_safe c_stamps c_asciiTypes w_ok c_text (mild_replacement question_mild _).1
  (mild_replacement question_mild _).2

/-- where an escape sequence appears the value is read differently -/
example : ¬ NoNewEscape latin c!"El Ni\\ño" ∧ unescapeText (replaced latin c!"El Ni\\ño") ≠ replaced latin (unescapeText c!"El Ni\\ño") := by
  refine ⟨fun h => ?_, by decide +kernel⟩
  have := h 'ñ' (by decide) (by decide) 'n' (by decide)
  exact this.2.1 rfl

/-- where a fold appears two lines become one -/
example : ¬ NoNewFold latin ['a', '\n', Char.ofNat 160, 'b'] ∧
    unfold (replaced latin ['a', '\n', Char.ofNat 160, 'b']) ≠ replaced latin (unfold ['a', '\n', Char.ofNat 160, 'b']) := by
  refine ⟨fun h => ?_, by decide +kernel⟩
  have := h (Char.ofNat 160) (by decide) (by decide) ' ' (by decide +kernel)
  exact this.1 rfl

end Ical.Sample
