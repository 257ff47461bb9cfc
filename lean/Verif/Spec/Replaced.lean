import Verif.Spec.SameBut
import Verif.Spec.Text
import Verif.Spec.Lines

/-!
Specification of texts in which characters that are not in ASCII were replaced, as programs do that convert files to other
character sets.
-/

namespace Ical.Spec

open Ical

/-- A replacement of characters: ASCII stays; every other character becomes one or more characters, but no quotation mark,
backslash, colon, semicolon or line break. -/
structure Replacement (sub : Char → Str) : Prop where
  ascii : ∀ c, c.toNat < 128 → sub c = [c]
  some : ∀ c, 128 ≤ c.toNat → sub c ≠ []
  plain : ∀ c, 128 ≤ c.toNat → ∀ x ∈ sub c, x ∉ ['"', '\\', ':', ';', '\r', '\n']

/-- A text with all characters replaced. -/
def replaced (sub : Char → Str) (s : Str) : Str := s.flatMap sub

/-- No space or tab comes to stand after a line feed. -/
def NoNewFold (sub : Char → Str) (s : Str) : Prop :=
  ∀ c, 128 ≤ c.toNat → ['\n', c] <:+: s → ∀ x ∈ (sub c).head?, x ≠ ' ' ∧ x ≠ '\t'

/-- No comma, `n` or `N` comes to stand after a backslash. -/
def NoNewEscape (sub : Char → Str) (s : Str) : Prop :=
  ∀ c, 128 ≤ c.toNat → ['\\', c] <:+: s → ∀ x ∈ (sub c).head?, x ≠ ',' ∧ x ≠ 'n' ∧ x ≠ 'N'

/-- What replaces a character never starts with space, tab, comma, `n` or `N`. -/
def MildReplacement (sub : Char → Str) : Prop :=
  ∀ c, 128 ≤ c.toNat → ∀ x ∈ (sub c).head?, x ∉ [' ', '\t', ',', 'n', 'N']

/-- `t` is the text `s` with all characters replaced. -/
def ReplacedText (sub : Char → Str) (s t : Str) : Prop := t = replaced sub s

/-- `t` is the value `s` with all characters replaced, and no escape sequence has appeared. -/
def ReplacedValue (sub : Char → Str) (s t : Str) : Prop := t = replaced sub s ∧ NoNewEscape sub s

end Ical.Spec
