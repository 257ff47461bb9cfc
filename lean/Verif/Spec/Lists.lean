import Verif.Spec.Text

/-!
Specification of lists of TEXT values (RFC 5545, 3.1.1: "COMMA character separated list of values"; CATEGORIES, RESOURCES)
and of TEXT values in parts (3.8.8.3: "SEMICOLON character separated" parts of REQUEST-STATUS).
-/

namespace Ical.Spec

open Ical

/-- The pieces of a raw text between separators; a backslash and the character after it are no separator. -/
def items (sep : Char) : Str → List Str
  | [] => [[]]
  | '\\' :: c :: s => (items sep s).modifyHead ('\\' :: c :: ·)
  | c :: s => if c = sep then [] :: items sep s else (items sep s).modifyHead (c :: ·)

/-- The texts that a raw text lists. -/
def textList (sep : Char) (raw : Str) : List Str := (items sep raw).map readText

end Ical.Spec
