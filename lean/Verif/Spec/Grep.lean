import Verif.Spec.Redact
import Verif.Spec.Search

/-!
Specification of looking for the lines of a name in the file of a calendar, without unfolding it.
-/

namespace Ical.Spec

open Ical

/-- The lines of a text that start with the name and a colon or semicolon. -/
def linesOfName (k s : Str) : List Str := (cutLines s).filter (NamedLine k)

variable [Uni]

/-- A beginning of the content line of the property, with a line break. -/
def FirstLine (p : Property) (line : Str) : Prop := ∃ content q, ContentLine p content ∧ q <+: content ∧ line = q ++ c!"\r\n"

/-- The whole content line of the property, with a line break. -/
def WholeLine (p : Property) (line : Str) : Prop := ∃ content, ContentLine p content ∧ line = content ++ c!"\r\n"

/-- The content line has at most 75 octets, or its name consists of at most 73 ASCII characters and the colon or semicolon
behind the name is not followed by white space. -/
def Findable (p : Property) : Prop := ∀ line, ContentLine p line → blen line ≤ 75 ∨
  ((∀ c ∈ p.key, c.toNat < 128) ∧ p.key.length ≤ 73 ∧ ∀ x, line[p.key.length + 1]? = some x → isWhitespace x = false)

end Ical.Spec
