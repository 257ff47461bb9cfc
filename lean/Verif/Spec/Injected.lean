import Verif.Spec.Structure
import Verif.Spec.Lines

/-!
Specification of the BEGIN and END lines of a text, whatever the text is.
-/

namespace Ical.Spec

open Ical

/-- The lines of a text: cut at every LF, with the CR before it if there is one. -/
def textLines : Str → List Str
  | [] => [[]]
  | '\n' :: s => [] :: textLines s
  | '\r' :: '\n' :: s => [] :: textLines s
  | c :: s =>
    match textLines s with
    | [] => [[c]]
    | l :: ls => (c :: l) :: ls

/-- The BEGIN and END lines of a text, after unfolding. -/
def textKeywords (s : Str) : List (Bool × Str) := keywordLines (textLines (unfoldSpec s))

mutual
/-- The names of a component and of those in it have no line feeds. -/
def NamesPlain : Other → Prop
  | .mk name _ _ comps => NoLf name ∧ NamesPlains comps
/-- see `NamesPlain` -/
def NamesPlains : List Other → Prop
  | [] => True
  | o :: l => NamesPlain o ∧ NamesPlains l
end

end Ical.Spec
