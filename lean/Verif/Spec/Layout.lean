import Verif.Spec.Lines
import Verif.Model.Calendar

/-!
Specification of the text of parsed trees: which lines there are and in which order. Shared with the model: the types of
parsed trees and the text of a time.
-/

namespace Ical.Spec

open Ical

/-- `s` is `line`, cut into pieces that are joined by CRLF and a space, and a final CRLF. -/
def FoldedLine (line s : Str) : Prop := ∃ pieces, pieces ≠ [] ∧ pieces.flatten = line ∧ s = joinFold pieces ++ ['\r', '\n']

/-- `;KEY=VALUE` or `;KEY` -/
def plainParam (p : PParam) : Str := ';' :: p.key ++ (p.val.elim [] ('=' :: ·))

/-- `NAME;PARAMS:VALUE` with everything as it was read -/
def plainLine (p : PProp) : Str := p.name ++ p.params.flatMap plainParam ++ ':' :: p.val

/-- the lines of properties, in their order -/
def PropLines : List PProp → Str → Prop
  | [], s => s = []
  | p :: l, s => ∃ a b, FoldedLine (plainLine p) a ∧ PropLines l b ∧ s = a ++ b

/-- The same letters in upper or lower case. -/
def AnyCase : Str → Str → Prop
  | [], [] => True
  | c :: s, l :: t => (c, l) ∈ (c!"ABCDEFGHIJKLMNOPQRSTUVWXYZ" ++ c!"abcdefghijklmnopqrstuvwxyz").zip
      (c!"abcdefghijklmnopqrstuvwxyz" ++ c!"abcdefghijklmnopqrstuvwxyz") ∧ AnyCase s t
  | _, _ => False

/-- The lines that a component called `calendar` gets when it has no DTSTAMP or UID; any other component gets none. -/
def AddedLines (name : Str) (props : List PProp) (s : Str) : Prop :=
  (¬ AnyCase name c!"calendar" ∧ s = []) ∨
  (AnyCase name c!"calendar" ∧ ∃ a b, s = a ++ b ∧
    ((∃ p ∈ props, p.name = c!"DTSTAMP") ∧ a = [] ∨
      (¬ ∃ p ∈ props, p.name = c!"DTSTAMP") ∧ ∃ t, a = c!"DTSTAMP:" ++ fmtUtc t ++ c!"\r\n") ∧
    ((∃ p ∈ props, p.name = c!"UID") ∧ b = [] ∨
      (¬ ∃ p ∈ props, p.name = c!"UID") ∧ ∃ u, b = c!"UID:" ++ u ++ c!"\r\n"))

mutual
/-- The lines of a component: BEGIN, added lines, properties, sub-components, END. -/
def CompLines : PComp → Str → Prop
  | .mk name props comps, s => ∃ added ps cs, AddedLines name props added ∧ PropLines props ps ∧ CompsLines comps cs ∧
    s = c!"BEGIN:" ++ name ++ c!"\r\n" ++ added ++ ps ++ cs ++ c!"END:" ++ name ++ c!"\r\n"
/-- the lines of components, in their order -/
def CompsLines : List PComp → Str → Prop
  | [], s => s = []
  | c :: l, s => ∃ a b, CompLines c a ∧ CompsLines l b ∧ s = a ++ b
end

end Ical.Spec
