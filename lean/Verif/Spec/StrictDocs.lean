import Verif.Spec.Strict
import Verif.Spec.Foreign

/-!
Specification of the documents of RFC 5545: components made of content lines (section 3.4 and 3.6), and of what a
document of the grammar in `Spec/Document.lean` has in common with one.
-/

namespace Ical.Spec

open Ical

/-- An element of a component: a content line, or a component with its BEGIN and END as written. -/
inductive Element
  | line (x : Said)
  | comp (b e name : Str) (els : List Element)

mutual
/-- The content lines of an element. -/
def Element.lines : Element → List Said
  | .line x => [x]
  | .comp b e name els => [⟨b, [], name⟩] ++ elementsLines els ++ [⟨e, [], name⟩]
/-- see `Element.lines` -/
def elementsLines : List Element → List Said
  | [] => []
  | i :: l => i.lines ++ elementsLines l
end

mutual
/-- No line of a component is called BEGIN or END; the lines around it are, in any case, and its name is a name. -/
def Element.Nested : Element → Prop
  | .line x => x.name.map lowerAscii ≠ c!"begin" ∧ x.name.map lowerAscii ≠ c!"end"
  | .comp b e name els => b.map lowerAscii = c!"begin" ∧ e.map lowerAscii = c!"end" ∧ RfcName name ∧ ElementsNested els
/-- see `Element.Nested` -/
def ElementsNested : List Element → Prop
  | [] => True
  | i :: l => i.Nested ∧ ElementsNested l
end

/-- A text that is a calendar of RFC 5545, as far as the grammar of content lines and components goes. -/
def RfcDocument (els : List Element) (t : Str) : Prop :=
  ∃ b e, (Element.comp b e c!"VCALENDAR" els).Nested ∧ StrictText (Element.comp b e c!"VCALENDAR" els).lines t

/-- Every parameter of the line has one value, which is not empty. (C81 is about the others.) -/
def OneValue (x : Said) : Prop := ∀ q ∈ x.params, ∃ v, v ≠ [] ∧ q.2 = [v]

mutual
/-- Every line of an element satisfies `P`. -/
def Element.All (P : Said → Prop) : Element → Prop
  | .line x => P x
  | .comp _ _ _ els => ElementsAll P els
/-- see `Element.All` -/
def ElementsAll (P : Said → Prop) : List Element → Prop
  | [] => True
  | i :: l => i.All P ∧ ElementsAll P l
end

/-- A name that does not start with BEGIN or END in capitals. -/
def FreeName (x : Said) : Prop := ¬ c!"BEGIN" <+: x.name ∧ ¬ c!"END" <+: x.name

mutual
/-- A document of the grammar of the reader has the same lines and components as one of RFC 5545. -/
def Mirrors : Element → Item → Prop
  | .line x, .prop key params val =>
    key = x.name ∧ params.map (fun d => (d.key, [d.value])) = x.params ∧ val = x.value
  | .comp _ _ name els, .comp _ _ name' items => name = name' ∧ MirrorsAll els items
  | _, _ => False
/-- see `Mirrors` -/
def MirrorsAll : List Element → List Item → Prop
  | [], [] => True
  | i :: l, j :: m => Mirrors i j ∧ MirrorsAll l m
  | _, _ => False
end

end Ical.Spec
