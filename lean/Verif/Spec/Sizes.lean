import Verif.Model.Parser

/-!
Sizes of what was read: the characters it is made of and the number of its parts.
-/

namespace Ical.Spec

open Ical

/-- Characters of a parameter. -/
def paramChars (p : PParam) : Nat := p.key.length + (p.val.getD []).length

/-- Characters of a property: name, value and parameters. -/
def propChars (p : PProp) : Nat := p.name.length + p.val.length + (p.params.map paramChars).sum

mutual
/-- Characters of a component: name, properties and components inside. -/
def compChars : PComp → Nat
  | .mk n props comps => n.length + (props.map propChars).sum + compsChars comps
/-- see `compChars` -/
def compsChars : List PComp → Nat
  | [] => 0
  | c :: l => compChars c + compsChars l
end

mutual
/-- Number of parts of a component: itself, its properties with their parameters, and the components inside. -/
def compParts : PComp → Nat
  | .mk _ props comps => 1 + (props.map (fun p => 1 + p.params.length)).sum + compsParts comps
/-- see `compParts` -/
def compsParts : List PComp → Nat
  | [] => 0
  | c :: l => compParts c + compsParts l
end

mutual
/-- How deep components are nested. -/
def compDepth : PComp → Nat
  | .mk _ _ comps => 1 + compsDepth comps
/-- see `compDepth` -/
def compsDepth : List PComp → Nat
  | [] => 0
  | c :: l => max (compDepth c) (compsDepth l)
end

end Ical.Spec
