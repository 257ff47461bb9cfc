import Verif.Spec.StrictDocs
import Verif.Spec.ParamLists

/-!
Specification of the documents of RFC 5545 as they are written, that is, with the quotes around the values of parameters;
of the tree such a document stands for; and of the lines that the library reads as what they are.
-/

namespace Ical.Spec

open Ical

/-- A content line as it is written. -/
structure Written where
  name : Str
  params : List ListParam
  value : Str

/-- The text of a line, without the line break. -/
def Written.text (x : Written) : Str := x.name ++ ((x.params.map ListParam.text).flatten ++ ':' :: x.value)

/-- What the line says. -/
def Written.said (x : Written) : Said := ⟨x.name, x.params.map (fun p => (p.key, p.vals.map ListValue.val)), x.value⟩

/-- A parameter of RFC 5545: quoted values are made of QSAFE-CHAR, others of SAFE-CHAR. -/
def ListParam.Strict (p : ListParam) : Prop :=
  RfcName p.key ∧ p.vals ≠ [] ∧ ∀ v ∈ p.vals, ∀ c ∈ v.val, if v.quoted then QSafeChar c else SafeChar c

instance (p : ListParam) : Decidable p.Strict := by unfold ListParam.Strict; infer_instance

/-- A content line of RFC 5545. -/
def Written.Strict (x : Written) : Prop :=
  RfcName x.name ∧ (∀ p ∈ x.params, p.Strict) ∧ ∀ c ∈ x.value, ¬ ControlChar c

instance (x : Written) : Decidable x.Strict := by unfold Written.Strict; infer_instance

/-- An element of a component as it is written. -/
inductive Part
  | line (x : Written)
  | comp (b e name : Str) (parts : List Part)

mutual
/-- The text of an element. -/
def Part.text : Part → Str
  | .line x => x.text ++ ['\r', '\n']
  | .comp b e name parts =>
    b ++ ':' :: name ++ ['\r', '\n'] ++ partsText parts ++ (e ++ ':' :: name ++ ['\r', '\n'])
/-- see `Part.text` -/
def partsText : List Part → Str
  | [] => []
  | i :: l => i.text ++ partsText l
end

mutual
/-- What an element says. -/
def Part.said : Part → Element
  | .line x => .line x.said
  | .comp b e name parts => .comp b e name (partsSaid parts)
/-- see `Part.said` -/
def partsSaid : List Part → List Element
  | [] => []
  | i :: l => i.said :: partsSaid l
end

mutual
/-- Every line of an element satisfies `P`. -/
def Part.All (P : Written → Prop) : Part → Prop
  | .line x => P x
  | .comp _ _ _ parts => PartsAll P parts
/-- see `Part.All` -/
def PartsAll (P : Written → Prop) : List Part → Prop
  | [] => True
  | i :: l => i.All P ∧ PartsAll P l
end

mutual
/-- An element of RFC 5545: no line of a component is called BEGIN or END; the lines around it are, in any case, and its
name is a name. -/
def Part.Strict : Part → Prop
  | .line x => x.Strict ∧ x.name.map lowerAscii ≠ c!"begin" ∧ x.name.map lowerAscii ≠ c!"end"
  | .comp b e name parts => b.map lowerAscii = c!"begin" ∧ e.map lowerAscii = c!"end" ∧ RfcName name ∧ PartsStrict parts
/-- see `Part.Strict` -/
def PartsStrict : List Part → Prop
  | [] => True
  | i :: l => i.Strict ∧ PartsStrict l
end

/-- The parameter has one value, other than the empty text in quotes; or several, the first of which is not a text in
quotes, other than the empty one, and none of which has a colon or semicolon. -/
def ListParam.Kept (p : ListParam) : Prop :=
  match p.vals with
  | [] => True
  | [v] => v.quoted = true → v.val ≠ []
  | v :: l => (v.quoted = true → v.val = []) ∧ ∀ u ∈ v :: l, ':' ∉ u.val ∧ ';' ∉ u.val

instance (p : ListParam) : Decidable p.Kept := by unfold ListParam.Kept; split <;> infer_instance

/-- A line whose name does not start with BEGIN or END in capitals and whose parameters are all like that. -/
def Written.Kept (x : Written) : Prop :=
  (¬ c!"BEGIN" <+: x.name ∧ ¬ c!"END" <+: x.name) ∧ ∀ p ∈ x.params, p.Kept

instance (x : Written) : Decidable x.Kept := by unfold Written.Kept; infer_instance

/-- The property a line stands for: each parameter with its one value, or with its values as they are written; and the
value, unescaped if it is a TEXT. -/
def Written.means (x : Written) : PProp :=
  { name := x.name
    val := if IsTextFor x.name (((x.params.map ListParam.meaning).find? (fun p => p.key == c!"VALUE")).bind PParam.val)
      then unescaped x.value else x.value
    params := x.params.map ListParam.meaning }

mutual
/-- The properties elements stand for, in order. -/
def partsProps : List Part → List PProp
  | [] => []
  | .line x :: l => x.means :: partsProps l
  | .comp _ _ _ _ :: l => partsProps l
/-- The components elements stand for, in order. -/
def partsComps : List Part → List PComp
  | [] => []
  | .line _ :: l => partsComps l
  | .comp _ _ name parts :: l => .mk name (partsProps parts) (partsComps parts) :: partsComps l
end

end Ical.Spec
