import Verif.Spec.Document

/-!
Specification of "the same up to the letter case of names" (RFC 5545, section 2: all names are
case-insensitive), for documents and for what is read from them.
-/

namespace Ical.Spec

open Ical

/-- The same name up to the letter case of ASCII letters. -/
def SameName (a b : Str) : Prop := a.map lowerAscii = b.map lowerAscii

instance (a b : Str) : Decidable (SameName a b) := by unfold SameName; infer_instance

/-- The same parameters up to the letter case of their names. -/
def DParamsRecased : List DParam → List DParam → Prop
  | [], [] => True
  | p :: l, q :: m => SameName p.key q.key ∧ p.val = q.val ∧ DParamsRecased l m
  | _, _ => False

mutual
/-- The same document up to the letter case of the names of components, properties and parameters, and of the
keywords. -/
def Item.Recased : Item → Item → Prop
  | .prop k ps v, .prop k' ps' v' => SameName k k' ∧ DParamsRecased ps ps' ∧ v = v'
  | .comp b e n l, .comp b' e' n' l' => SameName b b' ∧ SameName e e' ∧ SameName n n' ∧ ItemsRecased l l'
  | _, _ => False
/-- see `Item.Recased` -/
def ItemsRecased : List Item → List Item → Prop
  | [], [] => True
  | i :: l, j :: m => i.Recased j ∧ ItemsRecased l m
  | _, _ => False
end

/-- The value of the first parameter called VALUE, in capitals. -/
def valueOf (ps : List DParam) : Option Str :=
  ((ps.map DParam.meaning).find? (fun p => p.key == c!"VALUE")).bind PParam.val

mutual
/-- Every property is TEXT in both documents or in neither, or there is nothing to unescape in its value. -/
def Item.KindKept : Item → Item → Prop
  | .prop k ps v, .prop k' ps' _ => (IsTextFor k (valueOf ps) ↔ IsTextFor k' (valueOf ps')) ∨ unescaped v = v
  | .comp _ _ _ l, .comp _ _ _ l' => ItemsKindKept l l'
  | _, _ => True
/-- see `Item.KindKept` -/
def ItemsKindKept : List Item → List Item → Prop
  | i :: l, j :: m => i.KindKept j ∧ ItemsKindKept l m
  | _, _ => True
end

/-- The same parameters, as read, up to the letter case of their names. -/
def PParamsRecased : List PParam → List PParam → Prop
  | [], [] => True
  | p :: l, q :: m => SameName p.key q.key ∧ p.val = q.val ∧ PParamsRecased l m
  | _, _ => False

/-- The same properties, as read, up to the letter case of names. -/
def PPropsRecased : List PProp → List PProp → Prop
  | [], [] => True
  | p :: l, q :: m => SameName p.name q.name ∧ PParamsRecased p.params q.params ∧ p.val = q.val ∧ PPropsRecased l m
  | _, _ => False

mutual
/-- The same component, as read, up to the letter case of names, at any depth. -/
def PCompRecased : PComp → PComp → Prop
  | .mk n ps cs, .mk n' ps' cs' => SameName n n' ∧ PPropsRecased ps ps' ∧ PCompsRecased cs cs'
/-- see `PCompRecased` -/
def PCompsRecased : List PComp → List PComp → Prop
  | [], [] => True
  | c :: l, d :: m => PCompRecased c d ∧ PCompsRecased l m
  | _, _ => False
end

end Ical.Spec
