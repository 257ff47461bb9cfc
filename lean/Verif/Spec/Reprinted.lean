import Verif.Spec.Reprint
import Verif.Spec.Acceptance

/-!
Specification of exactly which parsed trees are read back from what is printed for them.
-/

namespace Ical.Spec

open Ical

/-- A parameter as it is printed: without quotes. -/
def bareParam (q : PParam) : Str := ';' :: q.key ++ match q.val with | some v => '=' :: v | none => []

/-- The parameters as they are printed. -/
def bareParams (l : List PParam) : Str := (l.map bareParam).flatten

/-- The lines of properties, each followed by CR LF. -/
def bareLines (l : List PProp) : Str := (l.map (fun p => bareLine p ++ ['\r', '\n'])).flatten

mutual
/-- The lines of a component: BEGIN, its properties, its components, END. -/
def bareComp : PComp → Str
  | .mk name props comps =>
    c!"BEGIN:" ++ name ++ ['\r', '\n'] ++ bareLines props ++ bareComps comps ++ c!"END:" ++ name ++ ['\r', '\n']
/-- see `bareComp` -/
def bareComps : List PComp → Str
  | [] => []
  | c :: l => bareComp c ++ bareComps l
end

mutual
/-- Nothing is added to a component when it is printed: if it is called calendar, it has the properties DTSTAMP and UID. -/
def NoneAdded : PComp → Prop
  | .mk name props comps =>
    (name.map lowerAscii = c!"calendar" → (∃ p ∈ props, p.name = c!"DTSTAMP") ∧ ∃ p ∈ props, p.name = c!"UID") ∧ NothingAdded comps
/-- see `NoneAdded` -/
def NothingAdded : List PComp → Prop
  | [] => True
  | c :: l => NoneAdded c ∧ NothingAdded l
end

/-- The values of parameters, printed without quotes and followed by some text, can be told: they are not empty, have no
colon or semicolon, and if one starts with a double quote and the next character is not another one, no second quote
may follow in all of the text. -/
def BareTold : List PParam → Str → Prop
  | [], _ => True
  | q :: l, rest =>
    (∀ v, q.val = some v → v ≠ [] ∧ ':' ∉ v ∧ ';' ∉ v ∧
      (¬ ['"'] <+: v ∨ ['"', '"'] <+: v ∨ '"' ∉ v.tail ++ bareParams l ++ rest)) ∧
    BareTold l rest

variable [Uni]

/-- A property can be told from its line, printed without quotes and escapes and followed by `f`: its name and those of
its parameters are names, the line starts neither with END nor with BEGIN, unless with a BEGIN in other letters of which the
reader can make no component; the values can be told. -/
structure BareLineTold (p : PProp) (f : Str) : Prop where
  name : IsName p.name
  notEnd : ¬ c!"END" <+: p.name
  notBegin : ¬ c!"BEGIN" <+: p.name
  otherEnd : ¬ Begins c!"end:" (bareLine p)
  otherBegin : Begins c!"begin:" (bareLine p) → Stuck (bareLine p ++ ['\r', '\n'] ++ f)
  keys : ∀ q ∈ p.params, IsName q.key
  params : BareTold p.params (':' :: p.val ++ ['\r', '\n'] ++ f)
  oneLine : ¬ ['\r', '\n'] <:+: p.val
  text : IsTextFor p.name (pvalueParam p.params) → NoEscapes p.val

/-- All of them can be told, followed by `f`. -/
def BareLinesTold : List PProp → Str → Prop
  | [], _ => True
  | p :: l, f => BareLineTold p (bareLines l ++ f) ∧ BareLinesTold l f

mutual
/-- A component can be told from its lines, followed by `f`. -/
def TreeTold : PComp → Str → Prop
  | .mk name props comps, f =>
    IsName name ∧ BareLinesTold props (bareComps comps ++ (c!"END:" ++ name ++ ['\r', '\n'] ++ f)) ∧
    TreesTold comps (c!"END:" ++ name ++ ['\r', '\n'] ++ f)
/-- see `TreeTold` -/
def TreesTold : List PComp → Str → Prop
  | [], _ => True
  | c :: l, f => TreeTold c (bareComps l ++ f) ∧ TreesTold l f
end

end Ical.Spec
