import Verif.Spec.Writable

/-!
Specification of the parsed trees that survive being printed and parsed again. Shared with the model: the
types of parsed trees.
-/

namespace Ical.Spec

open Ical

/-- A text in which no backslash starts an escape sequence. -/
def NoEscapes (v : Str) : Prop := ∀ c ∈ ['\\', ',', ';', ':', 'N', 'n'], ¬ ['\\', c] <:+: v

instance (v : Str) : Decidable (NoEscapes v) := by unfold NoEscapes; infer_instance

/-- The value of the first parameter called VALUE. -/
def pvalueParam (params : List PParam) : Option Str :=
  (params.find? (fun p => p.key == c!"VALUE")).bind PParam.val

variable [Uni]

/-- A parsed parameter that can be printed without quotes. -/
structure ReprintParam (p : PParam) : Prop where
  key : IsName p.key
  val : ∀ v, p.val = some v → v ≠ [] ∧ ':' ∉ v ∧ ';' ∉ v ∧ ¬ ['"'] <+: v ∧ MarkerFree v

instance (p : PParam) : Decidable (ReprintParam p) :=
  decidable_of_iff (IsName p.key ∧ ∀ v ∈ p.val.toList, v ≠ [] ∧ ':' ∉ v ∧ ';' ∉ v ∧ ¬ ['"'] <+: v ∧ MarkerFree v)
    ⟨fun h => ⟨h.1, fun v hv => h.2 v (by simp [hv])⟩, fun h => ⟨h.key, fun v hv => h.val v (by simpa using hv)⟩⟩

/-- A parsed property that can be printed as it is. -/
structure ReprintProp (p : PProp) : Prop where
  name : KeyOk p.name
  params : ∀ q ∈ p.params, ReprintParam q
  line : ¬ ['\r', '\n'] <:+: p.val
  marker : MarkerFree p.val
  text : IsTextFor p.name (pvalueParam p.params) → NoEscapes p.val

instance (p : PProp) : Decidable (ReprintProp p) :=
  decidable_of_iff (KeyOk p.name ∧ (∀ q ∈ p.params, ReprintParam q) ∧ ¬ ['\r', '\n'] <:+: p.val ∧ MarkerFree p.val ∧
    (IsTextFor p.name (pvalueParam p.params) → NoEscapes p.val))
    ⟨fun h => ⟨h.1, h.2.1, h.2.2.1, h.2.2.2.1, h.2.2.2.2⟩, fun h => ⟨h.name, h.params, h.line, h.marker, h.text⟩⟩

mutual
/-- A parsed component that can be printed as it is, at any depth. -/
def ReprintComp : PComp → Prop
  | .mk name props comps =>
    IsName name ∧ name.map lowerAscii ≠ c!"calendar" ∧ (∀ p ∈ props, ReprintProp p) ∧ ReprintComps comps
/-- see `ReprintComp` -/
def ReprintComps : List PComp → Prop
  | [] => True
  | c :: l => ReprintComp c ∧ ReprintComps l
end

/-- A parsed calendar that can be printed as it is. -/
structure ReprintCal (c : PCal) : Prop where
  props : ∀ p ∈ c.props, ReprintProp p
  comps : ReprintComps c.comps

/-- The line of a parsed property, without quotes and escapes. -/
def bareLine (p : PProp) : Str :=
  p.name ++ (p.params.map (fun q => ';' :: q.key ++ match q.val with | some v => '=' :: v | none => [])).flatten ++
    ':' :: p.val

/-- A parsed line that is printed as one line that starts like it: no fold marker inside, no white space in front, a name
other than BEGIN and END in any case, no parameter value that starts with a double quote. -/
structure LineProp (p : PProp) : Prop where
  marker : MarkerFree (bareLine p)
  indent : ∀ c ∈ (bareLine p).head?, c ≠ ' ' ∧ c ≠ '\t'
  notEnd : p.name.map lowerAscii ≠ c!"end"
  notBegin : p.name.map lowerAscii ≠ c!"begin"
  quote : ∀ q ∈ p.params, ∀ v, q.val = some v → ¬ ['"'] <+: v

mutual
/-- A parsed component of such lines, at any depth, without fold markers in names and without components called
`calendar`. -/
def LineComp : PComp → Prop
  | .mk name props comps =>
    MarkerFree name ∧ name.map lowerAscii ≠ c!"calendar" ∧ (∀ p ∈ props, LineProp p) ∧ LineComps comps
/-- see `LineComp` -/
def LineComps : List PComp → Prop
  | [] => True
  | c :: l => LineComp c ∧ LineComps l
end

/-- A parsed calendar of such lines. -/
structure LineCal (c : PCal) : Prop where
  props : ∀ p ∈ c.props, LineProp p
  comps : LineComps c.comps

end Ical.Spec
