import Verif.Spec.Document

/-!
Specification of parameters that list several values (RFC 5545, section 3.1:
`param = param-name "=" param-value *("," param-value)`), independent of the parser.
-/

namespace Ical.Spec

open Ical

/-- A value in a list: in quotes or not. -/
structure ListValue where
  quoted : Bool
  val : Str

/-- The text of a value. -/
def ListValue.text (v : ListValue) : Str := if v.quoted then '"' :: v.val ++ ['"'] else v.val

/-- The text of the values: separated by commas. -/
def listText (vs : List ListValue) : Str := [','].intercalate (vs.map ListValue.text)

/-- A parameter with its values. -/
structure ListParam where
  key : Str
  vals : List ListValue

/-- The text of such a parameter. -/
def ListParam.text (p : ListParam) : Str := ';' :: p.key ++ '=' :: listText p.vals

/-- RFC 5545: quoted values have no quote, other values have no quote, semicolon, colon or comma. -/
def ListValue.Rfc (v : ListValue) : Prop :=
  '"' ∉ v.val ∧ (v.quoted = false → ';' ∉ v.val ∧ ':' ∉ v.val ∧ ',' ∉ v.val)

instance (v : ListValue) : Decidable v.Rfc := by unfold ListValue.Rfc; infer_instance

/-- The reading of such a parameter by a reader that has one text per parameter: a single value without its quotes,
several values as they are written. An empty text counts as none. -/
def ListParam.meaning (p : ListParam) : PParam :=
  let t := match p.vals with
    | [v] => v.val
    | vs => listText vs
  ⟨p.key, if t = [] then none else some t⟩

/-- The parameter has one value, which is not the empty text in quotes, or no value is in quotes. -/
def ListParam.Plain (p : ListParam) : Prop :=
  (∃ v, p.vals = [v] ∧ v.val ≠ []) ∨ ∀ v ∈ p.vals, v.quoted = false

end Ical.Spec
