import Verif.Spec.ContentLine

/-!
Specification of exactly which properties are read back as they were, from their own line.
-/

namespace Ical.Spec

open Ical

/-- The values of parameters in the order they are written in, and the value of the property after them, such that the
quotes put around values and those in them cannot be mixed up: a value with a colon or semicolon has no quote in it; any
other value can have quotes, but if it starts with one and the next character is not another one, no second quote may
follow in the line, neither in this value nor in or around a later one nor in the value of the property. -/
def ValuesTold : List (Str × Str) → Str → Prop
  | [], _ => True
  | (_, v) :: l, val =>
    (if ':' ∈ v ∨ ';' ∈ v then '"' ∉ v
      else ¬ ['"'] <+: v ∨ ['"', '"'] <+: v ∨
        ('"' ∉ v.tail ∧ (∀ x ∈ l, '"' ∉ x.2 ∧ ':' ∉ x.2 ∧ ';' ∉ x.2) ∧ '"' ∉ val)) ∧
    ValuesTold l val

instance valuesToldDec : (l : List (Str × Str)) → (val : Str) → Decidable (ValuesTold l val)
  | [], _ => isTrue trivial
  | (_, _) :: l, val => by
    unfold ValuesTold
    have := valuesToldDec l val
    infer_instance

/-- The value of a property can be told from its text: a TEXT has no backslash before a colon, `n` or `N`, any other
value has no CR LF in it. -/
def ValueTold (p : Property) : Prop := if IsText p then TextSafe p.val else ¬ ['\r', '\n'] <:+: p.val

variable [Uni]

/-- A property that is told by its names and values alone. -/
structure OwnLine (p : Property) : Prop where
  name : IsName p.key
  notEnd : ¬ c!"END" <+: p.key
  notBegin : ¬ c!"BEGIN" <+: p.key
  paramName : ∀ x ∈ p.params, IsName x.1
  value : ValueTold p

/-- A text is the content line of a property and a line break, with the parameters in an order in which their
values are told. -/
def LineTold (p : Property) (u : Str) : Prop :=
  ∃ l forms, l.Perm p.params ∧ ParamForms l forms ∧ ValuesTold l p.val ∧
    u = p.key ++ forms.flatten ++ ':' :: rawText p ++ ['\r', '\n']

end Ical.Spec
