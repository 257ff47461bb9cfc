import Verif.Spec.Document
import Verif.Spec.Foreign

/-!
Specification of where a document was cut off.
-/

namespace Ical.Spec

open Ical

/-- The text ends inside a component of the body: the five letters BEGIN of it are there, its END line is not complete. -/
def InsideComponent (br : Break) (items : List Item) (s : Str) : Prop :=
  ∃ l l' b e n sub t, items = l ++ .comp b e n sub :: l' ∧ s = itemsText br l ++ t ∧ c!"BEGIN" <+: t ∧
    t <+: b ++ n ++ br.text ++ itemsText br sub ++ (e ++ n) ∧
    t.length < (b ++ n ++ br.text ++ itemsText br sub ++ (e ++ n)).length

/-- The text ends inside the END line after the body: the three letters END, or the keyword in any case and the colon, are there,
the name is not complete. -/
def InsideEnd (br : Break) (items : List Item) (e n s : Str) : Prop :=
  ∃ t, s = itemsText br items ++ t ∧ (c!"END" <+: t ∨ e <+: t) ∧ t <+: e ++ n ∧ t.length < (e ++ n).length

/-- Where the text ends is noticed. -/
def CutNoticed (br : Break) (b e n : Str) (items : List Item) (s : Str) : Prop :=
  ∃ body, s = b ++ n ++ br.text ++ body ∧ (InsideComponent br items body ∨ InsideEnd br items e n body)

/-- Nothing is missing, but for the last line break. -/
def CutAfterEnd (br : Break) (b e n : Str) (items : List Item) (s : Str) : Prop :=
  s = b ++ n ++ br.text ++ itemsText br items ++ (e ++ n) ∨ s = b ++ n ++ br.text ++ itemsText br items ++ (e ++ n) ++ br.text

mutual
/-- Every content line is free of LF and every `BEGIN:` keyword is in upper case. -/
def Item.NoLf : Item → Prop
  | .prop key params val => '\n' ∉ key ++ (params.map DParam.text).flatten ++ [':'] ++ val
  | .comp b _ _ items => b = c!"BEGIN:" ∧ ItemsNoLf items
/-- see `Item.NoLf` -/
def ItemsNoLf : List Item → Prop
  | [] => True
  | i :: l => i.NoLf ∧ ItemsNoLf l
end

/-- The beginning `s` of a folded file consists of a text that unfolds to `t` and of the beginning `m` of a fold marker; `m` is
empty if the file was not cut off inside a fold marker. -/
def CutOf (file s t m : Str) : Prop :=
  ∃ x, s = x ++ m ∧ t = unfoldSpec x ∧
    (m = [] ∨ ∃ mark : Marker, m <+: mark.text ∧ m ≠ mark.text ∧ x ++ mark.text <+: file)

/-- Nothing is missing, and only line breaks may follow the last END. -/
def AllThere (br : Break) (b e n : Str) (items : List Item) (u : Str) : Prop :=
  ∃ bl, Blank bl ∧ u = b ++ n ++ br.text ++ itemsText br items ++ (e ++ n) ++ bl

end Ical.Spec
