import Verif.Spec.Foreign

/-!
Specification of documents whose lines end in CRLF or LF, each as it likes.
-/

namespace Ical.Spec

open Ical

variable [Uni]

mutual
/-- `MixedText q it s f`: `s` is a text of a well-formed element in which every line ends in CRLF or LF and may be
followed by blank lines; `f` is the text that follows. `q v f` is asked of every content line that ends in LF, with its
value `v` and all the text `f` after the line. -/
def MixedText (q : Str → Str → Prop) : Item → Str → Str → Prop
  | .prop key params val, s, f => ∃ (br : Break) (bl : Str), Blank bl ∧ KeyOk key ∧ (∀ p ∈ params, p.Ok) ∧ ValOk br val ∧
      s = (Item.prop key params val).text br ++ bl ∧ (br = .lf → q val (bl ++ f))
  | .comp b e name items, s, f => ∃ (br : Break) (bl body : Str) (br' : Break) (bl' : Str), Blank bl ∧ Blank bl' ∧
      b.map lowerAscii = c!"begin:" ∧ e.map lowerAscii = c!"end:" ∧ IsName name ∧
      MixedTexts q items body (e ++ (name ++ (br'.text ++ bl' ++ f))) ∧
      s = b ++ (name ++ (br.text ++ bl ++ (body ++ (e ++ (name ++ (br'.text ++ bl'))))))
/-- see `MixedText` -/
def MixedTexts (q : Str → Str → Prop) : List Item → Str → Str → Prop
  | [], s, _ => s = []
  | i :: l, s, f => ∃ s1 s2, MixedText q i s1 (s2 ++ f) ∧ MixedTexts q l s2 f ∧ s = s1 ++ s2
end

/-- A file with a document whose lines end in CRLF or LF, folded in any way. -/
def MixedFile (q : Str → Str → Prop) : Item → Str → Prop
  | .prop _ _ _, _ => False
  | .comp b e name items, file => ∃ lead s, Blank lead ∧ MixedText q (.comp b e name items) s [] ∧
      FoldedForm (lead ++ s) file

omit [Uni] in
/-- There is no CRLF in a value or after its line. -/
def NoCrlfAfter (v f : Str) : Prop := ¬ ['\r', '\n'] <:+: v ++ '\n' :: f

end Ical.Spec
