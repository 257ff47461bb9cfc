import Verif.Spec.Structure
import Verif.Spec.Text

/-!
Specification of what a calendar read from a document contains, in terms of the lines of the document.
-/

namespace Ical.Spec

open Ical

/-- The value of a parameter as written, without quotes; empty if there is none. -/
def DParam.value (p : DParam) : Str :=
  match p.val with
  | none => []
  | some (_, v) => v

/-- A property says what a content line says: the same name; the same value, read as TEXT if that is its type and
reading TEXT is not hampered by C10; for each parameter name the value written last. -/
structure LineMeans (k : Str) (ps : List DParam) (raw : Str) (p : Property) : Prop where
  key : p.key = k
  verbatim : ¬ IsTextFor k ((ps.find? (fun d => d.key == c!"VALUE")).map DParam.value) → p.val = raw
  text : IsTextFor k ((ps.find? (fun d => d.key == c!"VALUE")).map DParam.value) → NoDoubleRead raw →
    p.val = readText raw
  params : ∀ n, p.params.lookup n = (ps.reverse.find? (fun d => d.key == n)).map DParam.value

/-- The content lines directly inside a component. -/
def ownLines : List Item → List (Str × List DParam × Str)
  | [] => []
  | .prop key params val :: l => (key, params, val) :: ownLines l
  | .comp _ _ _ _ :: l => ownLines l

/-- A map entry says what the last line of the name says, and there is none if there is no line. -/
def EntryMeans (k : Str) (items : List Item) : Option Property → Prop
  | none => linesNamed k items = []
  | some p => ∃ before params raw, linesNamed k items = before ++ [(params, raw)] ∧ LineMeans k params raw p

/-- A list of properties says what a list of lines says, one by one. -/
def AllMean (k : Str) : List (List DParam × Str) → List Property → Prop
  | [], [] => True
  | l :: ls, p :: ps => LineMeans k l.1 l.2 p ∧ AllMean k ls ps
  | _, _ => False

/-- The properties of a calendar say what its own lines say, one by one. -/
def LinesMean : List (Str × List DParam × Str) → List Property → Prop
  | [], [] => True
  | l :: ls, p :: ps => LineMeans l.1 l.2.1 l.2.2 p ∧ LinesMean ls ps
  | _, _ => False

mutual
/-- A component contains what a component of the document contains: of each name the last line, or all lines in
order if the name is repeatable; and its sub-components, in order and in turn. -/
def Contains : Item → Other → Prop
  | .comp _ _ n items, .mk name props multi comps =>
    name = n ∧
    (∀ k, k ∉ repeatable → EntryMeans k items (props.lookup k) ∧ multi.lookup k = none) ∧
    (∀ k ∈ repeatable, props.lookup k = none ∧ AllMean k (linesNamed k items) ((multi.lookup k).getD [])) ∧
    ContainsAll items comps
  | .prop _ _ _, _ => False
/-- see `Contains` -/
def ContainsAll : List Item → List Other → Prop
  | [], [] => True
  | .prop _ _ _ :: l, os => ContainsAll l os
  | .comp b e n items :: l, o :: os => Contains (.comp b e n items) o ∧ ContainsAll l os
  | _, _ => False
end

/-- A text is a folded form of another one: cut anywhere and rejoined with fold markers. -/
def FoldedForm (text file : Str) : Prop :=
  ∃ p rest, text = unmarked p rest ∧ file = joinMarked p rest ∧ MarkerFree p ∧ (∀ mp ∈ rest, MarkerFree mp.2) ∧
    CrSafe p rest

/-- The kind of component a name stands for. -/
def KindFor (name : Str) (x : CalComp) : Prop :=
  if name = c!"VEVENT" then ∃ e, x = .event e
  else if name = c!"VTODO" then ∃ t, x = .todo t
  else if name = c!"VVENUE" then ∃ v, x = .venue v
  else ∃ o, x = .other o

/-- The components of a calendar are those of the document, in order, each of its kind. -/
def CompsContain : List Item → List CalComp → Prop
  | [], [] => True
  | .prop _ _ _ :: l, xs => CompsContain l xs
  | .comp b e n items :: l, x :: xs => KindFor n x ∧ Contains (.comp b e n items) x.toOther ∧ CompsContain l xs
  | _, _ => False

/-- Any number of blank lines, with any line breaks. -/
def Blank (s : Str) : Prop := ∃ bs : List Break, s = (bs.map Break.text).flatten

mutual
/-- The text of an element with blank lines after any of its lines. -/
def Spaced (br : Break) : Item → Str → Prop
  | .prop key params val, s => ∃ bl, Blank bl ∧ s = (Item.prop key params val).text br ++ bl
  | .comp b e name items, s => ∃ bl body bl', Blank bl ∧ Blank bl' ∧ SpacedAll br items body ∧
      s = b ++ (name ++ (br.text ++ bl ++ (body ++ (e ++ (name ++ (br.text ++ bl'))))))
/-- see `Spaced` -/
def SpacedAll (br : Break) : List Item → Str → Prop
  | [], s => s = []
  | i :: l, s => ∃ s1 s2, Spaced br i s1 ∧ SpacedAll br l s2 ∧ s = s1 ++ s2
end

/-- A file that presents a document: blank lines before, between and after the lines, the line break after the last
line possibly missing, and the whole folded in any way. Without CRLF line breaks there is no CR in the text. -/
def Presents (br : Break) : Item → Str → Prop
  | .prop _ _ _, _ => False
  | .comp b e name items, file => ∃ lead bl body tail, Blank lead ∧ Blank bl ∧ Blank tail ∧ SpacedAll br items body ∧
      (br = .lf → '\r' ∉ lead ++ (b ++ (name ++ (br.text ++ bl ++ (body ++ (e ++ (name ++ tail))))))) ∧
      FoldedForm (lead ++ (b ++ (name ++ (br.text ++ bl ++ (body ++ (e ++ (name ++ tail))))))) file

end Ical.Spec
