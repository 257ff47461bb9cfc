import Verif.Spec.WellFormed

/-!
Specification of what is found in the text of a component: its stamps and its nesting.
-/

namespace Ical.Spec

open Ical

/-- The content lines of a given name directly inside a component: parameters and raw value text. -/
def linesNamed (k : Str) : List Item → List (List DParam × Str)
  | [] => []
  | .prop key params val :: l => if key = k then (params, val) :: linesNamed k l else linesNamed k l
  | .comp _ _ _ _ :: l => linesNamed k l

/-- The text after a keyword, if the line starts with it; upper and lower case letters are the same. -/
def afterKeyword (kw line : Str) : Option Str :=
  if (line.take kw.length).map lowerAscii = kw then some (line.drop kw.length) else none

/-- The lines are what is left of properly nested components when the given ones are open, innermost first:
BEGIN opens a component, END closes the innermost one, whose name it carries, and nothing follows the END of
the outermost one. -/
def nested : List Str → List Str → Prop
  | [], lines => lines = []
  | _ :: _, [] => False
  | top :: stack, line :: lines =>
    match afterKeyword c!"begin:" line with
    | some name => nested (name :: top :: stack) lines
    | none =>
      match afterKeyword c!"end:" line with
      | some name => name = top ∧ nested stack lines
      | none => nested (top :: stack) lines

/-- The BEGIN (`true`) and END (`false`) lines among the lines, with their names, in order. -/
def keywordLines : List Str → List (Bool × Str)
  | [] => []
  | line :: lines =>
    match afterKeyword c!"begin:" line with
    | some name => (true, name) :: keywordLines lines
    | none =>
      match afterKeyword c!"end:" line with
      | some name => (false, name) :: keywordLines lines
      | none => keywordLines lines

mutual
/-- The BEGIN and END lines a component should have: its own around those of its sub-components. -/
def skeleton : Other → List (Bool × Str)
  | .mk name _ _ comps => (true, name) :: (skeletons comps ++ [(false, name)])
/-- see `skeleton` -/
def skeletons : List Other → List (Bool × Str)
  | [] => []
  | o :: l => skeleton o ++ skeletons l
end

/-- The BEGIN and END lines a calendar should have. -/
def calendarSkeleton (c : Calendar) : List (Bool × Str) :=
  (true, c!"VCALENDAR") :: (c.comps.flatMap (fun x => skeleton x.toOther) ++ [(false, c!"VCALENDAR")])

/-- The lines form one calendar. -/
def ProperlyNested (lines : List Str) : Prop :=
  ∃ rest, lines = c!"BEGIN:VCALENDAR" :: rest ∧ nested [c!"VCALENDAR"] rest

/-- A text without line feed. -/
def NoLf (s : Str) : Prop := '\n' ∉ s

instance (s : Str) : Decidable (NoLf s) := by unfold NoLf; infer_instance

variable [Uni]

/-- A property that is written as one line: no line feeds, except in a TEXT value. Its key does not start with
a space or tab and does not make it a BEGIN or END line. -/
structure PlainProp (p : Property) : Prop where
  key : NoLf p.key
  indent : ¬ [' '] <+: p.key ∧ ¬ ['\t'] <+: p.key
  keyword : afterKeyword c!"begin:" (p.key ++ [':']) = none ∧ afterKeyword c!"end:" (p.key ++ [':']) = none
  params : ∀ x ∈ p.params, NoLf x.1 ∧ NoLf x.2
  value : IsText p ∨ NoLf p.val

mutual
/-- A component of such properties, at any depth, whose name has no line feed. -/
def PlainOther : Other → Prop
  | .mk name props multi comps =>
    NoLf name ∧ (∀ x ∈ props, PlainProp x.2) ∧ (∀ x ∈ multi, ∀ p ∈ x.2, PlainProp p) ∧ PlainOthers comps
/-- see `PlainOther` -/
def PlainOthers : List Other → Prop
  | [] => True
  | o :: l => PlainOther o ∧ PlainOthers l
end

/-- How a character of a TEXT value is written. -/
def escaped (c : Char) : Str :=
  if c = '\n' then ['\\', 'N'] else if c = '\\' ∨ c = ',' ∨ c = ';' then ['\\', c] else [c]

/-- The raw text of a value: TEXT is escaped. -/
def rawText (p : Property) : Str := if IsText p then p.val.flatMap escaped else p.val

/-- There is exactly one line of the name: that of the user's property if there is one, else one without
parameters whose value is generated. -/
def OneLine (k : Str) (items : List Item) (props : BMap Property) (Generated : Str → Prop) : Prop :=
  ∃ params val, linesNamed k items = [(params, val)] ∧
    match props.lookup k with
    | some p => val = rawText p ∧ params.length = p.params.length ∧
        ∀ x ∈ p.params, ∃ d ∈ params, d.key = x.1 ∧ d.meaning.val.getD [] = x.2
    | none => params = [] ∧ Generated val

mutual
/-- The text of a component has one DTSTAMP and one UID line of its own, and so have those of its
sub-components, which are all there in order. -/
def StampedText : Item → Other → Prop
  | .comp _ _ n items, .mk name props _ comps =>
    n = name ∧
    OneLine c!"DTSTAMP" items props (fun v => ∃ t : UtcDateTime, t.naive.Valid ∧ v = fmtUtc t) ∧
    OneLine c!"UID" items props (fun v => ∀ c ∈ v, c ∈ c!"0123456789abcdef-") ∧
    StampedTexts items comps
  | .prop _ _ _, _ => False
/-- see `StampedText` -/
def StampedTexts : List Item → List Other → Prop
  | [], [] => True
  | .prop _ _ _ :: l, os => StampedTexts l os
  | .comp b e n items :: l, o :: os => StampedText (.comp b e n items) o ∧ StampedTexts l os
  | _, _ => False
end

mutual
/-- No multi-property is called DTSTAMP or UID, at any depth. -/
def NoMultiStamp : Other → Prop
  | .mk _ _ multi comps => (∀ x ∈ multi, x.1 ≠ c!"DTSTAMP" ∧ x.1 ≠ c!"UID") ∧ NoMultiStamps comps
/-- see `NoMultiStamp` -/
def NoMultiStamps : List Other → Prop
  | [] => True
  | o :: l => NoMultiStamp o ∧ NoMultiStamps l
end

end Ical.Spec
