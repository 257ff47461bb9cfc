import Verif.Spec.Structure

/-!
Specification of the text of a property, a component and a calendar: what it consists of, independent of how the code
composes it.
-/

namespace Ical.Spec

open Ical

/-- A parameter as it stands in a line: in quotes exactly if its value has a colon or semicolon. -/
def ParamForm (kv : Str × Str) (t : Str) : Prop :=
  t = ';' :: kv.1 ++ '=' :: (if ':' ∈ kv.2 ∨ ';' ∈ kv.2 then '"' :: kv.2 ++ ['"'] else kv.2)

/-- Texts that are the forms of the parameters, one by one. -/
def ParamForms : List (Str × Str) → List Str → Prop
  | [], [] => True
  | kv :: l, t :: ts => ParamForm kv t ∧ ParamForms l ts
  | _, _ => False

/-- The content line of a property: the name, its parameters in some order, a colon and the value, in which
backslash, comma, semicolon and line feed are escaped if it is a TEXT. -/
def ContentLine (p : Property) (line : Str) : Prop :=
  ∃ params forms, params.Perm p.params ∧ ParamForms params forms ∧
    line = p.key ++ forms.flatten ++ ':' :: rawText p

/-- The text of a property: a content line cut between characters into pieces, of which only the first can be empty,
rejoined with CR LF SPACE and followed by one CR LF. -/
def PropertyText (p : Property) (t : Str) : Prop :=
  ∃ line q qs, ContentLine p line ∧ line = (q :: qs).flatten ∧ (∀ x ∈ qs, x ≠ []) ∧
    t = joinFold (q :: qs) ++ ['\r', '\n']

/-- The texts of properties, one after the other. -/
def PropertiesText : List Property → Str → Prop
  | [], t => t = []
  | p :: l, t => ∃ a b, PropertyText p a ∧ PropertiesText l b ∧ t = a ++ b

/-- A line that is there exactly if the component has no property of the name: the name and a generated value. -/
def GeneratedText (k : Str) (props : BMap Property) (Generated : Str → Prop) (t : Str) : Prop :=
  match props.lookup k with
  | some _ => t = []
  | none => ∃ v, Generated v ∧ t = k ++ [':'] ++ v ++ ['\r', '\n']

mutual
/-- The text of a component: BEGIN, a time stamp if there is none, its properties, an identifier if there is none, its
repeatable properties, its sub-components and END. -/
def ComponentText : Other → Str → Prop
  | .mk name props multi comps, t =>
    ∃ stamp own uid repeated subs,
      GeneratedText c!"DTSTAMP" props (fun v => ∃ t : UtcDateTime, t.naive.Valid ∧ v = fmtUtc t) stamp ∧
      PropertiesText (props.map Prod.snd) own ∧
      GeneratedText c!"UID" props (fun v => ∀ c ∈ v, c ∈ c!"0123456789abcdef-") uid ∧
      PropertiesText (multi.flatMap Prod.snd) repeated ∧
      ComponentsText comps subs ∧
      t = c!"BEGIN:" ++ name ++ c!"\r\n" ++ stamp ++ own ++ uid ++ repeated ++ subs ++ c!"END:" ++ name ++ c!"\r\n"
/-- The texts of components, one after the other. -/
def ComponentsText : List Other → Str → Prop
  | [], t => t = []
  | o :: l, t => ∃ a b, ComponentText o a ∧ ComponentsText l b ∧ t = a ++ b
end

/-- The text of a calendar: BEGIN, its properties, its components and END. -/
def CalendarText (c : Calendar) (t : Str) : Prop :=
  ∃ own comps, PropertiesText c.props own ∧ ComponentsText (c.comps.map CalComp.toOther) comps ∧
    t = c!"BEGIN:VCALENDAR\r\n" ++ own ++ comps ++ c!"END:VCALENDAR\r\n"

end Ical.Spec
