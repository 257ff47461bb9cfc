import Verif.Spec.OwnLine
import Verif.Spec.WellFormed

/-!
Specification of exactly which calendars are read back as they were.
-/

namespace Ical.Spec

open Ical

/-- The values of parameters, followed by some text, such that the quotes put around values and those in them cannot be
mixed up: a value with a colon or semicolon has no quote in it; any other value can have quotes, but if it starts with
one and the next character is not another one, no second quote may follow in all of the text. -/
def ParamsTold : List (Str × Str) → Str → Prop
  | [], _ => True
  | (_, v) :: l, rest =>
    (if ':' ∈ v ∨ ';' ∈ v then '"' ∉ v
      else ¬ ['"'] <+: v ∨ ['"', '"'] <+: v ∨ ∃ forms, ParamForms l forms ∧ '"' ∉ v.tail ++ forms.flatten ++ rest) ∧
    ParamsTold l rest

/-- A text is the content lines of properties, in order, each followed by CR LF, with the parameters in an order in
which their values are told; `f` is what comes after the text. -/
inductive LinesTold : List Property → Str → Str → Prop
  | nil {f : Str} : LinesTold [] [] f
  | cons {p : Property} {ps : List Property} {l : List (Str × Str)} {forms : List Str} {t f : Str} :
    l.Perm p.params → ParamForms l forms → ParamsTold l (':' :: rawText p ++ ['\r', '\n'] ++ t ++ f) → LinesTold ps t f →
    LinesTold (p :: ps) (p.key ++ forms.flatten ++ ':' :: rawText p ++ ['\r', '\n'] ++ t) f

mutual
/-- A text is BEGIN, the lines of the single properties, then of the repeatable ones, the sub-components and END, with
the values of parameters told. -/
inductive CompTold : Other → Str → Str → Prop
  | mk {name : Str} {props : BMap Property} {multi : BMap (List Property)} {comps : List Other} {a b f : Str} :
    LinesTold (props.map Prod.snd ++ multi.flatMap Prod.snd) a (b ++ (c!"END:" ++ name ++ ['\r', '\n']) ++ f) →
    CompsTold comps b ((c!"END:" ++ name ++ ['\r', '\n']) ++ f) →
    CompTold (.mk name props multi comps) ((c!"BEGIN:" ++ name ++ ['\r', '\n']) ++ a ++ b ++ (c!"END:" ++ name ++ ['\r', '\n'])) f
/-- see `CompTold` -/
inductive CompsTold : List Other → Str → Str → Prop
  | nil {f : Str} : CompsTold [] [] f
  | cons {o : Other} {l : List Other} {a b f : Str} : CompTold o a (b ++ f) → CompsTold l b f → CompsTold (o :: l) (a ++ b) f
end

/-- A text is BEGIN, the lines of the calendar's properties, its components and END, with the values of parameters
told. -/
def CalTold (c : Calendar) (u : Str) : Prop :=
  ∃ a b, u = c!"BEGIN:VCALENDAR\r\n" ++ a ++ b ++ c!"END:VCALENDAR\r\n" ∧
    LinesTold c.props a (b ++ c!"END:VCALENDAR\r\n") ∧
    CompsTold (c.comps.map CalComp.toOther) b c!"END:VCALENDAR\r\n"

/-- Properties without parameters that are called begin or end in whatever case: their lines start or end a component. -/
def NotKeyword (p : Property) : Prop :=
  p.params = [] → p.key.map lowerAscii ≠ c!"end" ∧ p.key.map lowerAscii ≠ c!"begin"

/-- The value of a property is in one line, unless it is TEXT (in which line feeds are escaped). -/
def InLine (p : Property) : Prop := ¬ IsText p → ¬ ['\r', '\n'] <:+: p.val

mutual
/-- Something is true of all properties of a component, at any depth. -/
def EachProp (P : Property → Prop) : Other → Prop
  | .mk _ props multi comps =>
    (∀ x ∈ props, P x.2) ∧ (∀ x ∈ multi, ∀ p ∈ x.2, P p) ∧ EachProps P comps
/-- see `EachProp` -/
def EachProps (P : Property → Prop) : List Other → Prop
  | [] => True
  | o :: l => EachProp P o ∧ EachProps P l
end

/-- Something is true of all properties of a calendar, at any depth. -/
structure CalProps (P : Property → Prop) (c : Calendar) : Prop where
  props : ∀ p ∈ c.props, P p
  comps : ∀ x ∈ c.comps, EachProp P x.toOther

variable [Uni]

mutual
/-- Everything is in its place: components are named by names, properties stored under their keys, as repeatable
exactly if they are, and no repeatable property has an empty list; at any depth. -/
def Placed : Other → Prop
  | .mk name props multi comps =>
    IsName name ∧ InOrder props ∧ (∀ x ∈ props, x.2.key = x.1 ∧ x.1 ∉ repeatable) ∧ InOrder multi ∧
    (∀ x ∈ multi, x.1 ∈ repeatable ∧ x.2 ≠ [] ∧ ∀ p ∈ x.2, p.key = x.1) ∧ PlacedAll comps
/-- see `Placed` -/
def PlacedAll : List Other → Prop
  | [] => True
  | o :: l => Placed o ∧ PlacedAll l
end

/-- Also, a generic component does not have the name of a typed one. -/
def PlacedIn (x : CalComp) : Prop :=
  Placed x.toOther ∧ ∀ o, x = .other o → o.name ≠ c!"VEVENT" ∧ o.name ≠ c!"VTODO" ∧ o.name ≠ c!"VVENUE"

/-- The maps of parameters are maps. -/
def OwnProp (p : Property) : Prop := OwnLine p ∧ InOrder p.params

end Ical.Spec
