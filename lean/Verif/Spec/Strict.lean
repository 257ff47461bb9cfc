import Verif.Spec.ContentLine
import Verif.Spec.Text
import Verif.Spec.Rfc

/-!
Specification of content lines as RFC 5545 defines them (section 3.1), and of what a reader that follows it takes a text
for. Independent of the writer and of the reader of the library.
-/

namespace Ical.Spec

open Ical

/-- CONTROL: all the controls except HTAB. -/
def ControlChar (c : Char) : Prop := (c.toNat < 32 ∧ c ≠ '\t') ∨ c.toNat = 127

instance (c : Char) : Decidable (ControlChar c) := by unfold ControlChar; infer_instance

/-- QSAFE-CHAR: any character except CONTROL and DQUOTE. -/
def QSafeChar (c : Char) : Prop := ¬ ControlChar c ∧ c ≠ '"'

instance (c : Char) : Decidable (QSafeChar c) := by unfold QSafeChar; infer_instance

/-- SAFE-CHAR: any character except CONTROL, DQUOTE, semicolon, colon and comma. -/
def SafeChar (c : Char) : Prop := ¬ ControlChar c ∧ c ≠ '"' ∧ c ≠ ';' ∧ c ≠ ':' ∧ c ≠ ','

instance (c : Char) : Decidable (SafeChar c) := by unfold SafeChar; infer_instance

/-- What a content line says: a name, parameters with the list of their values, and a value. -/
structure Said where
  name : Str
  params : List (Str × List Str)
  value : Str

/-- param-value = paramtext / quoted-string. The quotes are not part of the value. -/
def StrictValue (v : Str) (t : Str) : Prop :=
  (t = v ∧ ∀ c ∈ v, SafeChar c) ∨ (t = '"' :: v ++ ['"'] ∧ ∀ c ∈ v, QSafeChar c)

/-- param-value *("," param-value) -/
def StrictValues : List Str → Str → Prop
  | [], _ => False
  | [v], t => StrictValue v t
  | v :: u :: l, t => ∃ a b, StrictValue v a ∧ StrictValues (u :: l) b ∧ t = a ++ ',' :: b

/-- *(";" param), with param = param-name "=" param-value *("," param-value) -/
def StrictParams : List (Str × List Str) → Str → Prop
  | [], t => t = []
  | (k, vs) :: l, t => ∃ a b, RfcName k ∧ StrictValues vs a ∧ StrictParams l b ∧ t = ';' :: k ++ '=' :: a ++ b

/-- name *(";" param ) ":" value -/
def StrictLine (x : Said) (t : Str) : Prop :=
  ∃ ps, RfcName x.name ∧ StrictParams x.params ps ∧ (∀ c ∈ x.value, ¬ ControlChar c) ∧
    t = x.name ++ ps ++ ':' :: x.value

/-- Unfolding: every CRLF that is followed by a space or tab is removed, together with it. -/
def unfoldRfc : Str → Str
  | [] => []
  | '\r' :: '\n' :: ' ' :: s => unfoldRfc s
  | '\r' :: '\n' :: '\t' :: s => unfoldRfc s
  | c :: s => c :: unfoldRfc s

/-- Content lines, each ended by a CRLF. -/
def StrictLines : List Said → Str → Prop
  | [], t => t = []
  | x :: l, t => ∃ a b, StrictLine x a ∧ StrictLines l b ∧ t = a ++ ['\r', '\n'] ++ b

/-- A text that is, after unfolding, a sequence of content lines. -/
def StrictText (xs : List Said) (t : Str) : Prop := StrictLines xs (unfoldRfc t)

/-- A line says what a property is: its name, its parameters in some order, each with its value and no other, and its
value, escaped if it is a TEXT. -/
def Says (x : Said) (p : Property) : Prop :=
  x.name = p.key ∧ (∃ params : List (Str × Str), params.Perm p.params ∧ x.params = params.map (fun kv => (kv.1, [kv.2]))) ∧
    (if IsText p then readText x.value = p.val else x.value = p.val)

/-- A property made of characters RFC 5545 has a place for: its name and those of its parameters are names, no value of
a parameter has a quote or control character, those with a comma have a colon or semicolon as well, and the value has
no control characters, except line feeds if it is a TEXT. -/
structure Sayable (p : Property) : Prop where
  name : RfcName p.key
  params : ∀ kv ∈ p.params, RfcName kv.1 ∧ (∀ c ∈ kv.2, QSafeChar c) ∧ (',' ∈ kv.2 → ':' ∈ kv.2 ∨ ';' ∈ kv.2)
  value : ∀ c ∈ p.val, ControlChar c → IsText p ∧ c = '\n'

/-- Lines that say what properties are, one by one. -/
def SayAll : List Said → List Property → Prop
  | [], [] => True
  | x :: xs, p :: ps => Says x p ∧ SayAll xs ps
  | _, _ => False

/-- A line with a name and a value. -/
def plainSaid (name value : Str) : Said := ⟨name, [], value⟩

/-- The line that is there exactly if the component has no property of the name. -/
def SaysGenerated (k : Str) (props : BMap Property) (Generated : Str → Prop) (xs : List Said) : Prop :=
  match props.lookup k with
  | some _ => xs = []
  | none => ∃ v, Generated v ∧ xs = [plainSaid k v]

mutual
/-- The lines say what a component is: BEGIN and its name (iana-token or x-name), its properties, its sub-components
and END. -/
def SayComponent : Other → List Said → Prop
  | .mk name props multi comps, xs =>
    RfcName name ∧ ∃ stamp own uid repeated subs,
      SaysGenerated c!"DTSTAMP" props (fun v => ∃ t : UtcDateTime, t.naive.Valid ∧ v = fmtUtc t) stamp ∧
      SayAll own (props.map Prod.snd) ∧
      SaysGenerated c!"UID" props (fun v => ∀ c ∈ v, c ∈ c!"0123456789abcdef-") uid ∧
      SayAll repeated (multi.flatMap Prod.snd) ∧
      SayComponents comps subs ∧
      xs = [plainSaid c!"BEGIN" name] ++ stamp ++ own ++ uid ++ repeated ++ subs ++ [plainSaid c!"END" name]
/-- see `SayComponent` -/
def SayComponents : List Other → List Said → Prop
  | [], xs => xs = []
  | o :: l, xs => ∃ a b, SayComponent o a ∧ SayComponents l b ∧ xs = a ++ b
end

/-- The lines say what a calendar is. -/
def SayCalendar (c : Calendar) (xs : List Said) : Prop :=
  ∃ own comps, SayAll own c.props ∧ SayComponents (c.comps.map CalComp.toOther) comps ∧
    xs = [plainSaid c!"BEGIN" c!"VCALENDAR"] ++ own ++ comps ++ [plainSaid c!"END" c!"VCALENDAR"]

mutual
/-- A component of such properties whose name is a name, at any depth. -/
def SayableOther : Other → Prop
  | .mk name props multi comps =>
    RfcName name ∧ (∀ x ∈ props, Sayable x.2) ∧ (∀ x ∈ multi, ∀ p ∈ x.2, Sayable p) ∧ SayableOthers comps
/-- see `SayableOther` -/
def SayableOthers : List Other → Prop
  | [] => True
  | o :: l => SayableOther o ∧ SayableOthers l
end

end Ical.Spec
