import Verif.Spec.Foreign
import Verif.Spec.WellFormed

/-!
Specification of tools that convert the line breaks of text files, and of documents of which each line is one line.
-/

namespace Ical.Spec

open Ical

/-- Every CRLF becomes a LF (`dos2unix`). -/
def toLf : Str → Str
  | [] => []
  | '\r' :: '\n' :: s => '\n' :: toLf s
  | c :: s => c :: toLf s

/-- Every LF becomes a CRLF, unless it is part of one (`unix2dos`). -/
def toCrlf : Str → Str
  | [] => []
  | '\r' :: '\n' :: s => '\r' :: '\n' :: toCrlf s
  | c :: s => if c = '\n' then '\r' :: '\n' :: toCrlf s else c :: toCrlf s

mutual
/-- No content line contains a CR or LF. -/
def Item.Unbroken : Item → Prop
  | .prop key params val =>
    '\r' ∉ key ++ (params.map DParam.text).flatten ++ [':'] ++ val ∧ '\n' ∉ key ++ (params.map DParam.text).flatten ++ [':'] ++ val
  | .comp _ _ _ items => ItemsUnbroken items
/-- see `Item.Unbroken` -/
def ItemsUnbroken : List Item → Prop
  | [] => True
  | i :: l => i.Unbroken ∧ ItemsUnbroken l
end

/-- No parameter contains a CR or LF, nor does the value, except for LF in a TEXT. -/
structure UnbrokenProp (p : Property) : Prop where
  params : ∀ x ∈ p.params, '\r' ∉ x.2 ∧ '\n' ∉ x.2
  value : '\r' ∉ p.val ∧ ('\n' ∈ p.val → IsText p)

mutual
/-- A component of such properties, at any depth. -/
def UnbrokenOther : Other → Prop
  | .mk _ props multi comps =>
    (∀ x ∈ props, UnbrokenProp x.2) ∧ (∀ x ∈ multi, ∀ p ∈ x.2, UnbrokenProp p) ∧ UnbrokenOthers comps
/-- see `UnbrokenOther` -/
def UnbrokenOthers : List Other → Prop
  | [] => True
  | o :: l => UnbrokenOther o ∧ UnbrokenOthers l
end

/-- A calendar of such properties, at any depth. -/
structure UnbrokenCal (c : Calendar) : Prop where
  props : ∀ p ∈ c.props, UnbrokenProp p
  comps : ∀ x ∈ c.comps, UnbrokenOther x.toOther

end Ical.Spec
