import Verif.Spec.Breaks
import Verif.Spec.ContentLine

/-!
Specification of removing all lines of a name from a file, as programs that filter lines do it, and of removing a
property from a calendar.
-/

namespace Ical.Spec

open Ical

/-- The lines of a text as programs that work on lines see them: each ends with a LF, except for the last one, which
may end without. -/
def cutLines : Str → List Str
  | [] => []
  | c :: s =>
    if c = '\n' then ['\n'] :: cutLines s
    else match cutLines s with
      | [] => [[c]]
      | line :: lines => (c :: line) :: lines

/-- The line starts with the name and a colon or semicolon. -/
def NamedLine (k line : Str) : Prop := k ++ [':'] <+: line ∨ k ++ [';'] <+: line

instance (k line : Str) : Decidable (NamedLine k line) := by unfold NamedLine; infer_instance

/-- The text without the lines of a name. -/
def withoutLines (k s : Str) : Str := ((cutLines s).filter (fun line => ¬ NamedLine k line)).flatten

/-- A line without its line break. -/
def lineContent (line : Str) : Str :=
  if c!"\r\n" <:+ line then line.dropLast.dropLast else if c!"\n" <:+ line then line.dropLast else line

/-- The line continues the one before. -/
def Continues (line : Str) : Prop := c!" " <+: line ∨ c!"\t" <+: line

instance (line : Str) : Decidable (Continues line) := by unfold Continues; infer_instance

/-- No line of the name is continued on the next line, and no line ends within the name. -/
def NotContinued (k : Str) : List Str → Prop
  | [] => True
  | [_] => True
  | a :: b :: l => (Continues b → ¬ NamedLine k a ∧ ¬ lineContent a <+: k) ∧ NotContinued k (b :: l)

def decNotContinued (k : Str) : (l : List Str) → Decidable (NotContinued k l)
  | [] => .isTrue trivial
  | [_] => .isTrue trivial
  | a :: b :: l =>
    have : Decidable (NotContinued k (b :: l)) := decNotContinued k (b :: l)
    inferInstanceAs (Decidable ((Continues b → ¬ NamedLine k a ∧ ¬ lineContent a <+: k) ∧ NotContinued k (b :: l)))

instance (k : Str) (l : List Str) : Decidable (NotContinued k l) := decNotContinued k l

/-- The line of a property of this name has at most 75 octets; another name consists of at most 74 ASCII characters and
is not a beginning of this one. -/
def ShortNamed (k : Str) (p : Property) : Prop :=
  if p.key = k then ∀ line, ContentLine p line → blen line ≤ 75
  else (∀ c ∈ p.key, IsAscii c) ∧ p.key.length ≤ 74 ∧ ¬ p.key <+: k

mutual
/-- The elements without the content lines of a name, at any depth. -/
def Item.withoutNamed (k : Str) : Item → Item
  | .prop key params val => .prop key params val
  | .comp b e name items => .comp b e name (withoutNamed k items)
/-- see `Item.withoutNamed` -/
def withoutNamed (k : Str) : List Item → List Item
  | [] => []
  | .prop key params val :: l =>
    if key = k then withoutNamed k l else .prop key params val :: withoutNamed k l
  | .comp b e name items :: l => .comp b e name (withoutNamed k items) :: withoutNamed k l
end

mutual
/-- The second component is the first one without the properties of a name, at any depth. -/
def Without (k : Str) : Other → Other → Prop
  | .mk n props multi comps, .mk n' props' multi' comps' =>
    n' = n ∧ (∀ x, props'.lookup x = if x = k then none else props.lookup x) ∧
    (∀ x, multi'.lookup x = if x = k then none else multi.lookup x) ∧ WithoutAll k comps comps'
/-- see `Without` -/
def WithoutAll (k : Str) : List Other → List Other → Prop
  | [], [] => True
  | o :: l, o' :: l' => Without k o o' ∧ WithoutAll k l l'
  | _, _ => False
end

/-- see `Without`; the kinds of the components are the same -/
def CompsWithout (k : Str) : List CalComp → List CalComp → Prop
  | [], [] => True
  | x :: l, y :: l' => (∃ n, KindFor n x ∧ KindFor n y) ∧ Without k x.toOther y.toOther ∧ CompsWithout k l l'
  | _, _ => False

/-- The second calendar is the first one without the properties of a name, of its own and of its components. -/
structure CalendarWithout (k : Str) (c d : Calendar) : Prop where
  props : d.props = c.props.filter (·.key ≠ k)
  comps : CompsWithout k c.comps d.comps

end Ical.Spec
