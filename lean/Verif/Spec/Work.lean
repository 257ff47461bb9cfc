import Verif.Model.Component
import Verif.Spec.Document

/-!
What the statements about the cost of reading refer to: where a text opens a component. Independent of
the parser.
-/

namespace Ical.Spec

/-- Does a text start with `BEGIN:` in upper or lower case letters? -/
def opens (s : Str) : Bool := decide ((s.take 6).map lowerAscii = c!"begin:")

/-- The number of places of a text at which `BEGIN:`, in any case, stands. -/
def opensCount : Str → Nat
  | [] => 0
  | c :: s => (if opens (c :: s) then 1 else 0) + opensCount s

/-- Does a text start with `END:` in upper or lower case letters? -/
def closes (s : Str) : Bool := decide ((s.take 4).map lowerAscii = c!"end:")

/-- Wherever a line of a text starts with `BEGIN:`, and wherever `BEGIN:` stands further on in a line that starts with
`BEGIN:` or `END:`, the word is written in upper case letters. (Elsewhere, for instance in a value, any spelling may
occur.) -/
def UpperBegins (text : Str) : Prop :=
  ∀ a l b, text = a ++ l ++ b → (a = [] ∨ a.getLast? = some '\n') → '\n' ∉ l →
    (l = [] ∨ opens l = true ∨ closes l = true) → opens b = true → b.take 5 = c!"BEGIN"

/-- So many lines `begin:A`. -/
def begins : Nat → Str
  | 0 => []
  | n + 1 => c!"begin:A\n" ++ begins n

/-- So many components `A`, each inside the one before. -/
def nest : Nat → List Item
  | 0 => []
  | n + 1 => [.comp c!"BEGIN:" c!"END:" c!"A" (nest n)]

/-- So many properties `X:1`. -/
def flat (n : Nat) : List Item := List.replicate n (.prop c!"X" [] c!"1")

/-- A calendar with these elements. -/
def calendarOf (items : List Item) : Item := .comp c!"BEGIN:" c!"END:" c!"VCALENDAR" items

mutual
/-- The levels of a document: a line is one level, a component is one level above the highest thing in it. -/
def Item.levels : Item → Nat
  | .prop _ _ _ => 1
  | .comp _ _ _ items => 1 + itemsLevels items
/-- see `Item.levels` -/
def itemsLevels : List Item → Nat
  | [] => 0
  | i :: l => max i.levels (itemsLevels l)
end

mutual
/-- How deep a component is nested: 1 for one without sub-components. -/
def nesting : Other → Nat
  | .mk _ _ _ comps => 1 + nestings comps
/-- see `nesting`; 0 for no components -/
def nestings : List Other → Nat
  | [] => 0
  | o :: l => max (nesting o) (nestings l)
end

end Ical.Spec
