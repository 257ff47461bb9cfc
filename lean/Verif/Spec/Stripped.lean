import Verif.Spec.SameBut
import Verif.Spec.Text
import Verif.Spec.Lines

/-!
Specification of texts whose lines were stripped of blanks at their ends, as editors and tools do when they save a file.
-/

namespace Ical.Spec

open Ical

/-- A space or a tab. -/
def isBlank (c : Char) : Bool := c == ' ' || c == '\t'

/-- The text starts with a line break, or is empty. -/
def lineEnds : Str → Bool
  | [] => true
  | '\n' :: _ => true
  | '\r' :: '\n' :: _ => true
  | _ => false

/-- A text without the blanks at the ends of its lines. -/
def stripped : Str → Str
  | [] => []
  | c :: s => if isBlank c && lineEnds (s.dropWhile isBlank) then stripped s else c :: stripped s

/-- The text starts with a blank, and nothing but blanks comes before the end of the line. -/
def endsBlank : Str → Bool
  | [] => false
  | c :: s => isBlank c && lineEnds (s.dropWhile isBlank)

/-- The blanks at the end of a line never follow directly after a line feed, a carriage return or a backslash: no line
consists of blanks, and none ends in a backslash and blanks. -/
def SafeEnds : Str → Prop
  | [] => True
  | c :: s => (c ∈ ['\n', '\r', '\\'] → endsBlank s = false) ∧ SafeEnds s

/-- `t` is the text `s` with some blanks missing. -/
inductive BlanksMissing : Str → Str → Prop
  | nil : BlanksMissing [] []
  | keep (c : Char) {s t : Str} : BlanksMissing s t → BlanksMissing (c :: s) (c :: t)
  | lose {b : Char} {s t : Str} : isBlank b = true → BlanksMissing s t → BlanksMissing (b :: s) t

/-- A name without blanks. -/
def NoBlank (s : Str) : Prop := ∀ c ∈ s, isBlank c = false

/-- Any name. -/
def AnyName (_ : Str) : Prop := True

/-- A value of a parameter that does not start with a blank, and contains none if it names a type. -/
def PlainStart (k v : Str) : Prop := (∀ c ∈ v.head?, isBlank c = false) ∧ (k = c!"VALUE" → NoBlank v)

instance : (s : Str) → Decidable (SafeEnds s)
  | [] => .isTrue trivial
  | c :: s =>
    have : Decidable (SafeEnds s) := instDecidableSafeEnds s
    inferInstanceAs (Decidable ((c ∈ ['\n', '\r', '\\'] → endsBlank s = false) ∧ SafeEnds s))

instance (s : Str) : Decidable (NoBlank s) := by unfold NoBlank; infer_instance

instance : DecidablePred AnyName := fun _ => .isTrue trivial

instance : DecidableRel PlainStart := fun k v =>
  inferInstanceAs (Decidable ((∀ c ∈ v.head?, isBlank c = false) ∧ (k = c!"VALUE" → NoBlank v)))

end Ical.Spec
