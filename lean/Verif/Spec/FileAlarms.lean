import Verif.Spec.FileGetters

/-!
Specification of what the getters of components inside components (alarms, parts of time zones) return when they were
read from a file, in terms of the lines of the file.
-/

namespace Ical.Spec

open Ical

/-- A trigger: a number of seconds from the start or the end, or a time. -/
def TriggerSays (items : List Item) (r : Option Trigger) : Prop :=
  LastSays c!"TRIGGER" items r fun ps raw =>
    (∀ n : Nat, n < 4294967296 → raw = c!"PT" ++ Nat.toDigits 10 n ++ ['S'] →
      (paramOf ps c!"VALUE" = none ∨ paramOf ps c!"VALUE" = some c!"DURATION") →
      ∃ rel, r = some (.duration ⟨n * 1000000000⟩ rel) ∧
        ∀ y, rel = some y ↔ paramOf ps c!"RELATED" = some (relatedText y)) ∧
    (∀ s t (y m d h mi sec : Nat), raw = s ++ 'T' :: t → DateText s y m d → TimeText t h mi sec →
      paramOf ps c!"VALUE" = some c!"DATE-TIME" →
      GivenIf (DayExists y m d ∧ TimeExists h mi sec) (.dateTime (.floating (timeOn ⟨y, m, d⟩ h mi sec))) r) ∧
    (∀ s t (y m d h mi sec : Nat), raw = s ++ 'T' :: t ++ ['Z'] → DateText s y m d → TimeText t h mi sec →
      paramOf ps c!"VALUE" = some c!"DATE-TIME" →
      GivenIf (DayExists y m d ∧ TimeExists h mi sec) (.dateTime (.utc ⟨timeOn ⟨y, m, d⟩ h mi sec⟩)) r)

mutual
/-- A component says what the lines of a component of the document say, with its trigger, and so do the components
inside it, in order and in turn. -/
def SubSays [Uni] [Iso8601] : Item → Other → Prop
  | .comp _ _ n items, .mk name props multi comps =>
    name = n ∧ GettersSay items (Other.mk name props multi comps) ∧
      TriggerSays items ((props.lookup c!"TRIGGER").bind Trigger.tryFrom) ∧ SubsSay items comps
  | .prop _ _ _, _ => False
/-- see `SubSays` -/
def SubsSay [Uni] [Iso8601] : List Item → List Other → Prop
  | [], [] => True
  | .prop _ _ _ :: l, os => SubsSay l os
  | .comp b e n items :: l, o :: os => SubSays (.comp b e n items) o ∧ SubsSay l os
  | _, _ => False
end

/-- The components of a calendar are those of the document, in order, and the components inside them say what their
lines say. -/
def InsideSay [Uni] [Iso8601] : List (Str × List Item) → List CalComp → Prop
  | [], [] => True
  | i :: l, x :: xs => SubsSay i.2 x.toOther.inner.comps ∧ InsideSay l xs
  | _, _ => False

end Ical.Spec
