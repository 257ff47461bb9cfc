import Verif.Spec.Acceptance
import Verif.Spec.Errors

/-!
Specification of exactly what the reader says about a text it fails on: the places it names, innermost first, and what it
says about each. The three ways to fail are those of `Broken` in `Spec/Acceptance.lean`.
-/

namespace Ical.Spec

open Ical

variable [Uni]

/-- What is said about a component in which reading fails.
* After some elements there comes an `END:` with another name: the place is behind that `END:`.
* After some elements there comes a text that starts with END or BEGIN in capitals: the place is at that word, and the text
  with the white space before it is said to be no property and to be where the error is.
* After some elements there comes a component in which reading fails: what is said about that one comes first, then that
  this is where the error is. -/
inductive Reports : Str → List Entry → Prop
  | close {n : Str} {props : List PProp} {comps : List PComp} {b gap body e f : Str} :
    b.map lowerAscii = c!"begin:" → IsName n → First (fun c => ¬ NameChar c) (gap ++ (body ++ (e ++ f))) → Blank gap →
    NoBreak (body ++ (e ++ f)) → BodyIs props comps body (e ++ f) → e.map lowerAscii = c!"end:" → ¬ n <+: f →
    Reports (b ++ (n ++ (gap ++ (body ++ (e ++ f))))) [(f, .nom c!"Tag"), (f, .context c!"mismatching end")]
  | word {n : Str} {props : List PProp} {comps : List PComp} {b gap body white s : Str} :
    b.map lowerAscii = c!"begin:" → IsName n → First (fun c => ¬ NameChar c) (gap ++ (body ++ (white ++ s))) →
    Blank gap → NoBreak (body ++ (white ++ s)) → BodyIs props comps body (white ++ s) → (∀ c ∈ white, Space c) →
    c!"END" <+: s ∨ c!"BEGIN" <+: s → ¬ Begins c!"end:" (white ++ s) →
    (Begins c!"begin:" (white ++ s) → Stuck (white ++ s)) →
    Reports (b ++ (n ++ (gap ++ (body ++ (white ++ s)))))
      [(s, .nom c!"Satisfy"), (white ++ s, .context c!"property cannot be END or BEGIN"),
        (white ++ s, .context c!"property"), (white ++ s, .context c!"component")]
  | inner {n : Str} {props : List PProp} {comps : List PComp} {b gap body f : Str} {l : List Entry} :
    b.map lowerAscii = c!"begin:" → IsName n → First (fun c => ¬ NameChar c) (gap ++ (body ++ f)) → Blank gap →
    NoBreak (body ++ f) → BodyIs props comps body f → Reports f l →
    Reports (b ++ (n ++ (gap ++ (body ++ f)))) (l ++ [(f, .context c!"component")])

/-- What is said about a component that is not closed: the place is where no element is found, or the end. -/
inductive ReportsOpen : Str → List Entry → Prop
  | mk {n : Str} {props : List PProp} {comps : List PComp} {b gap body f : Str} :
    b.map lowerAscii = c!"begin:" → IsName n → First (fun c => ¬ NameChar c) (gap ++ (body ++ f)) → Blank gap →
    NoBreak (body ++ f) → BodyIs props comps body f → PropIs ⟨[], [], []⟩ [] f →
    ReportsOpen (b ++ (n ++ (gap ++ (body ++ f)))) [(f, .nom c!"ManyTill")]

/-- What is said about a text that is to be one component and does not start with BEGIN, starts with a component that is
not closed, or with one in which reading fails. -/
def ReportsComponent (j : Str) (l : List Entry) : Prop :=
  (¬ Begins c!"begin:" j ∧ l = [(j, .nom c!"Tag")]) ∨ ReportsOpen j l ∨ Reports j l

omit [Uni] in
/-- How many line breaks of a text are no line breaks because a blank or a tab follows. -/
def markers : Str → Nat
  | [] => 0
  | '\r' :: '\n' :: ' ' :: s => markers s + 1
  | '\r' :: '\n' :: '\t' :: s => markers s + 1
  | '\n' :: ' ' :: s => markers s + 1
  | '\n' :: '\t' :: s => markers s + 1
  | _ :: s => markers s

end Ical.Spec
