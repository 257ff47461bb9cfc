import Verif.Model.Errors
import Verif.Spec.Document

/-!
Specification of error messages: which places of a text they may blame, and what is said about a place.
Shared with the model: the data types and the folding of letters (`lowerAscii`).
-/

namespace Ical.Spec

open Ical

variable [Uni]

/-- `i` opens a component of the given name, and its body is `body`. There may be blank lines before it. -/
def OpensBody (i name body : Str) : Prop :=
  ∃ blank kw, (∀ c ∈ blank, c = '\r' ∨ c = '\n') ∧ kw.map lowerAscii = c!"begin:" ∧ IsName name ∧
    (∀ c, body.head? = some c → ¬ NameChar c) ∧ i = blank ++ kw ++ name ++ body

/-- What an error message may say about a component that starts at `i`: it is the list of places blamed,
innermost first, with what is said about them.
* The component is closed by a line for another name: the place is behind the `END:` of that line.
* At a line of the component, `END` or `BEGIN` is found (after blanks) that neither closes the component nor opens a
  component that can be read: the place is there.
* A component inside is blamed. -/
inductive Blame : Str → List Entry → Prop
  | mismatch {i name body before kw s : Str} : OpensBody i name body → body = before ++ kw ++ s →
      kw.map lowerAscii = c!"end:" → ¬ name <+: s →
      Blame i [(s, .nom c!"Tag"), (s, .context c!"mismatching end")]
  | keyword {i name body before blank line space s : Str} : OpensBody i name body → body = before ++ line →
      line = blank ++ space ++ s → (∀ c ∈ blank, c = '\r' ∨ c = '\n') → (∀ c ∈ space, c ∈ [' ', '\t', '\r', '\n']) →
      c!"END" <+: s ∨ c!"BEGIN" <+: s →
      Blame i [(s, .nom c!"Satisfy"), (space ++ s, .context c!"property cannot be END or BEGIN"),
        (space ++ s, .context c!"property"), (line, .context c!"component")]
  | inner {i name body before line : Str} {l : List Entry} : OpensBody i name body → body = before ++ line →
      Blame line l → Blame i (l ++ [(line, .context c!"component")])

omit [Uni] in
/-- `rest` is at column `col` (in octets, from 1) of line `n` (from 1) of `input`, and that line is `line` once the
whitespace at its end is removed. -/
def IsPlace (input rest : Str) (n : Nat) (line : Str) (col : Nat) : Prop :=
  ∃ above before after below white, input = above ++ before ++ rest ∧
    (above = [] ∨ ∃ a, above = a ++ ['\n']) ∧ n = (above.filter (· = '\n')).length + 1 ∧
    '\n' ∉ before ∧ col = (before.flatMap String.utf8EncodeChar).length + 1 ∧
    rest = after ++ below ∧ '\n' ∉ after ∧ (below = [] ∨ ∃ b, below = '\n' :: b) ∧
    before ++ after = line ++ white ∧ (∀ c ∈ white, isWhitespace c = true) ∧
    (∀ c, line.getLast? = some c → isWhitespace c = false)

/-- What is said about a place. -/
def _root_.Ical.EKind.says : EKind → Str
  | .nom kind => kind
  | .context name => name

omit [Uni] in
/-- The text about a list of places, the first of which has the number `k`: for each of them its number, the number of
its line, what is said about it, the line itself, and a caret under the column. -/
inductive Message (input : Str) : Nat → List Entry → Str → Prop
  | nil {k : Nat} : Message input k [] []
  | cons {k : Nat} {rest : Str} {what : EKind} {l : List Entry} {n col : Nat} {line text : Str} :
      IsPlace input rest n line col → Message input (k + 1) l text →
      Message input k ((rest, what) :: l)
        (Nat.toDigits 10 k ++ c!": at line " ++ Nat.toDigits 10 n ++ c!", in " ++ what.says ++ c!":\n" ++ line ++
          c!"\n" ++ List.replicate (col - 1) ' ' ++ c!"^\n\n" ++ text)

omit [Uni] in
/-- What is said about open components other than the outermost one, innermost first: each of them is said to be where
the error is. `t` is the text that follows all of them. -/
def insideOf (br : Break) : List Frame → Str → List Entry
  | [], _ => []
  | f :: fs, t => insideOf br fs t ++ [(openText br (f :: fs) ++ t, .context c!"component")]

end Ical.Spec
