import Verif.Model.Basic

/-!
Specification of TEXT values (RFC 5545, section 3.3.11), independent of the code.
-/

namespace Ical.Spec

open Ical

/-- What the character after a backslash stands for, for the escapes the reader knows. -/
def escapeMeaning (c : Char) : Option Char :=
  if c = '\\' then some '\\'
  else if c = ',' then some ','
  else if c = ';' then some ';'
  else if c = ':' then some ':'
  else if c = 'n' then some '\n'
  else if c = 'N' then some '\n'
  else none

/-- The left-to-right reading of a TEXT value: a backslash and a character with a meaning stand for that
meaning; anything else stands for itself. -/
def readText : Str → Str
  | [] => []
  | '\\' :: c :: s =>
    match escapeMeaning c with
    | some m => m :: readText s
    | none => '\\' :: readText (c :: s)
  | c :: s => c :: readText s

/-- What the reader makes of a TEXT value after `k` backslashes in a row: half of them remain (rounded up), one
less if a comma, semicolon, colon, `n` or `N` follows; after at least one backslash the last two stand for a
line feed. Other characters stand for themselves. -/
def unescapedRun : Nat → Str → Str
  | k, [] => List.replicate ((k + 1) / 2) '\\'
  | k, c :: s =>
    if c = '\\' then unescapedRun (k + 1) s
    else if k = 0 then c :: unescapedRun 0 s
    else match escapeMeaning c with
      | some m => List.replicate ((k + 1) / 2 - 1) '\\' ++ m :: unescapedRun 0 s
      | none => List.replicate ((k + 1) / 2) '\\' ++ c :: unescapedRun 0 s

/-- What the reader makes of a TEXT value. On most texts this is the left-to-right reading; see C10 and C83. -/
def unescaped (s : Str) : Str := unescapedRun 0 s

/-- What a TEXT value is read back as: a backslash before a colon is lost, a backslash before `n` or `N` becomes
a line feed together with it; everything else is kept. -/
def rereadText : Str → Str
  | [] => []
  | [c] => [c]
  | a :: b :: s =>
    if a = '\\' ∧ b = ':' then ':' :: rereadText s
    else if a = '\\' ∧ (b = 'n' ∨ b = 'N') then '\n' :: rereadText s
    else a :: rereadText (b :: s)

/-- A text in which comma, semicolon, line feed and backslash occur only as part of an escape sequence. -/
def Inert : Str → Prop
  | [] => True
  | '\\' :: c :: s => (c = '\\' ∨ c = ',' ∨ c = ';' ∨ c = 'N' ∨ c = 'n') ∧ Inert s
  | c :: s => c ≠ '\\' ∧ c ≠ ',' ∧ c ≠ ';' ∧ c ≠ '\n' ∧ Inert s

/-- In the left-to-right reading, no escaped backslash is directly followed by a plain comma, semicolon,
colon, `n` or `N`. -/
def NoDoubleRead : Str → Prop
  | [] => True
  | '\\' :: '\\' :: s =>
    (∀ c ∈ s.head?, c ≠ ',' ∧ c ≠ ';' ∧ c ≠ ':' ∧ c ≠ 'n' ∧ c ≠ 'N') ∧ NoDoubleRead s
  | '\\' :: c :: s => match escapeMeaning c with
    | some _ => NoDoubleRead s
    | none => NoDoubleRead (c :: s)
  | _ :: s => NoDoubleRead s

end Ical.Spec
