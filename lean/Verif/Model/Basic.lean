import Lean.Parser.Term
import Lean.Elab.Macro

/-!
Strings, characters and the handful of Rust `str` methods the crate uses.
-/

namespace Ical

open Lean in
/-- `c!"abc"` is the list of characters `['a','b','c']`, expanded at parse time so that the kernel can
compute with it. -/
macro:max "c!" s:str : term => do
  let cs := (s.getString.toList.map fun c => Syntax.mkCharLit c).toArray
  `(([$cs,*] : List Char))

/-- Rust `String`/`&str`: the sequence of its characters. Byte offsets are recovered through
`Char.utf8Size`. -/
abbrev Str := List Char

/-- CR LF, the line terminator written by `write_crlf!`. Models /repo/src/lib.rs:25-35. -/
abbrev crlf : Str := ['\r', '\n']

/-- Length in UTF-8 bytes: Rust `str::len`. -/
def blen : Str → Nat
  | [] => 0
  | c :: s => c.utf8Size + blen s

/-- Rust `str::is_char_boundary`: byte index 0, the byte length, or the start of a character. -/
def isBoundary : Str → Nat → Bool
  | _, 0 => true
  | [], _ + 1 => false
  | c :: s, i + 1 => if c.utf8Size ≤ i + 1 then isBoundary s (i + 1 - c.utf8Size) else false

/-- Split at a byte offset; `none` when the offset is not a character boundary (Rust slicing panics). -/
def splitAtByte : Str → Nat → Option (Str × Str)
  | s, 0 => some ([], s)
  | [], _ + 1 => none
  | c :: s, i + 1 =>
    if c.utf8Size ≤ i + 1 then
      match splitAtByte s (i + 1 - c.utf8Size) with
      | some (a, b) => some (c :: a, b)
      | none => none
    else none

/-- Rust `&line[a..b]`; `none` is the panic (`a > b`, or an offset off a character boundary). -/
def slice (s : Str) (a b : Nat) : Option Str :=
  if a ≤ b then
    match splitAtByte s a with
    | some (_, t) =>
      match splitAtByte t (b - a) with
      | some (u, _) => some u
      | none => none
    | none => none
  else none

/-- Rust `&line[a..]`. -/
def sliceFrom (s : Str) (a : Nat) : Option Str :=
  match splitAtByte s a with
  | some (_, t) => some t
  | none => none

/-- Rust `char::is_whitespace`: the Unicode property White_Space, complete table. -/
def isWhitespace (c : Char) : Bool :=
  let n := c.toNat
  (9 ≤ n && n ≤ 13) || n == 0x20 || n == 0x85 || n == 0xA0 || n == 0x1680 ||
  (0x2000 ≤ n && n ≤ 0x200A) || n == 0x2028 || n == 0x2029 || n == 0x202F || n == 0x205F || n == 0x3000

/-- `line.chars().nth(n).map(char::is_whitespace).unwrap_or(false)`: /repo/src/properties.rs:398-403. -/
def wsAt : Str → Nat → Bool
  | [], _ => false
  | c :: _, 0 => isWhitespace c
  | _ :: s, n + 1 => wsAt s n

/-- Worker of `replaceAll`: `skip` counts characters of a match still to be dropped. -/
def replaceGo (pat to : Str) : Nat → Str → Str
  | _, [] => []
  | k + 1, _ :: s => replaceGo pat to k s
  | 0, c :: s =>
    if pat.isPrefixOf (c :: s) then to ++ replaceGo pat to (pat.length - 1) s
    else c :: replaceGo pat to 0 s

/-- Rust `str::replace` for a non-empty pattern: leftmost non-overlapping matches. -/
def replaceAll (pat to s : Str) : Str := replaceGo pat to 0 s

/-- Rust `str::replace` for a single-character pattern. -/
def replaceChar (pat : Char) (to : Str) : Str → Str
  | [] => []
  | c :: s => (if c = pat then to else [c]) ++ replaceChar pat to s

/-- Worker of `splitOn`. -/
def splitGo (pat : Str) : Nat → Str → List Str
  | _, [] => [[]]
  | k + 1, _ :: s => splitGo pat k s
  | 0, c :: s =>
    if pat.isPrefixOf (c :: s) then [] :: splitGo pat (pat.length - 1) s
    else match splitGo pat 0 s with
      | [] => [[c]]
      | p :: ps => (c :: p) :: ps

/-- Rust `str::split` for a non-empty string pattern. -/
def splitOn (pat s : Str) : List Str := splitGo pat 0 s

/-- Rust `str::contains` for a string pattern. -/
def containsStr (pat : Str) : Str → Bool
  | [] => pat.isEmpty
  | c :: s => pat.isPrefixOf (c :: s) || containsStr pat s

/-- Lexicographic comparison by code point. Rust compares `String`s by UTF-8 bytes, which is the same
order. Used by `BTreeMap<String, _>`. -/
def strCmp : Str → Str → Ordering
  | [], [] => .eq
  | [], _ :: _ => .lt
  | _ :: _, [] => .gt
  | a :: s, b :: t => if a.toNat < b.toNat then .lt else if b.toNat < a.toNat then .gt else strCmp s t

/-- The Unicode tables the code consults through `char::is_alphanumeric` and `char::is_lowercase`,
outside ASCII. Everything is proved for every such table. -/
class Uni where
  /-- `char::is_alphanumeric` on non-ASCII characters -/
  alnum : Char → Bool
  /-- `char::is_lowercase` on non-ASCII characters -/
  lower : Char → Bool

/-- A concrete table (no non-ASCII letters), used in examples. -/
@[instance_reducible] def Uni.ascii : Uni := ⟨fun _ => false, fun _ => false⟩

/-- Rust `char::is_alphanumeric`. -/
def isAlnum [Uni] (c : Char) : Bool :=
  if c.toNat < 128 then
    (0x30 ≤ c.toNat && c.toNat ≤ 0x39) || (0x41 ≤ c.toNat && c.toNat ≤ 0x5A) ||
    (0x61 ≤ c.toNat && c.toNat ≤ 0x7A)
  else Uni.alnum c

/-- Rust `char::is_lowercase`. -/
def isLower [Uni] (c : Char) : Bool :=
  if c.toNat < 128 then 0x61 ≤ c.toNat && c.toNat ≤ 0x7A else Uni.lower c

/-- ASCII lower-casing of one character. Rust's `char::to_lowercase` agrees with it in comparisons
against the ASCII letters that occur in the keywords used (`BEGIN:`, `END:`, `calendar`): no non-ASCII
character lower-cases to one of b,e,g,i,n,d,c,a,l,r alone. -/
def lowerAscii (c : Char) : Char :=
  if 0x41 ≤ c.toNat && c.toNat ≤ 0x5A then Char.ofNat (c.toNat + 32) else c

/-- A panic or a loop that never ends. -/
inductive Crash
  | panic
  | hang
  deriving DecidableEq, Repr

deriving instance DecidableEq for Except

end Ical
