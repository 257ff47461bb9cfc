import Verif.Model.Json

/-!
JSON as text: what `serde_json::to_string`, `to_string_pretty` and `from_str` do with the types of `Model/Json.lean`
(/repo/examples/ical_to_json.rs:14 and /repo/examples/json_to_ical.rs:7). Transcribed from serde_json's documented
behaviour, not from `/repo`. Simplification: a value under an unknown field is read like any other value, where serde_json
also accepts unpaired surrogates in its strings.
-/

namespace Ical

/-- A hexadecimal digit as serde_json writes it. -/
def hexChar (n : Nat) : Char := if n < 10 then Char.ofNat (0x30 + n) else Char.ofNat (0x57 + n)

/-- How a character is written inside a string. -/
def jsonEscape (c : Char) : Str :=
  if c = '"' then ['\\', '"']
  else if c = '\\' then ['\\', '\\']
  else if c.toNat = 8 then ['\\', 'b']
  else if c.toNat = 9 then ['\\', 't']
  else if c.toNat = 10 then ['\\', 'n']
  else if c.toNat = 12 then ['\\', 'f']
  else if c.toNat = 13 then ['\\', 'r']
  else if c.toNat < 32 then ['\\', 'u', '0', '0', hexChar (c.toNat / 16), hexChar (c.toNat % 16)]
  else [c]

/-- A string. -/
def jsonStr (s : Str) : Str := ['"'] ++ s.flatMap jsonEscape ++ ['"']

mutual
/-- `serde_json::to_string`: no white space at all. -/
def Json.compact : Json → Str
  | .null => c!"null"
  | .bool true => c!"true"
  | .bool false => c!"false"
  | .number t => t
  | .string s => jsonStr s
  | .array l => ['['] ++ compactItems l ++ [']']
  | .object l => ['{'] ++ compactEntries l ++ ['}']
/-- the elements of an array -/
def compactItems : List Json → Str
  | [] => []
  | [j] => j.compact
  | j :: j' :: l => j.compact ++ [','] ++ compactItems (j' :: l)
/-- the entries of an object -/
def compactEntries : List (Str × Json) → Str
  | [] => []
  | [(k, j)] => jsonStr k ++ [':'] ++ j.compact
  | (k, j) :: e :: l => jsonStr k ++ [':'] ++ j.compact ++ [','] ++ compactEntries (e :: l)
end

/-- The start of a line: two blanks per level. -/
def indent (n : Nat) : Str := ['\n'] ++ List.replicate (2 * n) ' '

mutual
/-- `serde_json::to_string_pretty`, at a level of indentation. -/
def Json.pretty (n : Nat) : Json → Str
  | .null => c!"null"
  | .bool true => c!"true"
  | .bool false => c!"false"
  | .number t => t
  | .string s => jsonStr s
  | .array [] => c!"[]"
  | .array (j :: l) => ['['] ++ prettyItems (n + 1) (j :: l) ++ indent n ++ [']']
  | .object [] => c!"{}"
  | .object (e :: l) => ['{'] ++ prettyEntries (n + 1) (e :: l) ++ indent n ++ ['}']
/-- the elements of an array, each on its line -/
def prettyItems (n : Nat) : List Json → Str
  | [] => []
  | [j] => indent n ++ j.pretty n
  | j :: j' :: l => indent n ++ j.pretty n ++ [','] ++ prettyItems n (j' :: l)
/-- the entries of an object, each on its line -/
def prettyEntries (n : Nat) : List (Str × Json) → Str
  | [] => []
  | [(k, j)] => indent n ++ jsonStr k ++ [':', ' '] ++ j.pretty n
  | (k, j) :: e :: l => indent n ++ jsonStr k ++ [':', ' '] ++ j.pretty n ++ [','] ++ prettyEntries n (e :: l)
end

/-! ### Reading -/

/-- White space between tokens. -/
def isJsonWs (c : Char) : Bool := c == ' ' || c == '\n' || c == '\t' || c == '\r'

/-- Skip white space. -/
def skipWs (s : Str) : Str := s.dropWhile isJsonWs

/-- The value of a hexadecimal digit of either case. -/
def hexVal (c : Char) : Option Nat :=
  if 0x30 ≤ c.toNat ∧ c.toNat ≤ 0x39 then some (c.toNat - 0x30)
  else if 0x41 ≤ c.toNat ∧ c.toNat ≤ 0x46 then some (c.toNat - 0x37)
  else if 0x61 ≤ c.toNat ∧ c.toNat ≤ 0x66 then some (c.toNat - 0x57)
  else none

/-- Four hexadecimal digits. -/
def hex4 (a b c d : Char) : Option Nat := do
  let a ← hexVal a
  let b ← hexVal b
  let c ← hexVal c
  let d ← hexVal d
  return ((a * 16 + b) * 16 + c) * 16 + d

/-- The second half of a surrogate pair, after the first half `n`. -/
def pairStep (n : Nat) : Str → Option (Option Char × Str)
  | '\\' :: 'u' :: a :: b :: c :: d :: r =>
    match hex4 a b c d with
    | none => none
    | some m =>
      if 0xDC00 ≤ m ∧ m ≤ 0xDFFF then
        some (some (Char.ofNat (0x10000 + (n - 0xD800) * 0x400 + (m - 0xDC00))), r)
      else none
  | _ => none

/-- After `\u`. -/
def codeStep : Str → Option (Option Char × Str)
  | a :: b :: c :: d :: r =>
    match hex4 a b c d with
    | none => none
    | some n =>
      if n < 0xD800 ∨ 0xDFFF < n then some (some (Char.ofNat n), r)
      else if 0xDBFF < n then none
      else pairStep n r
  | _ => none

/-- After a backslash. -/
def escStep : Str → Option (Option Char × Str)
  | [] => none
  | e :: r =>
    if e = '"' then some (some '"', r)
    else if e = '\\' then some (some '\\', r)
    else if e = '/' then some (some '/', r)
    else if e = 'b' then some (some (Char.ofNat 8), r)
    else if e = 'f' then some (some (Char.ofNat 12), r)
    else if e = 'n' then some (some (Char.ofNat 10), r)
    else if e = 'r' then some (some (Char.ofNat 13), r)
    else if e = 't' then some (some (Char.ofNat 9), r)
    else if e = 'u' then codeStep r
    else none

/-- One character of a string, or its end (`none`). -/
def strStep : Str → Option (Option Char × Str)
  | [] => none
  | c :: r =>
    if c = '"' then some (none, r)
    else if c = '\\' then escStep r
    else if c.toNat < 32 then none
    else some (some c, r)

/-- The rest of a string, with a step budget. -/
def strBodyF : Nat → Str → Option (Str × Str)
  | 0, _ => none
  | n + 1, s =>
    match strStep s with
    | none => none
    | some (none, r) => some ([], r)
    | some (some c, r) =>
      match strBodyF n r with
      | none => none
      | some (t, r') => some (c :: t, r')

/-- The rest of a string, after the opening quotation mark. -/
def strBody (s : Str) : Option (Str × Str) := strBodyF (s.length + 1) s

/-- The characters of numbers. -/
def isNumChar (c : Char) : Bool :=
  (0x30 ≤ c.toNat && c.toNat ≤ 0x39) || c == '-' || c == '+' || c == '.' || c == 'e' || c == 'E'

/-- One or more digits and nothing else. -/
def isDigits (s : Str) : Bool := !s.isEmpty && s.all (fun c => 0x30 ≤ c.toNat && c.toNat ≤ 0x39)

/-- An exponent or nothing. -/
def isExp : Str → Bool
  | [] => true
  | c :: r =>
    (c == 'e' || c == 'E') &&
      match r with
      | '+' :: d => isDigits d
      | '-' :: d => isDigits d
      | d => isDigits d

/-- A number: an optional minus sign, digits without leading zeros, an optional fraction and an optional exponent. -/
def isNumber (s : Str) : Bool :=
  let s := match s with
    | '-' :: r => r
    | r => r
  let digit := fun c : Char => 0x30 ≤ c.toNat && c.toNat ≤ 0x39
  let whole := s.takeWhile digit
  let rest := s.dropWhile digit
  (whole == ['0'] || (isDigits whole && whole.head? != some '0')) &&
    match rest with
    | '.' :: r => isDigits (r.takeWhile digit) && isExp (r.dropWhile digit)
    | r => isExp r

/-- A number, up to the first character that cannot belong to one. -/
def readNumber (s : Str) : Option (Json × Str) :=
  if isNumber (s.takeWhile isNumChar) then some (.number (s.takeWhile isNumChar), s.dropWhile isNumChar) else none

mutual
/-- A value, with a step budget. -/
def jsonValueF : Nat → Str → Option (Json × Str)
  | 0, _ => none
  | n + 1, s =>
    match skipWs s with
    | 'n' :: 'u' :: 'l' :: 'l' :: r => some (.null, r)
    | 't' :: 'r' :: 'u' :: 'e' :: r => some (.bool true, r)
    | 'f' :: 'a' :: 'l' :: 's' :: 'e' :: r => some (.bool false, r)
    | '"' :: r => (strBody r).map (fun x => (.string x.1, x.2))
    | '[' :: r =>
      match skipWs r with
      | ']' :: r' => some (.array [], r')
      | r' => (jsonItemsF n r').map (fun x => (.array x.1, x.2))
    | '{' :: r =>
      match skipWs r with
      | '}' :: r' => some (.object [], r')
      | r' => (jsonEntriesF n r').map (fun x => (.object x.1, x.2))
    | r => readNumber r
/-- The elements of an array and the closing bracket. -/
def jsonItemsF : Nat → Str → Option (List Json × Str)
  | 0, _ => none
  | n + 1, s =>
    match jsonValueF n s with
    | none => none
    | some (j, r) =>
      match skipWs r with
      | ']' :: r' => some ([j], r')
      | ',' :: r' => (jsonItemsF n r').map (fun x => (j :: x.1, x.2))
      | _ => none
/-- The entries of an object and the closing brace. -/
def jsonEntriesF : Nat → Str → Option (List (Str × Json) × Str)
  | 0, _ => none
  | n + 1, s =>
    match skipWs s with
    | '"' :: r =>
      match strBody r with
      | none => none
      | some (k, r) =>
        match skipWs r with
        | ':' :: r =>
          match jsonValueF n r with
          | none => none
          | some (j, r) =>
            match skipWs r with
            | '}' :: r' => some ([(k, j)], r')
            | ',' :: r' => (jsonEntriesF n r').map (fun x => ((k, j) :: x.1, x.2))
            | _ => none
        | _ => none
    | _ => none
end

/-- A whole text: one value and white space. Every step of the budget but one per value consumes a character. -/
def jsonOfText (s : Str) : Option Json :=
  match jsonValueF (2 * s.length + 2) s with
  | some (j, r) => if (skipWs r).isEmpty then some j else none
  | none => none

mutual
/-- How deep arrays and objects are nested. -/
def Json.depth : Json → Nat
  | .array l => depthItems l + 1
  | .object l => depthEntries l + 1
  | _ => 0
/-- among the elements of an array -/
def depthItems : List Json → Nat
  | [] => 0
  | j :: l => max j.depth (depthItems l)
/-- among the entries of an object -/
def depthEntries : List (Str × Json) → Nat
  | [] => 0
  | (_, j) :: l => max j.depth (depthEntries l)
end

/-- serde_json gives up when arrays and objects are nested this deep. -/
def jsonRecursionLimit : Nat := 128

/-- `serde_json::from_str::<parser::Calendar>`. serde_json counts the arrays and objects it is inside of, except in
values it skips; those it is inside of are the ones the calendar itself is written with. -/
def PCal.ofJsonText (s : Str) : Option PCal :=
  match (jsonOfText s).bind PCal.ofJson with
  | some c => if c.toJson.depth < jsonRecursionLimit then some c else none
  | none => none

end Ical
