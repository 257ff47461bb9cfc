import Verif.Model.Basic

/-!
The nom 7 combinators used by the crate, over `&str` input and in their `complete` versions.
Error payloads are dropped; the distinction between the recoverable `Err::Error` and the
unrecoverable `Err::Failure` is kept. `Err::Incomplete` cannot occur with complete parsers.
`context` only decorates error payloads and is therefore the identity here.
-/

namespace Ical

/-- `nom::IResult<&str, α>`. -/
inductive Res (α : Type) where
  | ok (rest : Str) (a : α)
  | error
  | failure
  deriving DecidableEq, Repr

/-- A nom parser. -/
abbrev P (α : Type) := Str → Res α

namespace Nom
variable {α β γ : Type}

/-- `Parser::map`. -/
def map (f : α → β) (p : P α) : P β := fun i =>
  match p i with
  | .ok r a => .ok r (f a)
  | .error => .error
  | .failure => .failure

/-- `combinator::cut`: turns `Error` into `Failure`. -/
def cut (p : P α) : P α := fun i =>
  match p i with
  | .error => .failure
  | r => r

/-- `combinator::opt`. -/
def opt (p : P α) : P (Option α) := fun i =>
  match p i with
  | .ok r a => .ok r (some a)
  | .error => .ok i none
  | .failure => .failure

/-- two-way `branch::alt`: the second branch is tried only on `Error`. -/
def alt (p q : P α) : P α := fun i =>
  match p i with
  | .error => q i
  | r => r

/-- `sequence::pair` / two-element `tuple`. -/
def pair (p : P α) (q : P β) : P (α × β) := fun i =>
  match p i with
  | .ok r a =>
    match q r with
    | .ok r' b => .ok r' (a, b)
    | .error => .error
    | .failure => .failure
  | .error => .error
  | .failure => .failure

/-- `sequence::preceded`. -/
def preceded (p : P α) (q : P β) : P β := map Prod.snd (pair p q)

/-- `sequence::delimited`. -/
def delimited (p : P α) (q : P β) (r : P γ) : P β := map (fun x => x.2.1) (pair p (pair q r))

/-- `sequence::separated_pair`. -/
def separatedPair (p : P α) (s : P γ) (q : P β) : P (α × β) :=
  map (fun x => (x.1, x.2.2)) (pair p (pair s q))

/-- `bytes::complete::tag`. -/
def tag (t : Str) : P Str := fun i =>
  if t.isPrefixOf i then .ok (i.drop t.length) t else .error

/-- Does `i` start with `t` up to ASCII case? (`compare_no_case`) -/
def prefixNoCase : Str → Str → Bool
  | [], _ => true
  | _ :: _, [] => false
  | t :: ts, c :: cs => lowerAscii t == lowerAscii c && prefixNoCase ts cs

/-- `bytes::complete::tag_no_case` (returns the matched input text). -/
def tagNoCase (t : Str) : P Str := fun i =>
  if prefixNoCase t i then .ok (i.drop t.length) (i.take t.length) else .error

/-- `bytes::complete::take_while`. -/
def takeWhile (f : Char → Bool) : P Str := fun i => .ok (i.dropWhile f) (i.takeWhile f)

/-- `bytes::complete::take_till1`: at least one character not satisfying `f`. -/
def takeTill1 (f : Char → Bool) : P Str := fun i =>
  match i.takeWhile (fun c => !f c) with
  | [] => .error
  | t => .ok (i.dropWhile (fun c => !f c)) t

/-- `bytes::complete::is_not` for a one-character set: same as `take_till1`. -/
def isNot (x : Char) : P Str := takeTill1 (fun c => c == x)

/-- Position of the first occurrence of `t`, as the text before it and the text from it on. -/
def findSub (t : Str) : Str → Option (Str × Str)
  | [] => if t.isEmpty then some ([], []) else none
  | c :: s =>
    if t.isPrefixOf (c :: s) then some ([], c :: s)
    else match findSub t s with
      | some (a, b) => some (c :: a, b)
      | none => none

/-- `bytes::complete::take_until`. -/
def takeUntil (t : Str) : P Str := fun i =>
  match findSub t i with
  | some (a, b) => .ok b a
  | none => .error

/-- `combinator::eof`. -/
def eof : P Str := fun i => if i.isEmpty then .ok [] [] else .error

/-- `character::complete::line_ending`. -/
def lineEnding : P Str := fun i =>
  match i with
  | '\n' :: r => .ok r ['\n']
  | '\r' :: '\n' :: r => .ok r ['\r', '\n']
  | _ => .error

/-- `character::complete::multispace0`. -/
def multispace0 : P Str := takeWhile (fun c => c == ' ' || c == '\t' || c == '\r' || c == '\n')

/-- `character::complete::space0`. -/
def space0 : P Str := takeWhile (fun c => c == ' ' || c == '\t')

/-- `combinator::all_consuming`. -/
def allConsuming (p : P α) : P α := fun i =>
  match p i with
  | .ok r a => if r.isEmpty then .ok r a else .error
  | e => e

/-- `combinator::complete`: only affects `Incomplete`. -/
def complete (p : P α) : P α := p

/-- Iterations of `multi::many0`, with a step budget. -/
def many0F (p : P α) : Nat → Str → Res (List α)
  | 0, _ => .failure
  | n + 1, i =>
    match p i with
    | .error => .ok i []
    | .failure => .failure
    | .ok r a =>
      if r.length = i.length then .error
      else match many0F p n r with
        | .ok r' l => .ok r' (a :: l)
        | .error => .error
        | .failure => .failure

/-- `multi::many0`: repeat until `Error`; `Error` when an iteration consumes nothing. The budget is one
more than the number of characters, which the "must consume" check never exceeds. -/
def many0 (p : P α) : P (List α) := fun i => many0F p (i.length + 1) i

/-- Iterations of `multi::many_till`, with a step budget. -/
def manyTillF (f : P α) (g : P β) : Nat → Str → Res (List α × β)
  | 0, _ => .failure
  | n + 1, i =>
    match g i with
    | .ok r b => .ok r ([], b)
    | .failure => .failure
    | .error =>
      match f i with
      | .error => .error
      | .failure => .failure
      | .ok r a =>
        if r.length = i.length then .error
        else match manyTillF f g n r with
          | .ok r' (l, b) => .ok r' (a :: l, b)
          | .error => .error
          | .failure => .failure

/-- `multi::many_till`. -/
def manyTill (f : P α) (g : P β) : P (List α × β) := fun i => manyTillF f g (i.length + 1) i

end Nom

end Ical
