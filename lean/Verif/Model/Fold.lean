import Verif.Model.Basic

/-!
Line folding on output (`fold_line`) and unfolding on input (`unfold`).
-/

namespace Ical

/-- `LIMIT`: /repo/src/properties.rs:389. -/
def foldLimit : Nat := 75

/-- The inner loop of `fold_line`, /repo/src/properties.rs:408-413: walk back until a character
boundary, skipping one further position whenever the *character* at that (byte) index is whitespace.
`none` is the `usize` underflow `0 - 1` (a panic in debug builds; in release builds the index wraps
and the loop walks down from `usize::MAX`). -/
def backoff (line : Str) : Nat → Option Nat
  | 0 => some 0
  | 1 => if isBoundary line 1 then some 1
         else if wsAt line 0 then none else some 0
  | m + 2 =>
    if isBoundary line (m + 2) then some (m + 2)
    else if wsAt line (m + 1) then backoff line m
    else backoff line (m + 1)

/-- Loop state of `fold_line`: /repo/src/properties.rs:391-395. -/
structure FoldSt where
  out : Str
  rem : Nat
  pos : Nat
  next : Nat
  deriving DecidableEq, Repr

/-- Outcome of one iteration of the outer loop. -/
inductive FoldStep
  | done (out : Str)
  | panic
  | more (st : FoldSt)
  deriving DecidableEq, Repr

/-- Initial state: /repo/src/properties.rs:390-395. -/
def foldInit (line : Str) : FoldSt := { out := [], rem := blen line, pos := 0, next := foldLimit }

/-- One iteration of the outer `while` of `fold_line`, or its exit: /repo/src/properties.rs:397-423. -/
def foldStep (line : Str) (st : FoldSt) : FoldStep :=
  if st.rem > foldLimit then
    -- 404-406 (`next` is at least `LIMIT - 1` here, so no underflow)
    let next := if wsAt line st.next then st.next - 1 else st.next
    -- 408-413
    match backoff line next with
    | none => .panic
    | some next =>
      -- 414
      match slice line st.pos next with
      | none => .panic
      | some chunk =>
        -- 415-419
        .more { out := st.out ++ chunk ++ ['\r', '\n', ' ']
                rem := st.rem - (next - st.pos)
                pos := next
                next := next + (foldLimit - 1) }
  else
    -- 422
    match sliceFrom line (blen line - st.rem) with
    | none => .panic
    | some t => .done (st.out ++ t)

/-- `n` iterations; `none` when the loop has not ended within `n` iterations. -/
def foldRun (line : Str) : Nat → FoldSt → Option (Except Crash Str)
  | 0, _ => none
  | n + 1, st =>
    match foldStep line st with
    | .done out => some (.ok out)
    | .panic => some (.error .panic)
    | .more st' => foldRun line n st'

/-- `fold_line`: /repo/src/properties.rs:388-424. The loop is run for at most `blen line + 2`
iterations; `Proofs/Fold.lean` proves that a loop still running then runs forever. -/
def foldLine (line : Str) : Except Crash Str :=
  match foldRun line (blen line + 2) (foldInit line) with
  | some r => r
  | none => .error .hang

/-- `unfold`: /repo/src/parser/utils.rs:82-89. -/
def unfold (input : Str) : Str :=
  ((((splitOn ['\r', '\n', ' '] input).flatMap
    (splitOn ['\n', ' '])).flatMap
    (splitOn ['\r', '\n', '\t'])).flatMap
    (splitOn ['\n', '\t'])).flatten

end Ical
