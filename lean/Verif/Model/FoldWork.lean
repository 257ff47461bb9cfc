import Verif.Model.Property

/-!
The work done by `fold_line`: the loops of `Model/Fold.lean` again, with what every operation costs. Counted are the
characters an iterator is moved over, one for every test of a boundary and every iteration, and the octets copied.
-/

namespace Ical

/-- `line.chars().nth(n)` moves over the first `n + 1` characters, or over all of them: /repo/src/properties.rs:399-400. -/
def nthCost (line : Str) (n : Nat) : Nat := min (n + 1) line.length

/-- The inner loop of `fold_line`, started at an index: /repo/src/properties.rs:408-413. One for every
`is_char_boundary`. -/
def backoffCost (line : Str) : Nat → Nat
  | 0 => 1
  | 1 => 1 + if isBoundary line 1 then 0 else nthCost line 0 + 1
  | m + 2 =>
    1 + if isBoundary line (m + 2) then 0
      else nthCost line (m + 1) + if wsAt line (m + 1) then backoffCost line m else backoffCost line (m + 1)

/-- The outer loop of `fold_line`, at most `n` iterations: /repo/src/properties.rs:397-423. -/
def foldCost (line : Str) : Nat → FoldSt → Nat
  | 0, _ => 0
  | n + 1, st =>
    if st.rem > foldLimit then
      1 + nthCost line st.next + backoffCost line (if wsAt line st.next then st.next - 1 else st.next) +
        match foldStep line st with
        | .more st' => (st'.pos - st.pos) + 3 + foldCost line n st'
        | _ => 0
    else 1 + st.rem

/-- Number of steps taken by `fold_line`: /repo/src/properties.rs:388-424. -/
def foldSteps (line : Str) : Nat := foldCost line (blen line + 2) (foldInit line)

/-- Number of steps taken by `Property::fmt_write`: building the content line and folding it:
/repo/src/properties.rs:178-193. Escaping and quoting are not counted, they go over the text a fixed number of times. -/
def Property.writeSteps [Uni] (p : Property) (w : World) : Nat := blen (p.line w) + foldSteps (p.line w)

end Ical
