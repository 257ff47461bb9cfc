import Verif.Spec.Acceptance

/-!
Specification of the content lines whose reading does not depend on the lines after them (C125).
-/

namespace Ical.Spec

open Ical

variable [Uni]

/-- Where the parameters of a line end, if `s` is what the line has after the name of the property: in the line, each
parameter having no value, one in closed quotes, or one that ends at a colon or semicolon and does not start with a
quote that could be closed later. -/
inductive EndsHere : Str → Prop
  | stop {s : Str} : First (fun c => c ≠ ';') s → EndsHere s
  | param {blanks k form s : Str} : (∀ c ∈ blanks, c = ' ' ∨ c = '\t') → IsName k →
    First (fun c => c ≠ ' ' ∧ c ≠ '\t') (k ++ form ++ s) → First (fun c => ¬ NameChar c) (form ++ s) →
    (form = [] ∧ First (fun c => c ≠ '=') s ∨
      form = ['='] ∧ (s.head? = some ':' ∨ s.head? = some ';') ∨
      (∃ v, v ≠ [] ∧ '"' ∉ v ∧ form = '=' :: '"' :: v ++ ['"']) ∨
      ∃ v, v ≠ [] ∧ ':' ∉ v ∧ ';' ∉ v ∧ form = '=' :: v ∧ (s.head? = some ':' ∨ s.head? = some ';') ∧
        (v.head? ≠ some '"' ∨ ['"', '"'] <+: v)) →
    EndsHere s → EndsHere (';' :: blanks ++ k ++ form ++ s)

/-- A line that is read by itself: one that starts with END or BEGIN, which is never read as a property, or one that is
not blank and whose parameters end in it. -/
def ByItself (line : Str) : Prop :=
  Keyword line ∨ ∃ blanks k s, line = blanks ++ (k ++ s) ∧ (∀ c ∈ blanks, c = ' ' ∨ c = '\t') ∧ IsName k ∧
    First (fun c => ¬ Space c) (k ++ s) ∧ First (fun c => ¬ NameChar c) s ∧ k ++ s ≠ [] ∧ EndsHere s

end Ical.Spec
