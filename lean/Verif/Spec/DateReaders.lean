import Verif.Spec.LooseDates
import Verif.Model.Calendar

/-!
Specification of the parsed properties from which `DatePerhapsTime::try_from` and the getters of the converted component
read the same.
-/

namespace Ical.Spec

open Ical

/-- The last VALUE parameter is `DATE`. -/
def SaysDate (p : PProp) : Prop :=
  ∃ a q b, p.params = a ++ q :: b ∧ q.key = c!"VALUE" ∧ q.val = some c!"DATE" ∧ ∀ r ∈ b, r.key ≠ c!"VALUE"

/-- The values of the TZID parameters in the order of the text; `none` for one without `=`. -/
def tzids (p : PProp) : List (Option Str) := (p.params.filter (fun q => q.key = c!"TZID")).map PParam.val

/-- The text of a date goes with VALUE=DATE, that of a UTC time with neither VALUE=DATE nor TZID. That of a local time
goes with no VALUE=DATE and, if there is a TZID, the first and the last one must name the same zone; a first TZID
without `=` goes with VALUE=DATE. Any other text goes with everything. -/
def ReadersAgree (p : PProp) : Prop :=
  (∀ d, LooseDate p.val d [] → SaysDate p) ∧
  (∀ t, LooseDateTime p.val t ['Z'] → ¬ SaysDate p ∧ tzids p = []) ∧
  (∀ t, LooseDateTime p.val t [] → match tzids p with
    | [] => ¬ SaysDate p
    | none :: _ => SaysDate p
    | some z :: l => ¬ SaysDate p ∧ (((some z :: l).getLast (by simp)).getD [] = z))

end Ical.Spec
