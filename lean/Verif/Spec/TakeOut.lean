import Verif.Spec.Blocks
import Verif.Spec.Grep

/-!
Specification of taking components out of a file by one of their lines.
-/

namespace Ical.Spec

open Ical

/-- The component, or one in it, has the property: this name, this raw value, no parameters. -/
def Carries (k v : Str) (x : CalComp) : Prop := ∃ p ∈ propsWithin x.toOther, p.key = k ∧ p.params = [] ∧ rawText p = v

instance (k v : Str) (x : CalComp) : Decidable (Carries k v x) := by unfold Carries; infer_instance

/-- The file without the components in which the line occurs. -/
def takeOut (line s : Str) : Str := selectBlocks (fun block => decide (line ∉ cutLines block)) s

/-- The file with only the components in which the line occurs. -/
def takeOnly (line s : Str) : Str := selectBlocks (fun block => decide (line ∈ cutLines block)) s

end Ical.Spec
