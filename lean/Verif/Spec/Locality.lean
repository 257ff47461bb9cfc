import Verif.Model.Calendar

/-!
Specification of local changes in a text. Shared with the model: the data types, and the world, which provides the order
in which the parameters of a property are written.
-/

namespace Ical.Spec

open Ical

/-- Two texts differ only in that one has `new` where the other has `old`. -/
def Differ (old new out out' : Str) : Prop := ∃ pre post, out = pre ++ old ++ post ∧ out' = pre ++ new ++ post

/-- The parameters of the properties are always written in the same order: in particular if no property has more than one
parameter. -/
def SteadyOrder (w : World) (l : List Property) : Prop := ∀ p ∈ l, ∀ q q', w.order q p.params = w.order q' p.params

end Ical.Spec
