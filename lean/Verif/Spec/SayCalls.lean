import Verif.Spec.Strict
import Verif.Spec.Calls

/-!
What builder calls must be given so that readers that follow RFC 5545 recover what was said.
-/

namespace Ical.Spec

open Ical

/-- A text without control characters, except line feeds. -/
def SayableText (s : Str) : Prop := ∀ c ∈ s, ControlChar c → c = '\n'

instance (s : Str) : Decidable (SayableText s) := by unfold SayableText; infer_instance

/-- A value without control characters. -/
def SayableLine (s : Str) : Prop := ∀ c ∈ s, ¬ ControlChar c

instance (s : Str) : Decidable (SayableLine s) := by unfold SayableLine; infer_instance

/-- The value of a parameter: no quotes and control characters, and no comma unless there is a colon or semicolon. -/
def SayableParam (s : Str) : Prop := (∀ c ∈ s, QSafeChar c) ∧ (',' ∈ s → ':' ∈ s ∨ ';' ∈ s)

instance (s : Str) : Decidable (SayableParam s) := by unfold SayableParam; infer_instance

/-- A date with a time zone id that can be the value of a parameter, if it has one. -/
def SayableDate : DatePerhapsTime → Prop
  | .dateTime (.zoned _ z) => SayableParam z
  | _ => True

/-- see `SayableDate` -/
def SayableTrigger : Trigger → Prop
  | .dateTime (.zoned _ z) => SayableParam z
  | _ => True

/-- What the calls of components must be given. The times, numbers and enumerated values can be any; texts can be
any without control characters, also with line feeds; other values must be on a line. `last_modified` is never understood:
it writes `LAST_MODIFIED`, and there are no underscores in names. -/
def Call.Sayable : Call → Prop
  | .appendProperty p => Spec.Sayable p
  | .addProperty k v => Spec.Sayable ⟨k, v, []⟩
  | .appendMultiProperty p => Spec.Sayable p
  | .addMultiProperty k v => Spec.Sayable ⟨k, v, []⟩
  | .appendComponent o => SayableOther o
  | .timestamp _ => True
  | .priority _ => True
  | .summary s => SayableText s
  | .description s => SayableText s
  | .uid s => SayableText s
  | .sequence _ => True
  | .class_ _ => True
  | .url s => SayableLine s
  | .lastModified _ => False
  | .created _ => True
  | .starts d => SayableDate d
  | .ends d => SayableDate d
  | .allDay _ => True
  | .venue l u => SayableText l ∧ SayableParam u
  | .location s => SayableText s
  | .alarm a => SayableOther (.mk c!"VALARM" a.inner.props a.inner.multi a.inner.comps)

/-- What the calls of events must be given. -/
def EventCall.Sayable : EventCall → Prop
  | .common c => c.Sayable
  | .status _ => True

/-- What the calls of todos must be given. -/
def TodoCall.Sayable : TodoCall → Prop
  | .common c => c.Sayable
  | .percentComplete _ => True
  | .due d => SayableDate d
  | .completed _ => True
  | .status _ => True

/-- What the calls of venues must be given. -/
def VenueCall.Sayable : VenueCall → Prop
  | .common c => c.Sayable
  | .streetAddress s => SayableLine s
  | .extendedAddress s => SayableLine s
  | .locality s => SayableLine s
  | .region s => SayableLine s
  | .country s => SayableLine s
  | .postalCode s => SayableLine s

/-- A property that was set by the calls and not replaced by later ones. -/
def Survives (p : Property) (sets : List Property) : Prop :=
  ∃ before after, sets = before ++ p :: after ∧ ∀ q ∈ after, q.key ≠ p.key

end Ical.Spec
