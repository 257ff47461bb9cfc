import Verif.Spec.Writable
import Verif.Model.Calendar

/-!
Specification of the components and calendars that can be written and read back, and of what the writer adds.
Shared with the model: the data types and the order of map keys.
-/

namespace Ical.Spec

open Ical

/-- The names the reader takes as repeatable. Single properties must not have such a name, repeated ones must
(what happens otherwise is the subject of C31). -/
def repeatable : List Str :=
  [c!"ATTACH", c!"ATTENDEE", c!"CATEGORIES", c!"COMMENT", c!"CONTACT", c!"EXDATE", c!"FREEBUSY",
   c!"IANA-PROP", c!"RDATE", c!"RELATED", c!"RESOURCES", c!"RSTATUS", c!"X-PROP"]

/-- The entries of a map are in strictly increasing order of keys: the invariant of `BTreeMap`. -/
def InOrder {α : Type} (m : List (Str × α)) : Prop := m.Pairwise (fun a b => strCmp a.1 b.1 = .lt)

instance {α : Type} (m : List (Str × α)) : Decidable (InOrder m) := by unfold InOrder; infer_instance

variable [Uni]

/-- A property that can be written so that a reader finds its parts. -/
structure PropOk (p : Property) : Prop where
  key : KeyOk p.key
  params : ParamsOk p.params
  value : ValueOk p

instance (p : Property) : Decidable (PropOk p) :=
  decidable_of_iff (KeyOk p.key ∧ ParamsOk p.params ∧ ValueOk p)
    ⟨fun h => ⟨h.1, h.2.1, h.2.2⟩, fun h => ⟨h.key, h.params, h.value⟩⟩

/-- The own properties of a component are stored under their keys and can be written. -/
structure InnerWritable (props : BMap Property) (multi : BMap (List Property)) : Prop where
  inOrder : InOrder props
  single : ∀ x ∈ props, x.2.key = x.1 ∧ PropOk x.2
  multiInOrder : InOrder multi
  multiple : ∀ x ∈ multi, x.2 ≠ [] ∧ ∀ p ∈ x.2, p.key = x.1 ∧ PropOk p

mutual
/-- A component that can be written so that a reader finds its parts, at any depth. -/
def OtherWritable : Other → Prop
  | .mk name props multi comps => IsName name ∧ InnerWritable props multi ∧ OthersWritable comps
/-- see `OtherWritable` -/
def OthersWritable : List Other → Prop
  | [] => True
  | o :: l => OtherWritable o ∧ OthersWritable l
end

/-- The own properties of a well-formed component: also, the reader takes as repeatable exactly those that
are stored as such. -/
structure InnerOk (props : BMap Property) (multi : BMap (List Property)) : Prop where
  inOrder : InOrder props
  single : ∀ x ∈ props, x.2.key = x.1 ∧ x.1 ∉ repeatable ∧ PropOk x.2
  multiInOrder : InOrder multi
  multiple : ∀ x ∈ multi, x.1 ∈ repeatable ∧ x.2 ≠ [] ∧ ∀ p ∈ x.2, p.key = x.1 ∧ PropOk p

mutual
/-- A well-formed component, at any depth. -/
def OtherOk : Other → Prop
  | .mk name props multi comps => IsName name ∧ InnerOk props multi ∧ OthersOk comps
/-- see `OtherOk` -/
def OthersOk : List Other → Prop
  | [] => True
  | o :: l => OtherOk o ∧ OthersOk l
end

/-- A well-formed component of a calendar: a generic one does not have the name of a typed one. -/
def CalCompOk : CalComp → Prop
  | .event e => OtherOk (.mk c!"VEVENT" e.inner.props e.inner.multi e.inner.comps)
  | .todo e => OtherOk (.mk c!"VTODO" e.inner.props e.inner.multi e.inner.comps)
  | .venue e => OtherOk (.mk c!"VVENUE" e.inner.props e.inner.multi e.inner.comps)
  | .other o => OtherOk o ∧ o.name ≠ c!"VEVENT" ∧ o.name ≠ c!"VTODO" ∧ o.name ≠ c!"VVENUE"

/-- A calendar that can be written so that a reader finds its parts. -/
structure CalendarWritable (c : Calendar) : Prop where
  props : ∀ p ∈ c.props, PropOk p
  comps : ∀ x ∈ c.comps, OtherWritable x.toOther

/-- A well-formed calendar. -/
structure CalendarOk (c : Calendar) : Prop where
  props : ∀ p ∈ c.props, PropOk p
  comps : ∀ x ∈ c.comps, CalCompOk x

mutual
/-- Every value survives, at any depth. -/
def OtherSafe : Other → Prop
  | .mk _ props multi comps =>
    (∀ x ∈ props, ValueSafe x.2) ∧ (∀ x ∈ multi, ∀ p ∈ x.2, ValueSafe p) ∧ OthersSafe comps
/-- see `OtherSafe` -/
def OthersSafe : List Other → Prop
  | [] => True
  | o :: l => OtherSafe o ∧ OthersSafe l
end

/-- Every value of a calendar survives. -/
structure CalendarSafe (c : Calendar) : Prop where
  props : ∀ p ∈ c.props, ValueSafe p
  comps : ∀ x ∈ c.comps, OtherSafe x.toOther

mutual
/-- Every component has a DTSTAMP and a UID, at any depth. -/
def HasStamps : Other → Prop
  | .mk _ props _ comps =>
    (∃ x ∈ props, x.1 = c!"DTSTAMP") ∧ (∃ x ∈ props, x.1 = c!"UID") ∧ HaveStamps comps
/-- see `HasStamps` -/
def HaveStamps : List Other → Prop
  | [] => True
  | o :: l => HasStamps o ∧ HaveStamps l
end

omit [Uni] in
/-- `m'` is `m` with the value `v` under the key `k` if there was none. -/
def AddedIfMissing (k : Str) (p : Property) (m m' : BMap Property) : Prop :=
  InOrder m' ∧
  if ∃ x ∈ m, x.1 = k then m' = m
  else ∀ x, x ∈ m' ↔ x = (k, p) ∨ x ∈ m

mutual
/-- The second component is the first, with a clock reading under DTSTAMP and a UUID under UID wherever there
was none, at any depth; nothing else differs. -/
inductive Stamped : Other → Other → Prop
  | mk {name : Str} {props props1 props2 : BMap Property} {multi : BMap (List Property)} {comps comps' : List Other}
    {now : UtcDateTime} {uuid : Str} :
    now.naive.Valid → (∀ c ∈ uuid, c ∈ c!"0123456789abcdef-") →
    AddedIfMissing c!"DTSTAMP" ⟨c!"DTSTAMP", fmtUtc now, []⟩ props props1 →
    AddedIfMissing c!"UID" ⟨c!"UID", uuid, []⟩ props1 props2 →
    StampedAll comps comps' →
    Stamped (.mk name props multi comps) (.mk name props2 multi comps')
/-- see `Stamped` -/
inductive StampedAll : List Other → List Other → Prop
  | nil : StampedAll [] []
  | cons {o o' : Other} {l l' : List Other} : Stamped o o' → StampedAll l l' → StampedAll (o :: l) (o' :: l')
end

/-- Two components of a calendar are of the same kind. -/
def SameKind : CalComp → CalComp → Prop
  | .event _, .event _ => True
  | .todo _, .todo _ => True
  | .venue _, .venue _ => True
  | .other _, .other _ => True
  | _, _ => False

/-- The second calendar is the first with DTSTAMP and UID generated where they were missing. -/
structure CalStamped (c c' : Calendar) : Prop where
  props : c'.props = c.props
  length : c'.comps.length = c.comps.length
  comps : ∀ (i : Nat) x x', c.comps[i]? = some x → c'.comps[i]? = some x' →
    SameKind x x' ∧ Stamped x.toOther x'.toOther

/-- One calendar is read from what was written for another, with any clock, any UUIDs and any order of hash
maps. -/
def Rewritten (c c' : Calendar) : Prop :=
  ∃ w out, World.Ok w ∧ c.fmtWrite w = .ok out ∧ Calendar.fromStr out = some c'

end Ical.Spec
