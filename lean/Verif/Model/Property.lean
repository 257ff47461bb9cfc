import Verif.Model.Map
import Verif.Model.Fold
import Verif.Model.Text
import Verif.Model.Chrono

/-!
`Property` and its serialization, and the environment (`World`) serialization depends on.
-/

namespace Ical

/-- `Property`: /repo/src/properties.rs:48-52. `params` is a `HashMap<String, Parameter>` in which every
`Parameter` is stored under its own key (`append_parameter` 135-139 and
/repo/src/parser/properties.rs:109-113 are the only writers), so it is modelled as a map from key to
value. -/
structure Property where
  key : Str
  val : Str
  params : BMap Str
  deriving DecidableEq, Repr

namespace Property

/-- `Property::new`: /repo/src/properties.rs:62-68. -/
def new (key val : Str) : Property := { key := key, val := val, params := [] }

/-- `append_parameter` / `add_parameter`: /repo/src/properties.rs:135-145. -/
def addParameter (p : Property) (key val : Str) : Property :=
  { p with params := p.params.insert key val }

/-- `Property::done`: /repo/src/properties.rs:148-154. Returns the moved-out value and what is left. -/
def done (p : Property) : Property × Property :=
  (p, { key := [], val := [], params := [] })

/-- `Property::value_type`: /repo/src/properties.rs:101-106. -/
def valueType [Uni] (p : Property) : Option ValueType :=
  match (p.params.get c!"VALUE").bind ValueType.fromStr with
  | some v => some v
  | none => ValueType.byName p.key

/-- `get_param_as`: /repo/src/properties.rs:127-132. -/
def getParamAs {α : Type} (p : Property) (key : Str) (f : Str → Option α) : Option α :=
  (p.params.get key).bind f

/-- `get_value_as`: /repo/src/properties.rs:119-124. -/
def getValueAs {α : Type} (p : Property) (f : Str → Option α) : Option α := f p.val

end Property

/-- `TryFrom<Parameter> for ValueType`: /repo/src/value_types.rs:103-113. -/
def ValueType.tryFromParam (key val : Str) : Option ValueType :=
  if key ≠ c!"VALUE" then none else ValueType.fromStr val

/-- The nondeterminism of serialization: clock readings (`Utc::now`), UUIDs (`Uuid::new_v4`) and the
iteration order of each parameter hash map. Each use site has its own path, so no two uses are forced to
agree. -/
structure World where
  now : List Nat → UtcDateTime
  uuid : List Nat → Str
  order : List Nat → List (Str × Str) → List (Str × Str)

/-- The world as seen from the `j`-th part of a value. -/
def World.sub (w : World) (j : Nat) : World :=
  { now := fun p => w.now (j :: p)
    uuid := fun p => w.uuid (j :: p)
    order := fun p => w.order (j :: p) }

/-- The parameter part of a content line: /repo/src/properties.rs:183-185. -/
def paramsText : List (Str × Str) → Str
  | [] => []
  | (k, v) :: l => [';'] ++ k ++ ['='] ++ quoteIfContainsColon v ++ paramsText l

/-- The value part of a content line: /repo/src/properties.rs:186-190. -/
def Property.valueText [Uni] (p : Property) : Str :=
  match p.valueType with
  | some .text => escapeText p.val
  | _ => p.val

/-- The unfolded content line of a property: /repo/src/properties.rs:182-190. -/
def Property.line [Uni] (p : Property) (w : World) : Str :=
  p.key ++ paramsText (w.order [] p.params) ++ [':'] ++ p.valueText

/-- `Property::fmt_write`: /repo/src/properties.rs:178-193. -/
def Property.fmtWrite [Uni] (p : Property) (w : World) : Except Crash Str :=
  match foldLine (p.line w) with
  | .ok s => .ok (s ++ crlf)
  | .error e => .error e

/-- Writing a list of properties one after the other. -/
def fmtProps [Uni] : List Property → World → Except Crash Str
  | [], _ => .ok []
  | p :: l, w =>
    match p.fmtWrite (w.sub 0) with
    | .error e => .error e
    | .ok a =>
      match fmtProps l (w.sub 1) with
      | .error e => .error e
      | .ok b => .ok (a ++ b)

/-- `Class`: /repo/src/properties.rs:209-216. -/
inductive Class
  | pub | priv | confidential
  deriving DecidableEq, Repr

/-- `Class::from_str`: /repo/src/properties.rs:219-226. -/
def Class.fromStr (s : Str) : Option Class :=
  if s = c!"PUBLIC" then some .pub
  else if s = c!"PRIVATE" then some .priv
  else if s = c!"CONFIDENTIAL" then some .confidential
  else none

/-- `From<Class> for Property`: /repo/src/properties.rs:229-241. -/
def Class.toProperty : Class → Property
  | .pub => .new c!"CLASS" c!"PUBLIC"
  | .priv => .new c!"CLASS" c!"PRIVATE"
  | .confidential => .new c!"CLASS" c!"CONFIDENTIAL"

/-- `EventStatus`: /repo/src/properties.rs:246-254. -/
inductive EventStatus
  | tentative | confirmed | cancelled
  deriving DecidableEq, Repr

/-- `EventStatus::from_str`: /repo/src/properties.rs:257-264. -/
def EventStatus.fromStr (s : Str) : Option EventStatus :=
  if s = c!"TENTATIVE" then some .tentative
  else if s = c!"CONFIRMED" then some .confirmed
  else if s = c!"CANCELLED" then some .cancelled
  else none

/-- `From<EventStatus> for Property`: /repo/src/properties.rs:301-313. -/
def EventStatus.toProperty : EventStatus → Property
  | .tentative => .new c!"STATUS" c!"TENTATIVE"
  | .confirmed => .new c!"STATUS" c!"CONFIRMED"
  | .cancelled => .new c!"STATUS" c!"CANCELLED"

/-- `TodoStatus`: /repo/src/properties.rs:270-280. -/
inductive TodoStatus
  | needsAction | completed | inProcess | cancelled
  deriving DecidableEq, Repr

/-- `TodoStatus::from_str`: /repo/src/properties.rs:283-291. -/
def TodoStatus.fromStr (s : Str) : Option TodoStatus :=
  if s = c!"NEEDS-ACTION" then some .needsAction
  else if s = c!"COMPLETED" then some .completed
  else if s = c!"IN-PROCESS" then some .inProcess
  else if s = c!"CANCELLED" then some .cancelled
  else none

/-- `From<TodoStatus> for Property`: /repo/src/properties.rs:340-353. -/
def TodoStatus.toProperty : TodoStatus → Property
  | .needsAction => .new c!"STATUS" c!"NEEDS-ACTION"
  | .completed => .new c!"STATUS" c!"COMPLETED"
  | .inProcess => .new c!"STATUS" c!"IN-PROCESS"
  | .cancelled => .new c!"STATUS" c!"CANCELLED"

/-- `From<chrono::Duration> for Property`: /repo/src/properties.rs:355-359. -/
def Duration.toProperty (d : Duration) : Property := .new c!"DURATION" d.toStr

end Ical
