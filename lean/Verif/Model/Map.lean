import Verif.Model.Basic

/-!
String-keyed maps: association lists kept strictly sorted by key. They model `BTreeMap<String, V>`
(iteration in key order) and, for `HashMap<String, Parameter>`, the map up to iteration order.
-/

namespace Ical

/-- `BTreeMap<String, α>` as a list sorted by key. -/
abbrev BMap (α : Type) := List (Str × α)

namespace BMap
variable {α : Type}

/-- `BTreeMap::insert` / `HashMap::insert`: replaces the value of an existing key. -/
def insert (k : Str) (v : α) : BMap α → BMap α
  | [] => [(k, v)]
  | (k', v') :: m =>
    match strCmp k k' with
    | .lt => (k, v) :: (k', v') :: m
    | .eq => (k, v) :: m
    | .gt => (k', v') :: insert k v m

/-- `BTreeMap::get` / `HashMap::get`. -/
def get (k : Str) : BMap α → Option α
  | [] => none
  | (k', v) :: m => if k = k' then some v else get k m

/-- `BTreeMap::contains_key`. -/
def containsKey (k : Str) (m : BMap α) : Bool := (get k m).isSome

/-- `values()` in key order. -/
def values (m : BMap α) : List α := m.map Prod.snd

/-- Collecting key-value pairs into a map: later pairs win. -/
def ofList (l : List (Str × α)) : BMap α := l.foldl (fun m kv => insert kv.1 kv.2 m) []

end BMap

end Ical
