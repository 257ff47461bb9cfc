import Verif.Model.Parser

/-!
The JSON form of parsed calendars: the `serde::Serialize` and `serde::Deserialize` derives of
/repo/src/parser/{parsed_string,parameters,properties,components,calendar}.rs (feature `serde`), as used through
`serde_json::to_value` and `serde_json::from_value`. The derives are transcribed from serde's documented behaviour; the
text form of JSON is in `Model/JsonText.lean`.
-/

namespace Ical

/-- `serde_json::Value`; an object is the list of its entries. Numbers play no role and are opaque. -/
inductive Json where
  | null
  | bool (b : Bool)
  | number (text : Str)
  | string (s : Str)
  | array (l : List Json)
  | object (l : List (Str × Json))
  deriving Repr

/-- `ParseString`, a newtype: /repo/src/parser/parsed_string.rs:6-8. Serialized as its content. -/
def strToJson (s : Str) : Json := .string s

/-- `Parameter`: /repo/src/parser/parameters.rs:18-23. `None` is `null`. -/
def PParam.toJson (p : PParam) : Json :=
  .object [(c!"key", strToJson p.key), (c!"val", match p.val with | none => .null | some v => strToJson v)]

/-- `Property`: /repo/src/parser/properties.rs:46-52. -/
def PProp.toJson (p : PProp) : Json :=
  .object [(c!"name", strToJson p.name), (c!"val", strToJson p.val), (c!"params", .array (p.params.map PParam.toJson))]

mutual
/-- `Component`: /repo/src/parser/components.rs:36-42. -/
def PComp.toJson : PComp → Json
  | .mk name props comps =>
    .object [(c!"name", strToJson name), (c!"properties", .array (props.map PProp.toJson)),
      (c!"components", .array (compsToJson comps))]
/-- the components of a component -/
def compsToJson : List PComp → List Json
  | [] => []
  | c :: l => c.toJson :: compsToJson l
end

/-- `Calendar`: /repo/src/parser/calendar.rs:7-12. -/
def PCal.toJson (c : PCal) : Json :=
  .object [(c!"properties", .array (c.props.map PProp.toJson)), (c!"components", .array (compsToJson c.comps))]

/-- Deserializing a `ParseString`: only a string will do. -/
def strOfJson : Json → Option Str
  | .string s => some s
  | _ => none

/-- Deserializing an `Option<ParseString>`. -/
def optOfJson : Json → Option (Option Str)
  | .null => some none
  | .string s => some (some s)
  | _ => none

/-- Deserializing a `Vec`. -/
def listOfJson {α : Type} (f : Json → Option α) : List Json → Option (List α)
  | [] => some []
  | j :: l =>
    match f j with
    | none => none
    | some a =>
      match listOfJson f l with
      | none => none
      | some as => some (a :: as)

/-- A `Vec` is read from an array. -/
def vecOfJson {α : Type} (f : Json → Option α) : Json → Option (List α)
  | .array l => listOfJson f l
  | _ => none

/-- A field is read: an error if it was there before or its value does not fit. -/
def once {α : Type} (old new : Option α) : Option α :=
  match old, new with
  | none, some v => some v
  | _, _ => none

/-- The `visit_map` of a derived `Deserialize` for `Parameter`: every known field at most once, unknown fields are
skipped. -/
def paramFields : List (Str × Json) → Option Str → Option (Option Str) → Option (Option Str × Option (Option Str))
  | [], key, val => some (key, val)
  | (k, j) :: l, key, val =>
    if k = c!"key" then
      match once key (strOfJson j) with
      | none => none
      | some s => paramFields l (some s) val
    else if k = c!"val" then
      match once val (optOfJson j) with
      | none => none
      | some s => paramFields l key (some s)
    else paramFields l key val

/-- `Deserialize for Parameter`: from an object, where `val` may be missing, or from an array of the fields in order. -/
def PParam.ofJson : Json → Option PParam
  | .object l =>
    match paramFields l none none with
    | some (some k, some v) => some ⟨k, v⟩
    | some (some k, none) => some ⟨k, none⟩
    | _ => none
  | .array [k, v] =>
    match strOfJson k, optOfJson v with
    | some k, some v => some ⟨k, v⟩
    | _, _ => none
  | _ => none

/-- The `visit_map` for `Property`. -/
def propFields : List (Str × Json) → Option Str → Option Str → Option (List PParam) →
    Option (Option Str × Option Str × Option (List PParam))
  | [], name, val, params => some (name, val, params)
  | (k, j) :: l, name, val, params =>
    if k = c!"name" then
      match once name (strOfJson j) with
      | none => none
      | some s => propFields l (some s) val params
    else if k = c!"val" then
      match once val (strOfJson j) with
      | none => none
      | some s => propFields l name (some s) params
    else if k = c!"params" then
      match once params (vecOfJson PParam.ofJson j) with
      | none => none
      | some s => propFields l name val (some s)
    else propFields l name val params

/-- `Deserialize for Property`. -/
def PProp.ofJson : Json → Option PProp
  | .object l =>
    match propFields l none none none with
    | some (some n, some v, some ps) => some ⟨n, v, ps⟩
    | _ => none
  | .array [n, v, ps] =>
    match strOfJson n, strOfJson v, vecOfJson PParam.ofJson ps with
    | some n, some v, some ps => some ⟨n, v, ps⟩
    | _, _, _ => none
  | _ => none

mutual
/-- `Deserialize for Component`. -/
def PComp.ofJson : Json → Option PComp
  | .object l =>
    match compFields l none none none with
    | some (some n, some ps, some cs) => some (.mk n ps cs)
    | _ => none
  | .array [n, ps, .array cs] =>
    match strOfJson n, vecOfJson PProp.ofJson ps, compList cs with
    | some n, some ps, some cs => some (.mk n ps cs)
    | _, _, _ => none
  | _ => none
/-- The `visit_map` for `Component`. -/
def compFields : List (Str × Json) → Option Str → Option (List PProp) → Option (List PComp) →
    Option (Option Str × Option (List PProp) × Option (List PComp))
  | [], name, props, comps => some (name, props, comps)
  | (k, j) :: l, name, props, comps =>
    if k = c!"name" then
      match once name (strOfJson j) with
      | none => none
      | some s => compFields l (some s) props comps
    else if k = c!"properties" then
      match once props (vecOfJson PProp.ofJson j) with
      | none => none
      | some s => compFields l name (some s) comps
    else if k = c!"components" then
      match once comps (compVec j) with
      | none => none
      | some s => compFields l name props (some s)
    else compFields l name props comps
/-- `Vec<Component>` -/
def compVec : Json → Option (List PComp)
  | .array l => compList l
  | _ => none
/-- the elements of `Vec<Component>` -/
def compList : List Json → Option (List PComp)
  | [] => some []
  | j :: l =>
    match PComp.ofJson j with
    | none => none
    | some c =>
      match compList l with
      | none => none
      | some cs => some (c :: cs)
end

/-- The `visit_map` for `Calendar`. -/
def calFields : List (Str × Json) → Option (List PProp) → Option (List PComp) →
    Option (Option (List PProp) × Option (List PComp))
  | [], props, comps => some (props, comps)
  | (k, j) :: l, props, comps =>
    if k = c!"properties" then
      match once props (vecOfJson PProp.ofJson j) with
      | none => none
      | some s => calFields l (some s) comps
    else if k = c!"components" then
      match once comps (compVec j) with
      | none => none
      | some s => calFields l props (some s)
    else calFields l props comps

/-- `Deserialize for Calendar`. -/
def PCal.ofJson : Json → Option PCal
  | .object l =>
    match calFields l none none with
    | some (some ps, some cs) => some ⟨ps, cs⟩
    | _ => none
  | .array [ps, cs] =>
    match vecOfJson PProp.ofJson ps, compVec cs with
    | some ps, some cs => some ⟨ps, cs⟩
    | _, _ => none
  | _ => none

end Ical
