import Verif.Model.Nom
import Verif.Model.Text

/-!
The parser: /repo/src/parser/{utils,parameters,properties,components,mod}.rs.
`ParseString` is represented by its text.
-/

namespace Ical

open Nom

/-- `parser::Parameter`: /repo/src/parser/parameters.rs:20-23. -/
structure PParam where
  key : Str
  val : Option Str
  deriving DecidableEq, Repr

/-- `parser::Property`: /repo/src/parser/properties.rs:48-52. -/
structure PProp where
  name : Str
  val : Str
  params : List PParam
  deriving DecidableEq, Repr

/-- `parser::Component`: /repo/src/parser/components.rs:38-42. -/
inductive PComp where
  | mk (name : Str) (props : List PProp) (comps : List PComp)
  deriving Repr

namespace PComp
/-- field `name` -/
def name : PComp → Str | mk n _ _ => n
/-- field `properties` -/
def props : PComp → List PProp | mk _ p _ => p
/-- field `components` -/
def comps : PComp → List PComp | mk _ _ c => c
/-- `find_prop`: /repo/src/parser/components.rs:56-60. -/
def findProp (c : PComp) (name : Str) : Option PProp := c.props.find? (fun p => p.name == name)
end PComp

variable [Uni]

/-- The character class of `valid_key_sequence`: /repo/src/parser/utils.rs:32-34. -/
def isKeyChar (c : Char) : Bool :=
  c == '.' || c == ',' || c == '/' || c == '_' || c == '-' || isAlnum c

/-- `valid_key_sequence` and `valid_key_sequence_cow`: /repo/src/parser/utils.rs:29-46. -/
def validKeySequence : P Str := takeWhile isKeyChar

/-- `property_key`: /repo/src/parser/utils.rs:16-27. `input.get(0..=2) == Some("END")` holds exactly
when the input starts with `END`. -/
def propertyKey : P Str := fun i =>
  if (c!"END").isPrefixOf i || (c!"BEGIN").isPrefixOf i then .error else validKeySequence i

omit [Uni] in
/-- `line_separated`: /repo/src/parser/utils.rs:55-59. -/
def lineSeparated {α : Type} (f : P α) : P α := delimited (many0 lineEnding) f (many0 lineEnding)

omit [Uni] in
/-- `line`: /repo/src/parser/utils.rs:48-53. -/
def line {α : Type} (pre : Str) (f : P α) : P α :=
  lineSeparated (complete (preceded (tagNoCase pre) f))

omit [Uni] in
/-- The three-way `alt` for a parameter value: /repo/src/parser/parameters.rs:144-148 and 169-173. -/
def paramValue : P Str :=
  alt eof (alt (delimited (tag ['"']) (isNot '"') (tag ['"']))
    (takeTill1 (fun x => x == ';' || x == ':')))

omit [Uni] in
/-- `remove_empty_string` and `remove_empty_string_parsed`: /repo/src/parser/parameters.rs:112-128. -/
def removeEmpty : Option Str → Option Str
  | some s => if s.isEmpty then none else some s
  | none => none

/-- `pair_parameter`: /repo/src/parser/parameters.rs:136-157. -/
def pairParameter : P PParam :=
  map (fun kv => { key := kv.1, val := kv.2 })
    (preceded (pair (tag [';']) space0)
      (separatedPair validKeySequence (tag ['=']) (map removeEmpty (opt paramValue))))

/-- `base_parameter`: /repo/src/parser/parameters.rs:159-180. -/
def baseParameter : P PParam :=
  map (fun kv => { key := kv.1, val := kv.2 })
    (pair (preceded (pair (tag [';']) space0) validKeySequence)
      (map removeEmpty (opt (preceded (tag ['=']) paramValue))))

/-- `parameter`: /repo/src/parser/parameters.rs:130-134. -/
def parameter : P PParam := alt pairParameter baseParameter

/-- `parameters`: /repo/src/parser/parameters.rs:215-219. -/
def parameters : P (List PParam) := many0 parameter

/-- `determin_value_type`: /repo/src/parser/properties.rs:360-367. -/
def determineValueType (name : Str) (params : List PParam) : Option ValueType :=
  match ((params.find? (fun p => p.key == c!"VALUE")).bind (fun p => p.val)).bind
      ValueType.fromStr with
  | some v => some v
  | none => ValueType.byName name

omit [Uni] in
/-- The value of a property: /repo/src/parser/properties.rs:390-395. -/
def propertyRest : P Str :=
  alt (takeUntil ['\r', '\n']) (alt (takeUntil ['\n']) (takeWhile (fun _ => true)))

/-- Name, parameters and raw value: /repo/src/parser/properties.rs:375-403. -/
def propertyParts : P ((Str × List PParam) × Str) :=
  alt
    (separatedPair
      (pair (cut (preceded multispace0 propertyKey)) parameters)
      (tag [':'])
      propertyRest)
    (map (fun key => ((key, []), [])) validKeySequence)

/-- Building the parsed property, with unescaping: /repo/src/parser/properties.rs:406-414. -/
def mkProperty (x : (Str × List PParam) × Str) : PProp :=
  let val := match determineValueType x.1.1 x.1.2 with
    | some vt => unescapeByValueType vt x.2
    | none => x.2
  { name := x.1.1, val := val, params := x.1.2 }

/-- `property`: /repo/src/parser/properties.rs:369-417. -/
def property : P PProp :=
  cut (map (fun x => mkProperty x.1) (pair propertyParts (opt lineEnding)))

/-- `ComponentChild`: /repo/src/parser/components.rs:235-238. -/
inductive Child where
  | prop (p : PProp)
  | comp (c : PComp)

omit [Uni] in
/-- The properties among the children, in order: /repo/src/parser/components.rs:263-271. -/
def childProps (l : List Child) : List PProp :=
  l.filterMap (fun | .prop p => some p | .comp _ => none)

omit [Uni] in
/-- The components among the children, in order: /repo/src/parser/components.rs:263-271. -/
def childComps (l : List Child) : List PComp :=
  l.filterMap (fun | .prop _ => none | .comp c => some c)

/-- One element of a component body: /repo/src/parser/components.rs:253-259. -/
def componentChild (rec : P PComp) : P Child :=
  cut (alt (map Child.comp (lineSeparated rec)) (map Child.prop (lineSeparated property)))

omit [Uni] in
/-- The closing line: /repo/src/parser/components.rs:260. -/
def componentEnd (name : Str) : P Str := line c!"END:" (cut (tag name))

/-- The body of `component`, with the recursive call as a parameter:
/repo/src/parser/components.rs:247-285. -/
def componentBody (rec : P PComp) : P PComp := fun i =>
  match line c!"BEGIN:" validKeySequence i with
  | .error => .error
  | .failure => .failure
  | .ok i name =>
    match manyTill (componentChild rec) (componentEnd name) i with
    | .error => .error
    | .failure => .failure
    | .ok i (children, _) =>
      match many0 (tag ['\n']) i with
      | .error => .error
      | .failure => .failure
      | .ok i _ => .ok i (.mk name (childProps children) (childComps children))

/-- `component` with a recursion budget. -/
def componentF : Nat → P PComp
  | 0 => fun _ => .failure
  | n + 1 => componentBody (componentF n)

/-- `component`: /repo/src/parser/components.rs:247-285. Every recursive call sees a strictly shorter
input, so a budget of one more than the number of characters is never exhausted; the recursion
equation without budget is `component_eq` in `Proofs/Parser.lean`. -/
def component : P PComp := fun i => componentF (i.length + 1) i

/-- `components`: /repo/src/parser/components.rs:515-519. -/
def components : P (List PComp) := complete (many0 (allConsuming component))

omit [Uni] in
/-- `.finish().map(|(_, x)| x)`: `Ok` or `Err`, the error text is not modelled. -/
def finish {α : Type} : Res α → Option α
  | .ok _ a => some a
  | .error => none
  | .failure => none

/-- `read_component` and `Component::try_from`: /repo/src/parser/components.rs:117-126, 240-245. -/
def readComponent (i : Str) : Option PComp := finish (component i)

/-- `read_components` and `read_calendar_simple`: /repo/src/parser/mod.rs:50-52, 94-99. -/
def readComponents (i : Str) : Option (List PComp) := finish (components i)

/-- `parser::Calendar`: /repo/src/parser/calendar.rs:9-12. -/
structure PCal where
  props : List PProp
  comps : List PComp
  deriving Repr

/-- `read_calendar`: /repo/src/parser/mod.rs:59-82. -/
def readCalendar (i : Str) : Option PCal :=
  match finish (components i) with
  | none => none
  | some [] => some { props := [], comps := [] }
  | some (root :: rest) =>
    if root.name = c!"VCALENDAR" then some { props := root.props, comps := root.comps }
    else some { props := [], comps := root :: rest }

/-- `parser::Property::try_from(&str)`: /repo/src/parser/properties.rs:93-102. -/
def readProperty (i : Str) : Option PProp := finish (property i)

end Ical
