import Verif.Model.Parser
import Verif.Spec.Lines
import Verif.Spec.Text

/-!
Specification of iCalendar documents (unfolded text): the grammar of content lines and components,
independent of the parser. Only the result types `PParam`, `PProp`, `PComp` are shared with the model.
-/

namespace Ical.Spec

open Ical

/-- A parameter as written: `;KEY`, `;KEY=value` or `;KEY="value"` (`true`: quoted). -/
structure DParam where
  key : Str
  val : Option (Bool × Str)

/-- The text of a parameter. -/
def DParam.text (p : DParam) : Str :=
  match p.val with
  | none => [';'] ++ p.key
  | some (true, v) => [';'] ++ p.key ++ ['='] ++ ['"'] ++ v ++ ['"']
  | some (false, v) => [';'] ++ p.key ++ ['='] ++ v

/-- What a parameter means: key and value, an empty value counting as none. -/
def DParam.meaning (p : DParam) : PParam :=
  match p.val with
  | none => ⟨p.key, none⟩
  | some (_, v) => ⟨p.key, if v = [] then none else some v⟩

/-- The line breaks of a document: CRLF throughout or LF throughout. -/
inductive Break
  | crlf | lf
  deriving DecidableEq, Repr

/-- The text of a line break. -/
def Break.text : Break → Str
  | .crlf => ['\r', '\n']
  | .lf => ['\n']

/-- One element of a document: a content line with its raw value text, or a component with the keyword
texts `BEGIN:`/`END:` as written, its name and its elements in order. -/
inductive Item
  | prop (key : Str) (params : List DParam) (val : Str)
  | comp (b e name : Str) (items : List Item)

mutual
/-- The text of an element. -/
def Item.text (br : Break) : Item → Str
  | .prop key params val => key ++ (params.map DParam.text).flatten ++ [':'] ++ val ++ br.text
  | .comp b e name items => b ++ name ++ br.text ++ itemsText br items ++ (e ++ name ++ br.text)
/-- The text of a sequence of elements. -/
def itemsText (br : Break) : List Item → Str
  | [] => []
  | i :: l => i.text br ++ itemsText br l
end

/-- A raw value that ends where its line ends. -/
def ValOk : Break → Str → Prop
  | .crlf, v => ¬ ['\r', '\n'] <:+: v
  | .lf, v => '\n' ∉ v

mutual
/-- No content line contains a fold marker, so the document is its own unfolded form. -/
def Item.Flat : Item → Prop
  | .prop key params val => MarkerFree (key ++ (params.map DParam.text).flatten ++ [':'] ++ val)
  | .comp _ _ _ items => ItemsFlat items
/-- see `Item.Flat` -/
def ItemsFlat : List Item → Prop
  | [] => True
  | i :: l => i.Flat ∧ ItemsFlat l
end

mutual
/-- The same document up to the letter case of the `BEGIN:` and `END:` keywords. -/
def Item.SameUpToCase : Item → Item → Prop
  | .prop k ps v, .prop k' ps' v' => k = k' ∧ ps = ps' ∧ v = v'
  | .comp b e n l, .comp b' e' n' l' =>
    b.map lowerAscii = b'.map lowerAscii ∧ e.map lowerAscii = e'.map lowerAscii ∧ n = n' ∧ ItemsSame l l'
  | _, _ => False
/-- see `Item.SameUpToCase` -/
def ItemsSame : List Item → List Item → Prop
  | [], [] => True
  | i :: l, i' :: l' => i.SameUpToCase i' ∧ ItemsSame l l'
  | _, _ => False
end

mutual
/-- Every content line is free of CR and LF and every `BEGIN:` keyword is in upper case, as in every
document a serializer writes. -/
def Item.Clean : Item → Prop
  | .prop key params val =>
    '\r' ∉ key ++ (params.map DParam.text).flatten ++ [':'] ++ val ∧
    '\n' ∉ key ++ (params.map DParam.text).flatten ++ [':'] ++ val
  | .comp b _ _ items => b = c!"BEGIN:" ∧ ItemsClean items
/-- see `Item.Clean` -/
def ItemsClean : List Item → Prop
  | [] => True
  | i :: l => i.Clean ∧ ItemsClean l
end

/-- The properties whose default value type is TEXT (RFC 5545, sections 3.7 and 3.8). -/
def textNames : List Str :=
  [c!"CALSCALE", c!"METHOD", c!"PRODID", c!"VERSION", c!"CATEGORIES", c!"CLASS", c!"COMMENT", c!"DESCRIPTION",
   c!"LOCATION", c!"RESOURCES", c!"STATUS", c!"SUMMARY", c!"TRANSP", c!"TZID", c!"TZNAME", c!"CONTACT",
   c!"RELATED-TO", c!"UID", c!"ACTION", c!"REQUEST-STATUS"]

/-- The texts a VALUE parameter can have, besides TEXT (RFC 5545, section 3.2.20). -/
def otherTypeNames : List Str :=
  [c!"BINARY", c!"BOOLEAN", c!"CAL-ADDRESS", c!"DATE", c!"DATE-TIME", c!"DURATION", c!"FLOAT", c!"INTEGER",
   c!"PERIOD", c!"RECUR", c!"TIME", c!"URI", c!"UTC-OFFSET"]

/-- A value parameter that names a type decides, otherwise the name of the property. -/
def IsTextFor (key : Str) (value : Option Str) : Prop :=
  match value with
  | some v => v = c!"TEXT" ∨ (v ∉ otherTypeNames ∧ key ∈ textNames)
  | none => key ∈ textNames

instance (k : Str) (v : Option Str) : Decidable (IsTextFor k v) := by
  unfold IsTextFor; split <;> infer_instance

variable [Uni]

/-- A character of a name: a letter or digit, or one of `. , / _ -`. -/
def NameChar (c : Char) : Prop := isAlnum c = true ∨ c ∈ ['.', ',', '/', '_', '-']

/-- A name consists of name characters. -/
def IsName (s : Str) : Prop := ∀ c ∈ s, NameChar c

/-- A property name that no reader can take for the start of a `BEGIN:` or `END:` line. -/
structure KeyOk (k : Str) : Prop where
  name : IsName k
  notEnd : ¬ c!"END" <+: k
  notBegin : ¬ c!"BEGIN" <+: k
  notEndAnyCase : k.map lowerAscii ≠ c!"end"
  notBeginAnyCase : k.map lowerAscii ≠ c!"begin"

instance (c : Char) : Decidable (NameChar c) := by unfold NameChar; infer_instance
instance (s : Str) : Decidable (IsName s) := by unfold IsName; infer_instance
instance (k : Str) : Decidable (KeyOk k) :=
  decidable_of_iff (IsName k ∧ ¬ c!"END" <+: k ∧ ¬ c!"BEGIN" <+: k ∧ k.map lowerAscii ≠ c!"end" ∧
    k.map lowerAscii ≠ c!"begin")
    ⟨fun h => ⟨h.1, h.2.1, h.2.2.1, h.2.2.2.1, h.2.2.2.2⟩,
     fun h => ⟨h.name, h.notEnd, h.notBegin, h.notEndAnyCase, h.notBeginAnyCase⟩⟩

/-- When the text of a parameter is unambiguous. -/
def DParam.Ok (p : DParam) : Prop :=
  IsName p.key ∧
    match p.val with
    | none => True
    | some (true, v) => v ≠ [] ∧ '"' ∉ v
    | some (false, v) => ':' ∉ v ∧ ';' ∉ v ∧ ¬ ['"'] <+: v

/-- What the raw value text of a property means: TEXT values are unescaped, all others are verbatim. The first
parameter called VALUE counts. -/
def meaningProp (key : Str) (params : List DParam) (val : Str) : PProp :=
  { name := key
    val := if IsTextFor key (((params.map DParam.meaning).find? (fun p => p.key == c!"VALUE")).bind PParam.val)
      then unescaped val else val
    params := params.map DParam.meaning }

mutual
/-- The properties and components a sequence of elements stands for, each in order. -/
def itemsProps : List Item → List PProp
  | [] => []
  | .prop key params val :: l => meaningProp key params val :: itemsProps l
  | .comp _ _ _ _ :: l => itemsProps l
/-- see `itemsProps` -/
def itemsComps : List Item → List PComp
  | [] => []
  | .prop _ _ _ :: l => itemsComps l
  | .comp _ _ name items :: l => .mk name (itemsProps items) (itemsComps items) :: itemsComps l
end

mutual
/-- A well-formed element. -/
def Item.Ok (br : Break) : Item → Prop
  | .prop key params val => KeyOk key ∧ (∀ p ∈ params, p.Ok) ∧ ValOk br val
  | .comp b e name items =>
    b.map lowerAscii = c!"begin:" ∧ e.map lowerAscii = c!"end:" ∧ IsName name ∧ ItemsOk br items
/-- Well-formed elements. -/
def ItemsOk (br : Break) : List Item → Prop
  | [] => True
  | i :: l => i.Ok br ∧ ItemsOk br l
end

/-- An open component: the `BEGIN:` keyword as written, the name and the elements read so far. -/
abbrev Frame := Str × Str × List Item

omit [Uni] in
/-- The text of nested open components, outermost first. -/
def openText (br : Break) : List Frame → Str
  | [] => []
  | (b, n, items) :: fs => b ++ n ++ br.text ++ itemsText br items ++ openText br fs

/-- Well-formed open components. -/
def FramesOk (br : Break) : List Frame → Prop
  | [] => True
  | (b, n, items) :: fs =>
    b.map lowerAscii = c!"begin:" ∧ IsName n ∧ ItemsOk br items ∧ FramesOk br fs

/-- A parsed property: name and parameter names consist of name characters, and the value is the raw
text of one line, or that text unescaped. -/
structure PPropOk (p : PProp) : Prop where
  name : IsName p.name
  params : ∀ q ∈ p.params, IsName q.key
  value : ∃ raw, ¬ ['\r', '\n'] <:+: raw ∧ (p.val = raw ∨ p.val = unescaped raw)

mutual
/-- A parsed component, at any depth. -/
def PCompOk : PComp → Prop
  | .mk name props comps => IsName name ∧ (∀ p ∈ props, PPropOk p) ∧ PCompsOk comps
/-- see `PCompOk` -/
def PCompsOk : List PComp → Prop
  | [] => True
  | c :: l => PCompOk c ∧ PCompsOk l
end

end Ical.Spec
