import Verif.Model.Parser
import Verif.Model.Num

/-!
The error messages of the readers. Every parser of `Model/Nom.lean` and `Model/Parser.lean` is paired
with the payload (`nom::error::VerboseError`) of the error it gives: the list of places where parsers
gave up and of the contexts they were in, innermost first. The result of such a parser is the result of
the parser it is built from (`run`); `err` is meaningful where that result is an error or a failure, and
follows the control flow of the combinator.

`convertError` is `nom::error::convert_error`, which turns such a payload into text.
-/

namespace Ical

/-- `nom::error::VerboseErrorKind`. The kinds of nom are represented by their names. `Char` does not
occur. -/
inductive EKind where
  | nom (kind : Str)
  | context (name : Str)
  deriving DecidableEq, Repr

/-- An entry of `VerboseError::errors`: the rest of the input at some place, and what went wrong there. -/
abbrev Entry := Str × EKind

/-- A parser with the payload of its errors. -/
structure EP (α : Type) where
  run : P α
  err : Str → List Entry

namespace EP
variable {α β γ : Type}

/-- `Parser::map` -/
def map (f : α → β) (p : EP α) : EP β := ⟨Nom.map f p.run, p.err⟩

/-- `combinator::cut` -/
def cut (p : EP α) : EP α := ⟨Nom.cut p.run, p.err⟩

/-- `combinator::opt` -/
def opt (p : EP α) : EP (Option α) := ⟨Nom.opt p.run, p.err⟩

/-- `error::context` adds an entry to errors and failures. -/
def context (name : Str) (p : EP α) : EP α := ⟨p.run, fun i => p.err i ++ [(i, .context name)]⟩

/-- `branch::alt` with two branches: keeps the error of the last one (`VerboseError::or`) and adds an
entry to it. A failure is passed on as it is. -/
def alt (p q : EP α) : EP α :=
  ⟨Nom.alt p.run q.run, fun i => match p.run i with
    | .error => match q.run i with
      | .error => q.err i ++ [(i, .nom c!"Alt")]
      | _ => q.err i
    | _ => p.err i⟩

/-- `branch::alt` with three branches -/
def alt3 (p q r : EP α) : EP α :=
  ⟨Nom.alt p.run (Nom.alt q.run r.run), fun i => match p.run i with
    | .error => match q.run i with
      | .error => match r.run i with
        | .error => r.err i ++ [(i, .nom c!"Alt")]
        | _ => r.err i
      | _ => q.err i
    | _ => p.err i⟩

/-- `sequence::pair` / two-element `tuple` -/
def pair (p : EP α) (q : EP β) : EP (α × β) :=
  ⟨Nom.pair p.run q.run, fun i => match p.run i with | .ok r _ => q.err r | _ => p.err i⟩

/-- `sequence::preceded` -/
def preceded (p : EP α) (q : EP β) : EP β := map Prod.snd (pair p q)

/-- `sequence::delimited` -/
def delimited (p : EP α) (q : EP β) (r : EP γ) : EP β := map (fun x => x.2.1) (pair p (pair q r))

/-- `sequence::separated_pair` -/
def separatedPair (p : EP α) (s : EP γ) (q : EP β) : EP (α × β) :=
  map (fun x => (x.1, x.2.2)) (pair p (pair s q))

/-- a parser that gives an error of its own at the place where it starts -/
def prim (kind : Str) (p : P α) : EP α := ⟨p, fun i => [(i, .nom kind)]⟩

/-- `bytes::complete::tag` -/
def tag (t : Str) : EP Str := prim c!"Tag" (Nom.tag t)

/-- `bytes::complete::tag_no_case` -/
def tagNoCase (t : Str) : EP Str := prim c!"Tag" (Nom.tagNoCase t)

/-- `bytes::complete::take_while` gives no errors. -/
def takeWhile (f : Char → Bool) : EP Str := ⟨Nom.takeWhile f, fun _ => []⟩

/-- `bytes::complete::take_till1` -/
def takeTill1 (f : Char → Bool) : EP Str := prim c!"TakeTill1" (Nom.takeTill1 f)

/-- `bytes::complete::is_not` for one character -/
def isNot (x : Char) : EP Str := prim c!"IsNot" (Nom.isNot x)

/-- `bytes::complete::take_until` -/
def takeUntil (t : Str) : EP Str := prim c!"TakeUntil" (Nom.takeUntil t)

/-- `combinator::eof` -/
def eof : EP Str := prim c!"Eof" Nom.eof

/-- `character::complete::line_ending` -/
def lineEnding : EP Str := prim c!"CrLf" Nom.lineEnding

/-- `character::complete::multispace0` -/
def multispace0 : EP Str := ⟨Nom.multispace0, fun _ => []⟩

/-- `character::complete::space0` -/
def space0 : EP Str := ⟨Nom.space0, fun _ => []⟩

/-- `combinator::all_consuming` gives an error at the place where something is left. -/
def allConsuming (p : EP α) : EP α :=
  ⟨Nom.allConsuming p.run, fun i => match p.run i with | .ok r _ => [(r, .nom c!"Eof")] | _ => p.err i⟩

/-- `combinator::complete` -/
def complete (p : EP α) : EP α := p

/-- Errors of the iterations of `multi::many0`. -/
def many0Err (p : EP α) : Nat → Str → List Entry
  | 0, _ => []
  | n + 1, i => match p.run i with
    | .ok r _ => if r.length = i.length then [(i, .nom c!"Many0")] else many0Err p n r
    | _ => p.err i

/-- `multi::many0` -/
def many0 (p : EP α) : EP (List α) := ⟨Nom.many0 p.run, fun i => many0Err p (i.length + 1) i⟩

/-- Errors of the iterations of `multi::many_till`. -/
def manyTillErr (f : EP α) (g : EP β) : Nat → Str → List Entry
  | 0, _ => []
  | n + 1, i => match g.run i with
    | .error => match f.run i with
      | .ok r _ => if r.length = i.length then [(r, .nom c!"ManyTill")] else manyTillErr f g n r
      | .error => f.err i ++ [(i, .nom c!"ManyTill")]
      | .failure => f.err i
    | _ => g.err i

/-- `multi::many_till` -/
def manyTill (f : EP α) (g : EP β) : EP (List α × β) :=
  ⟨Nom.manyTill f.run g.run, fun i => manyTillErr f g (i.length + 1) i⟩

variable [Uni]

/-- `valid_key_sequence`: /repo/src/parser/utils.rs:29-46. -/
def validKeySequence : EP Str := ⟨Ical.validKeySequence, fun _ => []⟩

/-- `property_key`: /repo/src/parser/utils.rs:16-27. -/
def propertyKey : EP Str := prim c!"Satisfy" Ical.propertyKey

omit [Uni] in
/-- `line_separated`: /repo/src/parser/utils.rs:55-59. -/
def lineSeparated (f : EP α) : EP α := delimited (many0 lineEnding) f (many0 lineEnding)

omit [Uni] in
/-- `line`: /repo/src/parser/utils.rs:48-53. -/
def line (pre : Str) (f : EP α) : EP α := lineSeparated (complete (preceded (tagNoCase pre) f))

omit [Uni] in
/-- the value of a parameter: /repo/src/parser/parameters.rs:144-148 and 169-173 -/
def paramValue : EP Str :=
  alt3 eof (delimited (tag ['"']) (isNot '"') (tag ['"'])) (takeTill1 (fun x => x == ';' || x == ':'))

/-- `pair_parameter`: /repo/src/parser/parameters.rs:136-157. -/
def pairParameter : EP PParam :=
  map (fun kv => { key := kv.1, val := kv.2 })
    (preceded (pair (tag [';']) space0)
      (separatedPair validKeySequence (tag ['=']) (map removeEmpty (opt paramValue))))

/-- `base_parameter`: /repo/src/parser/parameters.rs:159-180. -/
def baseParameter : EP PParam :=
  map (fun kv => { key := kv.1, val := kv.2 })
    (pair (preceded (pair (tag [';']) space0) validKeySequence)
      (map removeEmpty (opt (preceded (tag ['=']) paramValue))))

/-- `parameter`: /repo/src/parser/parameters.rs:130-134. -/
def parameter : EP PParam := alt pairParameter baseParameter

/-- `parameters`: /repo/src/parser/parameters.rs:215-219. -/
def parameters : EP (List PParam) := many0 parameter

omit [Uni] in
/-- the value of a property: /repo/src/parser/properties.rs:388-396 -/
def propertyRest : EP Str :=
  context c!"property value" (alt3 (takeUntil ['\r', '\n']) (takeUntil ['\n']) (takeWhile (fun _ => true)))

/-- name, parameters and raw value: /repo/src/parser/properties.rs:375-403 -/
def propertyParts : EP ((Str × List PParam) × Str) :=
  alt
    (separatedPair
      (pair (cut (context c!"property cannot be END or BEGIN" (preceded multispace0 propertyKey))) parameters)
      (context c!"property separator" (tag [':']))
      propertyRest)
    (context c!"no-value property" (map (fun key => ((key, []), [])) validKeySequence))

/-- `property`: /repo/src/parser/properties.rs:369-417. -/
def property : EP PProp :=
  context c!"property" (cut (map (fun x => mkProperty x.1) (pair propertyParts (opt lineEnding))))

/-- one element of a component body: /repo/src/parser/components.rs:253-259 -/
def componentChild (rec : EP PComp) : EP Child :=
  cut (context c!"component"
    (alt (map Child.comp (lineSeparated rec)) (map Child.prop (lineSeparated property))))

omit [Uni] in
/-- the closing line: /repo/src/parser/components.rs:260 -/
def componentEnd (name : Str) : EP Str := line c!"END:" (cut (context c!"mismatching end" (tag name)))

/-- The body of `component`: /repo/src/parser/components.rs:247-285. -/
def componentBody (rec : EP PComp) : EP PComp :=
  ⟨Ical.componentBody rec.run, fun i =>
    match Ical.line c!"BEGIN:" Ical.validKeySequence i with
    | .ok i name =>
      match (manyTill (componentChild rec) (componentEnd name)).run i with
      | .ok i _ => (many0 (tag ['\n'])).err i
      | _ => (manyTill (componentChild rec) (componentEnd name)).err i
    | _ => (line c!"BEGIN:" validKeySequence).err i⟩

/-- `component` with a recursion budget -/
def componentF : Nat → EP PComp
  | 0 => ⟨fun _ => .failure, fun _ => []⟩
  | n + 1 => componentBody (componentF n)

/-- `component`: /repo/src/parser/components.rs:247-285. -/
def component : EP PComp := ⟨Ical.component, fun i => (componentF (i.length + 1)).err i⟩

/-- `components`: /repo/src/parser/components.rs:515-519. -/
def components : EP (List PComp) := complete (many0 (allConsuming component))

/-- `.finish().map_err(..)`: the payload of an error or failure, if there is one. -/
def payload (p : EP α) (i : Str) : Option (List Entry) :=
  match p.run i with
  | .ok _ _ => none
  | _ => some (p.err i)

end EP

/-! ### `convert_error` -/

/-- The place a position is at: number of the line (from 1), the line (without its break and trailing
whitespace), and the column in octets (from 1). In the source the position is given by a suffix of the
input, and the line is `input[line_begin..].lines().next()` with `trim_end`; the latter also removes the
carriage return that `lines` removes. -/
structure Place where
  lineNumber : Nat
  line : Str
  column : Nat
  deriving DecidableEq, Repr

/-- `str::trim_end` -/
def trimEnd (s : Str) : Str := (s.reverse.dropWhile isWhitespace).reverse

/-- The place of the suffix `rest` in `input`. -/
def placeOf (input rest : Str) : Place :=
  let pre := input.take (input.length - rest.length)
  let before := (pre.reverse.takeWhile (· != '\n')).reverse
  { lineNumber := pre.count '\n' + 1
    line := trimEnd ((before ++ rest).takeWhile (· != '\n'))
    column := blen before + 1 }

/-- `{:>column$}` of a caret -/
def caret (column : Nat) : Str := List.replicate (column - 1) ' ' ++ ['^']

/-- One entry of the message. -/
def entryText (input : Str) (n : Nat) (e : Entry) : Str :=
  if input.isEmpty then
    match e.2 with
    | .context s => natToStr n ++ c!": in " ++ s ++ c!", got empty input\n\n"
    | .nom k => natToStr n ++ c!": in " ++ k ++ c!", got empty input\n\n"
  else
    let p := placeOf input e.1
    let name := match e.2 with
      | .context s => s
      | .nom k => k
    natToStr n ++ c!": at line " ++ natToStr p.lineNumber ++ c!", in " ++ name ++ c!":\n" ++ p.line ++ ['\n'] ++
      caret p.column ++ c!"\n\n"

/-- `nom::error::convert_error`, from a given number of entries on. -/
def convertErrorFrom (input : Str) : Nat → List Entry → Str
  | _, [] => []
  | n, e :: l => entryText input n e ++ convertErrorFrom input (n + 1) l

/-- `nom::error::convert_error` -/
def convertError (input : Str) (l : List Entry) : Str := convertErrorFrom input 0 l

variable [Uni]

/-- The error text of `read_calendar` and `read_components`: /repo/src/parser/mod.rs:59-82, 94-99. -/
def readCalendarError (i : Str) : Option Str :=
  (EP.components.payload i).map (fun l => c!"error: " ++ convertError i l)

/-- The error text of `read_component`: /repo/src/parser/components.rs:240-245. -/
def readComponentError (i : Str) : Option Str :=
  (EP.component.payload i).map (fun l => c!"error: " ++ convertError i l)

/-- The error text of `parser::Property::try_from`: /repo/src/parser/properties.rs:93-102. -/
def readPropertyError (i : Str) : Option Str :=
  (EP.property.payload i).map (fun l => c!"error: " ++ convertError i l)

end Ical
