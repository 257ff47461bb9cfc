import Verif.Model.Parser

/-!
The errors of `read_calendar_simple`: /repo/src/parser/mod.rs:50-52. The parsers of the crate are generic in the type of
errors; here it is `nom::error::Error`, which keeps the place and the kind of one error: `append` and `add_context` return
the error they are given, `or` the second one. As in `Model/Errors.lean` every parser is paired with the error it gives,
which is meaningful where its result is an error or a failure.
-/

namespace Ical

/-- `nom::error::Error<&str>`: the rest of the input at the place of the error, and the kind (by its name). -/
structure SErr where
  input : Str
  code : Str
  deriving DecidableEq, Repr

/-- Stands where a parser gives no error. -/
def SErr.no : SErr := ⟨[], []⟩

/-- A parser with the error it gives. -/
structure SP (α : Type) where
  run : P α
  err : Str → SErr

namespace SP
variable {α β γ : Type}

/-- `Parser::map` -/
def map (f : α → β) (p : SP α) : SP β := ⟨Nom.map f p.run, p.err⟩

/-- `combinator::cut` -/
def cut (p : SP α) : SP α := ⟨Nom.cut p.run, p.err⟩

/-- `combinator::opt` -/
def opt (p : SP α) : SP (Option α) := ⟨Nom.opt p.run, p.err⟩

/-- `error::context` with `nom::error::Error`, whose `add_context` is the default one. -/
def context (_name : Str) (p : SP α) : SP α := ⟨p.run, p.err⟩

/-- `branch::alt` with two branches: `or` keeps the error of the last one, `append` adds nothing. -/
def alt (p q : SP α) : SP α :=
  ⟨Nom.alt p.run q.run, fun i => match p.run i with
    | .error => q.err i
    | _ => p.err i⟩

/-- `branch::alt` with three branches -/
def alt3 (p q r : SP α) : SP α :=
  ⟨Nom.alt p.run (Nom.alt q.run r.run), fun i => match p.run i with
    | .error => match q.run i with
      | .error => r.err i
      | _ => q.err i
    | _ => p.err i⟩

/-- `sequence::pair` / two-element `tuple` -/
def pair (p : SP α) (q : SP β) : SP (α × β) :=
  ⟨Nom.pair p.run q.run, fun i => match p.run i with | .ok r _ => q.err r | _ => p.err i⟩

/-- `sequence::preceded` -/
def preceded (p : SP α) (q : SP β) : SP β := map Prod.snd (pair p q)

/-- `sequence::delimited` -/
def delimited (p : SP α) (q : SP β) (r : SP γ) : SP β := map (fun x => x.2.1) (pair p (pair q r))

/-- `sequence::separated_pair` -/
def separatedPair (p : SP α) (s : SP γ) (q : SP β) : SP (α × β) :=
  map (fun x => (x.1, x.2.2)) (pair p (pair s q))

/-- a parser that gives an error of its own at the place where it starts (`from_error_kind`) -/
def prim (kind : Str) (p : P α) : SP α := ⟨p, fun i => ⟨i, kind⟩⟩

/-- a parser that gives no errors -/
def total (p : P α) : SP α := ⟨p, fun _ => .no⟩

/-- `bytes::complete::tag` -/
def tag (t : Str) : SP Str := prim c!"Tag" (Nom.tag t)

/-- `bytes::complete::tag_no_case` -/
def tagNoCase (t : Str) : SP Str := prim c!"Tag" (Nom.tagNoCase t)

/-- `bytes::complete::take_till1` -/
def takeTill1 (f : Char → Bool) : SP Str := prim c!"TakeTill1" (Nom.takeTill1 f)

/-- `bytes::complete::is_not` for one character -/
def isNot (x : Char) : SP Str := prim c!"IsNot" (Nom.isNot x)

/-- `bytes::complete::take_until` -/
def takeUntil (t : Str) : SP Str := prim c!"TakeUntil" (Nom.takeUntil t)

/-- `combinator::eof` -/
def eof : SP Str := prim c!"Eof" Nom.eof

/-- `character::complete::line_ending` -/
def lineEnding : SP Str := prim c!"CrLf" Nom.lineEnding

/-- `combinator::all_consuming` gives an error at the place where something is left. -/
def allConsuming (p : SP α) : SP α :=
  ⟨Nom.allConsuming p.run, fun i => match p.run i with | .ok r _ => ⟨r, c!"Eof"⟩ | _ => p.err i⟩

/-- `combinator::complete` -/
def complete (p : SP α) : SP α := p

/-- The error of the iterations of `multi::many0`. -/
def many0Err (p : SP α) : Nat → Str → SErr
  | 0, _ => .no
  | n + 1, i => match p.run i with
    | .ok r _ => if r.length = i.length then ⟨i, c!"Many0"⟩ else many0Err p n r
    | _ => p.err i

/-- `multi::many0` -/
def many0 (p : SP α) : SP (List α) := ⟨Nom.many0 p.run, fun i => many0Err p (i.length + 1) i⟩

/-- The error of the iterations of `multi::many_till`. -/
def manyTillErr (f : SP α) (g : SP β) : Nat → Str → SErr
  | 0, _ => .no
  | n + 1, i => match g.run i with
    | .error => match f.run i with
      | .ok r _ => if r.length = i.length then ⟨r, c!"ManyTill"⟩ else manyTillErr f g n r
      | _ => f.err i
    | _ => g.err i

/-- `multi::many_till` -/
def manyTill (f : SP α) (g : SP β) : SP (List α × β) :=
  ⟨Nom.manyTill f.run g.run, fun i => manyTillErr f g (i.length + 1) i⟩

/-- `line_separated`: /repo/src/parser/utils.rs:55-59. -/
def lineSeparated (f : SP α) : SP α := delimited (many0 lineEnding) f (many0 lineEnding)

/-- `line`: /repo/src/parser/utils.rs:48-53. -/
def line (pre : Str) (f : SP α) : SP α := lineSeparated (complete (preceded (tagNoCase pre) f))

/-- the value of a parameter: /repo/src/parser/parameters.rs:144-148 and 169-173 -/
def paramValue : SP Str :=
  alt3 eof (delimited (tag ['"']) (isNot '"') (tag ['"'])) (takeTill1 (fun x => x == ';' || x == ':'))

/-- the value of a property: /repo/src/parser/properties.rs:388-396 -/
def propertyRest : SP Str :=
  context c!"property value"
    (alt3 (takeUntil ['\r', '\n']) (takeUntil ['\n']) (total (Nom.takeWhile (fun _ => true))))

/-- the closing line: /repo/src/parser/components.rs:260 -/
def componentEnd (name : Str) : SP Str := line c!"END:" (cut (context c!"mismatching end" (tag name)))

variable [Uni]

/-- `valid_key_sequence`: /repo/src/parser/utils.rs:29-46. -/
def validKeySequence : SP Str := total Ical.validKeySequence

/-- `property_key`: /repo/src/parser/utils.rs:16-27. -/
def propertyKey : SP Str := prim c!"Satisfy" Ical.propertyKey

/-- `pair_parameter`: /repo/src/parser/parameters.rs:136-157. -/
def pairParameter : SP PParam :=
  map (fun kv => { key := kv.1, val := kv.2 })
    (preceded (pair (tag [';']) (total Nom.space0))
      (separatedPair validKeySequence (tag ['=']) (map removeEmpty (opt paramValue))))

/-- `base_parameter`: /repo/src/parser/parameters.rs:159-180. -/
def baseParameter : SP PParam :=
  map (fun kv => { key := kv.1, val := kv.2 })
    (pair (preceded (pair (tag [';']) (total Nom.space0)) validKeySequence)
      (map removeEmpty (opt (preceded (tag ['=']) paramValue))))

/-- `parameter`: /repo/src/parser/parameters.rs:130-134. -/
def parameter : SP PParam := alt pairParameter baseParameter

/-- `parameters`: /repo/src/parser/parameters.rs:215-219. -/
def parameters : SP (List PParam) := many0 parameter

/-- name, parameters and raw value: /repo/src/parser/properties.rs:375-403 -/
def propertyParts : SP ((Str × List PParam) × Str) :=
  alt
    (separatedPair
      (pair (cut (context c!"property cannot be END or BEGIN" (preceded (total Nom.multispace0) propertyKey)))
        parameters)
      (context c!"property separator" (tag [':']))
      propertyRest)
    (context c!"no-value property" (map (fun key => ((key, []), [])) validKeySequence))

/-- `property`: /repo/src/parser/properties.rs:369-417. -/
def property : SP PProp :=
  context c!"property" (cut (map (fun x => mkProperty x.1) (pair propertyParts (opt lineEnding))))

/-- one element of a component body: /repo/src/parser/components.rs:253-259 -/
def componentChild (rec : SP PComp) : SP Child :=
  cut (context c!"component"
    (alt (map Child.comp (lineSeparated rec)) (map Child.prop (lineSeparated property))))

/-- The body of `component`: /repo/src/parser/components.rs:247-285. -/
def componentBody (rec : SP PComp) : SP PComp :=
  ⟨Ical.componentBody rec.run, fun i =>
    match Ical.line c!"BEGIN:" Ical.validKeySequence i with
    | .ok i name =>
      match (manyTill (componentChild rec) (componentEnd name)).run i with
      | .ok i _ => (many0 (tag ['\n'])).err i
      | _ => (manyTill (componentChild rec) (componentEnd name)).err i
    | _ => (line c!"BEGIN:" validKeySequence).err i⟩

/-- `component` with a recursion budget -/
def componentF : Nat → SP PComp
  | 0 => ⟨fun _ => .failure, fun _ => .no⟩
  | n + 1 => componentBody (componentF n)

/-- `component`: /repo/src/parser/components.rs:247-285. -/
def component : SP PComp := ⟨Ical.component, fun i => (componentF (i.length + 1)).err i⟩

/-- `components`: /repo/src/parser/components.rs:515-519. -/
def components : SP (List PComp) := complete (many0 (allConsuming component))

end SP

variable [Uni]

/-- `read_calendar_simple`: /repo/src/parser/mod.rs:50-52. -/
def readCalendarSimple (i : Str) : Except SErr (List PComp) :=
  match components i with
  | .ok _ l => .ok l
  | _ => .error (SP.components.err i)

/-- `impl Display for nom::error::Error<&str>` -/
def SErr.show (e : SErr) : Str := c!"error " ++ e.code ++ c!" at: " ++ e.input

end Ical
