import Verif.Model.Parser

/-!
The work done while reading: every parser of `Model/Nom.lean` and `Model/Parser.lean` paired with a
measure of what a run of it costs. The result of a measured parser is the result of the parser it is
built from (`run`); its cost follows the control flow of the combinator: which parts are run, on which
input, and how often.

A `Meter` says what is measured. `Meter.steps` counts the characters looked at by the primitive
parsers, plus one for every primitive and every call of `component`; `Meter.depth` is the largest
number of calls of `component` that are active at the same time, i.e. the recursion depth on the call
stack.

Not counted: building the results (copying, unescaping a value, looking for VALUE among the
parameters), error payloads, and unfolding the text before it is read.
-/

namespace Ical

/-- What is measured. -/
structure Meter where
  /-- cost of doing one thing and then another -/
  seq : Nat → Nat → Nat
  /-- cost of a primitive parser that looks at so many characters -/
  prim : Nat → Nat
  /-- cost of a call of `component` whose body costs so much -/
  call : Nat → Nat

/-- Characters looked at, plus one for every primitive and every call of `component`. -/
def Meter.steps : Meter := { seq := (· + ·), prim := (· + 1), call := (· + 1) }

/-- Number of calls of `component` active at the same time. -/
def Meter.depth : Meter := { seq := max, prim := fun _ => 0, call := (· + 1) }

/-- A parser with the cost of running it. -/
structure MP (α : Type) where
  run : P α
  cost : Str → Nat

namespace MP
variable (m : Meter) {α β γ : Type}

/-- `Parser::map` -/
def map (f : α → β) (p : MP α) : MP β := ⟨Nom.map f p.run, p.cost⟩

/-- `combinator::cut` -/
def cut (p : MP α) : MP α := ⟨Nom.cut p.run, p.cost⟩

/-- `combinator::opt` -/
def opt (p : MP α) : MP (Option α) := ⟨Nom.opt p.run, p.cost⟩

/-- `branch::alt`: the second parser is run after an `Error` of the first, on the same input. -/
def alt (p q : MP α) : MP α :=
  ⟨Nom.alt p.run q.run, fun i => m.seq (p.cost i) (match p.run i with | .error => q.cost i | _ => 0)⟩

/-- `sequence::pair` -/
def pair (p : MP α) (q : MP β) : MP (α × β) :=
  ⟨Nom.pair p.run q.run, fun i => m.seq (p.cost i) (match p.run i with | .ok r _ => q.cost r | _ => 0)⟩

/-- `sequence::preceded` -/
def preceded (p : MP α) (q : MP β) : MP β := map Prod.snd (pair m p q)

/-- `sequence::delimited` -/
def delimited (p : MP α) (q : MP β) (r : MP γ) : MP β := map (fun x => x.2.1) (pair m p (pair m q r))

/-- `sequence::separated_pair` -/
def separatedPair (p : MP α) (s : MP γ) (q : MP β) : MP (α × β) :=
  map (fun x => (x.1, x.2.2)) (pair m p (pair m s q))

/-- `bytes::complete::tag` -/
def tag (t : Str) : MP Str := ⟨Nom.tag t, fun _ => m.prim t.length⟩

/-- `bytes::complete::tag_no_case` -/
def tagNoCase (t : Str) : MP Str := ⟨Nom.tagNoCase t, fun _ => m.prim t.length⟩

/-- `bytes::complete::take_while` looks at what it takes and at the next character. -/
def takeWhile (f : Char → Bool) : MP Str :=
  ⟨Nom.takeWhile f, fun i => m.prim ((i.takeWhile f).length + 1)⟩

/-- `bytes::complete::take_till1` -/
def takeTill1 (f : Char → Bool) : MP Str :=
  ⟨Nom.takeTill1 f, fun i => m.prim ((i.takeWhile (fun c => !f c)).length + 1)⟩

/-- `bytes::complete::is_not` for one character -/
def isNot (x : Char) : MP Str := takeTill1 m (fun c => c == x)

/-- `bytes::complete::take_until` looks at everything up to the end of the first occurrence, or at
everything. -/
def takeUntil (t : Str) : MP Str :=
  ⟨Nom.takeUntil t, fun i => m.prim (match Nom.findSub t i with
    | some (a, _) => a.length + t.length
    | none => i.length)⟩

/-- `combinator::eof` -/
def eof : MP Str := ⟨Nom.eof, fun _ => m.prim 1⟩

/-- `character::complete::line_ending` -/
def lineEnding : MP Str := ⟨Nom.lineEnding, fun _ => m.prim 2⟩

/-- `character::complete::multispace0` -/
def multispace0 : MP Str := takeWhile m (fun c => c == ' ' || c == '\t' || c == '\r' || c == '\n')

/-- `character::complete::space0` -/
def space0 : MP Str := takeWhile m (fun c => c == ' ' || c == '\t')

/-- `combinator::all_consuming` -/
def allConsuming (p : MP α) : MP α := ⟨Nom.allConsuming p.run, p.cost⟩

/-- `combinator::complete` -/
def complete (p : MP α) : MP α := p

/-- Cost of the iterations of `multi::many0`. -/
def many0Cost (p : MP α) : Nat → Str → Nat
  | 0, _ => 0
  | n + 1, i => m.seq (p.cost i) (match p.run i with
    | .ok r _ => if r.length = i.length then 0 else many0Cost p n r
    | _ => 0)

/-- `multi::many0` -/
def many0 (p : MP α) : MP (List α) := ⟨Nom.many0 p.run, fun i => many0Cost m p (i.length + 1) i⟩

/-- Cost of the iterations of `multi::many_till`. -/
def manyTillCost (f : MP α) (g : MP β) : Nat → Str → Nat
  | 0, _ => 0
  | n + 1, i => m.seq (g.cost i) (match g.run i with
    | .error => m.seq (f.cost i) (match f.run i with
      | .ok r _ => if r.length = i.length then 0 else manyTillCost f g n r
      | _ => 0)
    | _ => 0)

/-- `multi::many_till` -/
def manyTill (f : MP α) (g : MP β) : MP (List α × β) :=
  ⟨Nom.manyTill f.run g.run, fun i => manyTillCost m f g (i.length + 1) i⟩

variable [Uni]

/-- `valid_key_sequence` -/
def validKeySequence : MP Str := takeWhile m isKeyChar

/-- `property_key` looks at the first five characters before it takes the name. -/
def propertyKey : MP Str :=
  ⟨Ical.propertyKey, fun i => m.seq (m.prim 5)
    (if (c!"END").isPrefixOf i || (c!"BEGIN").isPrefixOf i then 0 else (validKeySequence m).cost i)⟩

omit [Uni] in
/-- `line_separated` -/
def lineSeparated (f : MP α) : MP α := delimited m (many0 m (lineEnding m)) f (many0 m (lineEnding m))

omit [Uni] in
/-- `line` -/
def line (pre : Str) (f : MP α) : MP α := lineSeparated m (complete (preceded m (tagNoCase m pre) f))

omit [Uni] in
/-- the value of a parameter -/
def paramValue : MP Str :=
  alt m (eof m) (alt m (delimited m (tag m ['"']) (isNot m '"') (tag m ['"']))
    (takeTill1 m (fun x => x == ';' || x == ':')))

/-- `pair_parameter` -/
def pairParameter : MP PParam :=
  map (fun kv => { key := kv.1, val := kv.2 })
    (preceded m (pair m (tag m [';']) (space0 m))
      (separatedPair m (validKeySequence m) (tag m ['=']) (map removeEmpty (opt (paramValue m)))))

/-- `base_parameter` -/
def baseParameter : MP PParam :=
  map (fun kv => { key := kv.1, val := kv.2 })
    (pair m (preceded m (pair m (tag m [';']) (space0 m)) (validKeySequence m))
      (map removeEmpty (opt (preceded m (tag m ['=']) (paramValue m)))))

/-- `parameter` -/
def parameter : MP PParam := alt m (pairParameter m) (baseParameter m)

/-- `parameters` -/
def parameters : MP (List PParam) := many0 m (parameter m)

omit [Uni] in
/-- the value of a property -/
def propertyRest : MP Str :=
  alt m (takeUntil m ['\r', '\n']) (alt m (takeUntil m ['\n']) (takeWhile m (fun _ => true)))

/-- name, parameters and raw value -/
def propertyParts : MP ((Str × List PParam) × Str) :=
  alt m
    (separatedPair m
      (pair m (cut (preceded m (multispace0 m) (propertyKey m))) (parameters m))
      (tag m [':'])
      (propertyRest m))
    (map (fun key => ((key, []), [])) (validKeySequence m))

/-- `property` -/
def property : MP PProp :=
  cut (map (fun x => mkProperty x.1) (pair m (propertyParts m) (opt (lineEnding m))))

/-- one element of a component body -/
def componentChild (rec : MP PComp) : MP Child :=
  cut (alt m (map Child.comp (lineSeparated m rec)) (map Child.prop (lineSeparated m (property m))))

omit [Uni] in
/-- the closing line -/
def componentEnd (name : Str) : MP Str := line m c!"END:" (cut (tag m name))

/-- The body of `component`, and the call itself. -/
def componentBody (rec : MP PComp) : MP PComp :=
  ⟨Ical.componentBody rec.run, fun i => m.call
    (m.seq ((line m c!"BEGIN:" (validKeySequence m)).cost i)
      (match Ical.line c!"BEGIN:" Ical.validKeySequence i with
      | .ok i name =>
        m.seq ((manyTill m (componentChild m rec) (componentEnd m name)).cost i)
          (match (manyTill m (componentChild m rec) (componentEnd m name)).run i with
          | .ok i _ => (many0 m (tag m ['\n'])).cost i
          | _ => 0)
      | _ => 0))⟩

/-- `component` with a recursion budget -/
def componentF : Nat → MP PComp
  | 0 => ⟨fun _ => .failure, fun _ => 0⟩
  | n + 1 => componentBody m (componentF n)

/-- `component` -/
def component : MP PComp := ⟨Ical.component, fun i => (componentF m (i.length + 1)).cost i⟩

/-- `components` -/
def components : MP (List PComp) := complete (many0 m (allConsuming (component m)))

end MP

variable [Uni]

/-- Number of steps taken by `read_calendar` (`read_components`, `read_calendar_simple`) on a text. -/
def readSteps (i : Str) : Nat := (MP.components .steps).cost i

/-- Number of nested calls of `component` made by `read_calendar` on a text. -/
def readDepth (i : Str) : Nat := (MP.components .depth).cost i

end Ical
