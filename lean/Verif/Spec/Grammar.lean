import Verif.Spec.Foreign

/-!
Specification of which texts stand for a parsed tree: a grammar for everything the reader accepts, including
what no well-formed document contains (blank lines, lines without value, white space before names, text directly after
an END line).
-/

namespace Ical.Spec

open Ical

variable [Uni]

/-- The text of a parameter, `f` being what follows it: a semicolon, blanks, the name and maybe an equals sign and a
value. Without value or with an empty one it has none; the value is put in quotes or, if there is no text in quotes,
reaches to the next colon or semicolon. -/
def ParamReads (p : PParam) (t f : Str) : Prop :=
  IsName p.key ∧ ∃ blanks form, (∀ c ∈ blanks, c = ' ' ∨ c = '\t') ∧ t = ';' :: blanks ++ p.key ++ form ∧
    match p.val with
    | none => form = [] ∨ form = ['=']
    | some v => v ≠ [] ∧ ((form = '=' :: '"' :: v ++ ['"'] ∧ '"' ∉ v) ∨
        (form = '=' :: v ∧ ':' ∉ v ∧ ';' ∉ v ∧ ∀ w, w ≠ [] → '"' ∉ w → ¬ '"' :: w ++ ['"'] <+: v ++ f))

/-- The texts of parameters, one after the other. -/
def ParamsRead : List PParam → Str → Str → Prop
  | [], t, _ => t = []
  | p :: l, t, f => ∃ a b, ParamReads p a (b ++ f) ∧ ParamsRead l b f ∧ t = a ++ b

/-- A value says what a raw text says: verbatim, or read as TEXT if that is its type (from left to right if reading it is
not hampered by C10). -/
def ValueReads (p : PProp) (raw : Str) : Prop :=
  (¬ IsTextFor p.name ((p.params.find? (fun q => q.key == c!"VALUE")).bind PParam.val) → p.val = raw) ∧
  (IsTextFor p.name ((p.params.find? (fun q => q.key == c!"VALUE")).bind PParam.val) →
    p.val = unescaped raw ∧ (NoDoubleRead raw → p.val = readText raw))

/-- The text of a property, `f` being what follows it: maybe white space, the name, parameters, a colon, a value up to
the end of the line and the line break; or only a name, that ends there, and maybe a line break. -/
def PropReads (p : PProp) (t f : Str) : Prop :=
  IsName p.name ∧ ¬ c!"END" <+: p.name ∧ ¬ c!"BEGIN" <+: p.name ∧
  ((∃ white params raw br, (∀ c ∈ white, c = ' ' ∨ c = '\t' ∨ c = '\r' ∨ c = '\n') ∧
      ParamsRead p.params params (':' :: raw ++ br ++ f) ∧
      ¬ ['\r', '\n'] <:+: raw ∧ (br = ['\r', '\n'] ∨ br = ['\n'] ∧ '\n' ∉ raw ∨ br = [] ∧ '\n' ∉ raw ∧ f = []) ∧
      ValueReads p raw ∧ t = white ++ p.name ++ params ++ ':' :: raw ++ br) ∨
    (p.params = [] ∧ p.val = [] ∧ ∃ br, (br = ['\r', '\n'] ∨ br = ['\n'] ∨ br = []) ∧ t = p.name ++ br ∧
      ∀ c ∈ (br ++ f).head?, ¬ NameChar c ∧ c ≠ ':'))

mutual
/-- The text of a component, `f` being what follows it: blank lines, BEGIN and the name, the body, blank lines, END and
the name, blank lines. -/
inductive CompReads : PComp → Str → Str → Prop
  | mk {n : Str} {props : List PProp} {comps : List PComp} {lead b gap body last e trail f : Str} :
    Blank lead → b.map lowerAscii = c!"begin:" → IsName n →
    (∀ c ∈ (gap ++ (body ++ (last ++ e ++ n ++ trail ++ f))).head?, ¬ NameChar c) →
    Blank gap → BodyReads props comps body (last ++ e ++ n ++ trail ++ f) → Blank last →
    e.map lowerAscii = c!"end:" → Blank trail →
    CompReads (.mk n props comps) (lead ++ b ++ n ++ gap ++ body ++ last ++ e ++ n ++ trail) f
/-- The text between BEGIN and END: properties and components, each with blank lines around it. -/
inductive BodyReads : List PProp → List PComp → Str → Str → Prop
  | nil {f : Str} : BodyReads [] [] [] f
  | prop {p : PProp} {props : List PProp} {comps : List PComp} {lead t trail rest f : Str} :
    Blank lead → PropReads p t (trail ++ (rest ++ f)) → Blank trail → BodyReads props comps rest f →
    BodyReads (p :: props) comps (lead ++ t ++ trail ++ rest) f
  | comp {c : PComp} {props : List PProp} {comps : List PComp} {lead t trail rest f : Str} :
    Blank lead → CompReads c t (trail ++ (rest ++ f)) → Blank trail → BodyReads props comps rest f →
    BodyReads props (c :: comps) (lead ++ t ++ trail ++ rest) f
end

end Ical.Spec
