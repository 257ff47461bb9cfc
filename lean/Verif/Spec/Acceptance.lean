import Verif.Spec.Grammar

/-!
Specification of exactly which texts the reader accepts and as what, which ones it gives up on and which ones it
rejects. Unlike the grammar in `Spec/Grammar.lean`, which only says what was read, this one also says what comes first if a
text could be taken in more than one way. As there, a text is always followed by some text `f`.
-/

namespace Ical.Spec

open Ical

/-- The first character, if there is one. -/
def First (P : Char → Prop) (f : Str) : Prop := ∀ c, f.head? = some c → P c

/-- No line break comes next. -/
def NoBreak (f : Str) : Prop := ¬ ['\n'] <+: f ∧ ¬ ['\r', '\n'] <+: f

/-- A text starts with a keyword, given in lower case, in whatever case. -/
def Begins (k i : Str) : Prop := ∃ b rest, i = b ++ rest ∧ b.map lowerAscii = k

/-- White space. -/
def Space (c : Char) : Prop := c = ' ' ∨ c = '\t' ∨ c = '\r' ∨ c = '\n'

/-- A text that starts, after white space, with END or BEGIN in capitals. -/
def Keyword (i : Str) : Prop :=
  ∃ white s, (∀ c ∈ white, Space c) ∧ i = white ++ s ∧ (c!"END" <+: s ∨ c!"BEGIN" <+: s)

variable [Uni]

/-- The text of a parameter: a semicolon, as many blanks as there are, the longest name there is and maybe an equals
sign and a value. The value is put in quotes or, if there is no text in quotes, reaches to the next colon or semicolon. -/
def ParamIs (p : PParam) (t f : Str) : Prop :=
  IsName p.key ∧ ∃ blanks form, (∀ c ∈ blanks, c = ' ' ∨ c = '\t') ∧ t = ';' :: blanks ++ p.key ++ form ∧
    First (fun c => c ≠ ' ' ∧ c ≠ '\t') (p.key ++ form ++ f) ∧ First (fun c => ¬ NameChar c) (form ++ f) ∧
    match p.val with
    | none => (form = [] ∧ First (fun c => c ≠ '=') f) ∨ (form = ['='] ∧ First (fun c => c = ':' ∨ c = ';') f)
    | some v => v ≠ [] ∧ ((form = '=' :: '"' :: v ++ ['"'] ∧ '"' ∉ v) ∨
        (form = '=' :: v ∧ ':' ∉ v ∧ ';' ∉ v ∧ First (fun c => c = ':' ∨ c = ';') f ∧
          ∀ w, w ≠ [] → '"' ∉ w → ¬ '"' :: w ++ ['"'] <+: v ++ f))

/-- The texts of all the parameters there are. -/
def ParamsAre : List PParam → Str → Str → Prop
  | [], t, f => t = [] ∧ First (fun c => c ≠ ';') f
  | p :: l, t, f => ∃ a b, ParamIs p a (b ++ f) ∧ ParamsAre l b f ∧ t = a ++ b

/-- A raw value and the line break after it. The value reaches to the next CRLF, if there is one in all the text that is
left; otherwise to the next LF, if there is one; otherwise to the end. -/
def ValueIs (raw br f : Str) : Prop :=
  (br = ['\r', '\n'] ∧ ¬ ['\r', '\n'] <:+: raw) ∨
  (br = ['\n'] ∧ '\n' ∉ raw ∧ ¬ ['\r', '\n'] <:+: raw ++ br ++ f) ∨
  (br = [] ∧ '\n' ∉ raw ∧ f = [])

/-- A text is a name with parameters and a colon, maybe after white space. -/
def HasColon (i : Str) : Prop :=
  ∃ white k ps params rest, (∀ c ∈ white, Space c) ∧ IsName k ∧ ParamsAre ps params (':' :: rest) ∧
    i = white ++ k ++ params ++ ':' :: rest

/-- The text of a property: white space, the name, parameters, a colon, a value and a line break; or, if the text does not
look like that, only a name and the line break if there is one. No property starts with END or BEGIN. -/
def PropIs (p : PProp) (t f : Str) : Prop :=
  IsName p.name ∧ ¬ Keyword (t ++ f) ∧
  ((∃ white params raw br, (∀ c ∈ white, Space c) ∧ ParamsAre p.params params (':' :: raw ++ br ++ f) ∧
      ValueIs raw br f ∧
      p.val = (if IsTextFor p.name ((p.params.find? (fun q => q.key == c!"VALUE")).bind PParam.val) then unescaped raw
        else raw) ∧
      t = white ++ p.name ++ params ++ ':' :: raw ++ br) ∨
    (p.params = [] ∧ p.val = [] ∧ ¬ HasColon (t ++ f) ∧ ∃ br, t = p.name ++ br ∧
      First (fun c => ¬ NameChar c) (br ++ f) ∧ (br = ['\r', '\n'] ∨ br = ['\n'] ∨ br = [] ∧ NoBreak f)))

mutual
/-- The text of a component: BEGIN and the name, line breaks, the body, END and the name, line breaks. -/
inductive CompIs : PComp → Str → Str → Prop
  | mk {n : Str} {props : List PProp} {comps : List PComp} {b gap body e trail f : Str} :
    b.map lowerAscii = c!"begin:" → IsName n →
    First (fun c => ¬ NameChar c) (gap ++ (body ++ (e ++ (n ++ (trail ++ f))))) →
    Blank gap → NoBreak (body ++ (e ++ (n ++ (trail ++ f)))) →
    BodyIs props comps body (e ++ (n ++ (trail ++ f))) →
    e.map lowerAscii = c!"end:" → Blank trail → NoBreak f →
    CompIs (.mk n props comps) (b ++ (n ++ (gap ++ (body ++ (e ++ (n ++ trail)))))) f
/-- The text between BEGIN and END. What starts with END is no element of it; what starts with BEGIN is a property
only if it is not a component and nothing but `Stuck` is wrong with it. -/
inductive BodyIs : List PProp → List PComp → Str → Str → Prop
  | nil {f : Str} : BodyIs [] [] [] f
  | prop {p : PProp} {props : List PProp} {comps : List PComp} {t trail rest f : Str} :
    ¬ Begins c!"end:" (t ++ (trail ++ (rest ++ f))) → ¬ Begins c!"begin:" (t ++ (trail ++ (rest ++ f))) →
    PropIs p t (trail ++ (rest ++ f)) → t ≠ [] → Blank trail → NoBreak (rest ++ f) → BodyIs props comps rest f →
    BodyIs (p :: props) comps (t ++ (trail ++ rest)) f
  | stuck {p : PProp} {props : List PProp} {comps : List PComp} {t trail rest f : Str} :
    Stuck (t ++ (trail ++ (rest ++ f))) →
    PropIs p t (trail ++ (rest ++ f)) → t ≠ [] → Blank trail → NoBreak (rest ++ f) → BodyIs props comps rest f →
    BodyIs (p :: props) comps (t ++ (trail ++ rest)) f
  | comp {c : PComp} {props : List PProp} {comps : List PComp} {t rest f : Str} :
    CompIs c t (rest ++ f) → BodyIs props comps rest f → BodyIs props (c :: comps) (t ++ rest) f
/-- A component that is not closed: after some elements there comes a text that has no name and no colon, or the end. -/
inductive Stuck : Str → Prop
  | mk {n : Str} {props : List PProp} {comps : List PComp} {b gap body f : Str} :
    b.map lowerAscii = c!"begin:" → IsName n → First (fun c => ¬ NameChar c) (gap ++ (body ++ f)) → Blank gap →
    NoBreak (body ++ f) → BodyIs props comps body f → PropIs ⟨[], [], []⟩ [] f →
    Stuck (b ++ (n ++ (gap ++ (body ++ f))))
end

/-- A text in which reading fails: after some elements of a component there comes an END with another name, or a
text that starts with END or BEGIN in capitals and does not end or start a component, or a component
in which reading fails. -/
inductive Broken : Str → Prop
  | close {n : Str} {props : List PProp} {comps : List PComp} {b gap body e f : Str} :
    b.map lowerAscii = c!"begin:" → IsName n → First (fun c => ¬ NameChar c) (gap ++ (body ++ (e ++ f))) → Blank gap →
    NoBreak (body ++ (e ++ f)) → BodyIs props comps body (e ++ f) → e.map lowerAscii = c!"end:" → ¬ n <+: f →
    Broken (b ++ (n ++ (gap ++ (body ++ (e ++ f)))))
  | word {n : Str} {props : List PProp} {comps : List PComp} {b gap body f : Str} :
    b.map lowerAscii = c!"begin:" → IsName n → First (fun c => ¬ NameChar c) (gap ++ (body ++ f)) → Blank gap →
    NoBreak (body ++ f) → BodyIs props comps body f → Keyword f → ¬ Begins c!"end:" f →
    (Begins c!"begin:" f → Stuck f) → Broken (b ++ (n ++ (gap ++ (body ++ f))))
  | inner {n : Str} {props : List PProp} {comps : List PComp} {b gap body f : Str} :
    b.map lowerAscii = c!"begin:" → IsName n → First (fun c => ¬ NameChar c) (gap ++ (body ++ f)) → Blank gap →
    NoBreak (body ++ f) → BodyIs props comps body f → Broken f → Broken (b ++ (n ++ (gap ++ (body ++ f))))

end Ical.Spec
