import Verif.Model.Json

/-!
C127: the texts of a JSON value (RFC 8259), and how deep a component stands in a calendar.
-/

namespace Ical.Spec

/-- White space of RFC 8259. -/
def JsonSpace (w : Str) : Prop := ∀ c ∈ w, c = ' ' ∨ c = '\n' ∨ c = '\t' ∨ c = '\r'

/-- `h` is the hexadecimal digit for `v`. -/
def HexDigit (h : Char) (v : Nat) : Prop :=
  (h, v) ∈ (c!"0123456789abcdef").zip (List.range 16) ∨ (h, v) ∈ (c!"0123456789ABCDEF").zip (List.range 16)

/-- `t` are four hexadecimal digits for `n`. -/
def Hex4 (t : Str) (n : Nat) : Prop :=
  ∃ a b c d va vb vc vd, t = [a, b, c, d] ∧ HexDigit a va ∧ HexDigit b vb ∧ HexDigit c vc ∧ HexDigit d vd ∧
    n = va * 4096 + vb * 256 + vc * 16 + vd

/-- `t` may stand for the character `c` inside a JSON string. -/
inductive SpeltChar : Char → Str → Prop
  | plain (c : Char) : 0x20 ≤ c.toNat → c ≠ '"' → c ≠ '\\' → SpeltChar c [c]
  | quote : SpeltChar '"' c!"\\\""
  | backslash : SpeltChar '\\' c!"\\\\"
  | slash : SpeltChar '/' c!"\\/"
  | backspace : SpeltChar (Char.ofNat 8) c!"\\b"
  | formFeed : SpeltChar (Char.ofNat 12) c!"\\f"
  | lineFeed : SpeltChar '\n' c!"\\n"
  | return : SpeltChar '\r' c!"\\r"
  | tab : SpeltChar '\t' c!"\\t"
  | code (c : Char) (t : Str) : Hex4 t c.toNat → SpeltChar c (c!"\\u" ++ t)
  | pair (c : Char) (hi lo : Nat) (t u : Str) : hi < 0x400 → lo < 0x400 → c.toNat = 0x10000 + hi * 0x400 + lo →
      Hex4 t (0xD800 + hi) → Hex4 u (0xDC00 + lo) → SpeltChar c (c!"\\u" ++ t ++ c!"\\u" ++ u)

/-- `t` may stand for the text `s` between quotation marks. -/
inductive Spelt : Str → Str → Prop
  | nil : Spelt [] []
  | cons (c : Char) (t s u : Str) : SpeltChar c t → Spelt s u → Spelt (c :: s) (t ++ u)

/-- One or more decimal digits. -/
def JsonDigits (t : Str) : Prop := t ≠ [] ∧ ∀ c ∈ t, c ∈ c!"0123456789"

/-- A number: an optional minus sign, digits without leading zeros, an optional fraction and an optional exponent. -/
def NumberText (t : Str) : Prop :=
  ∃ sign whole frac exp, t = sign ++ whole ++ frac ++ exp ∧ (sign = [] ∨ sign = ['-']) ∧
    (whole = ['0'] ∨ JsonDigits whole ∧ whole.head? ≠ some '0') ∧
    (frac = [] ∨ ∃ d, frac = ['.'] ++ d ∧ JsonDigits d) ∧
    (exp = [] ∨ ∃ e sg d, exp = e ++ sg ++ d ∧ (e = ['e'] ∨ e = ['E']) ∧ (sg = [] ∨ sg = ['+'] ∨ sg = ['-']) ∧
      JsonDigits d)

mutual
/-- `t` is a text of the value `j`. -/
inductive TextOf : Json → Str → Prop
  | null : TextOf .null c!"null"
  | true : TextOf (.bool true) c!"true"
  | false : TextOf (.bool false) c!"false"
  | number (t : Str) : NumberText t → TextOf (.number t) t
  | string (s t : Str) : Spelt s t → TextOf (.string s) (['"'] ++ t ++ ['"'])
  | emptyArray (w : Str) : JsonSpace w → TextOf (.array []) (['['] ++ w ++ [']'])
  | array (l : List Json) (t : Str) : ItemsOf l t → TextOf (.array l) (['['] ++ t ++ [']'])
  | emptyObject (w : Str) : JsonSpace w → TextOf (.object []) (['{'] ++ w ++ ['}'])
  | object (l : List (Str × Json)) (t : Str) : EntriesOf l t → TextOf (.object l) (['{'] ++ t ++ ['}'])
/-- `t` is a text of one or more elements. -/
inductive ItemsOf : List Json → Str → Prop
  | one (j : Json) (w t w' : Str) : JsonSpace w → TextOf j t → JsonSpace w' → ItemsOf [j] (w ++ t ++ w')
  | cons (j : Json) (l : List Json) (w t w' u : Str) : JsonSpace w → TextOf j t → JsonSpace w' → ItemsOf l u →
      ItemsOf (j :: l) (w ++ t ++ w' ++ [','] ++ u)
/-- `t` is a text of one or more entries. -/
inductive EntriesOf : List (Str × Json) → Str → Prop
  | one (k : Str) (j : Json) (w s w' v t w'' : Str) : JsonSpace w → Spelt k s → JsonSpace w' → JsonSpace v → TextOf j t → JsonSpace w'' →
      EntriesOf [(k, j)] (w ++ (['"'] ++ s ++ ['"']) ++ w' ++ [':'] ++ v ++ t ++ w'')
  | cons (k : Str) (j : Json) (l : List (Str × Json)) (w s w' v t w'' u : Str) : JsonSpace w → Spelt k s → JsonSpace w' →
      JsonSpace v → TextOf j t → JsonSpace w'' → EntriesOf l u →
      EntriesOf ((k, j) :: l) (w ++ (['"'] ++ s ++ ['"']) ++ w' ++ [':'] ++ v ++ t ++ w'' ++ [','] ++ u)
end

/-- `s` is a JSON text of the value `j`. -/
def JsonTextOf (j : Json) (s : Str) : Prop := ∃ w t w', s = w ++ t ++ w' ∧ JsonSpace w ∧ TextOf j t ∧ JsonSpace w'

/-- The component `x` stands at level `d`, counted from 1, below the components `l`. -/
inductive AtLevel : List PComp → Nat → PComp → Prop
  | here (l : List PComp) (x : PComp) : x ∈ l → AtLevel l 1 x
  | deeper (l : List PComp) (y : PComp) (d : Nat) (x : PComp) : y ∈ l → AtLevel y.comps d x → AtLevel l (d + 1) x

/-- No component stands deeper than level 61, or 62 if it has no properties. -/
def Shallow (c : PCal) : Prop := ∀ d x, AtLevel c.comps d x → d ≤ 61 ∨ d = 62 ∧ x.props = []

end Ical.Spec
