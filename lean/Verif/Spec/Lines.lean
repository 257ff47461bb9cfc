import Verif.Model.Basic

/-!
Specification of content-line folding (RFC 5545, section 3.1), independent of the code.
-/

namespace Ical.Spec

open Ical

/-- The four fold markers: a line break (CRLF or bare LF) followed by one space or tab. -/
inductive Marker
  | crlfSp | crlfTab | lfSp | lfTab
  deriving DecidableEq, Repr

/-- The text of a marker. -/
def Marker.text : Marker → Str
  | .crlfSp => ['\r', '\n', ' ']
  | .crlfTab => ['\r', '\n', '\t']
  | .lfSp => ['\n', ' ']
  | .lfTab => ['\n', '\t']

/-- Markers that start with a bare LF. -/
def Marker.isLf : Marker → Bool
  | .lfSp | .lfTab => true
  | _ => false

/-- Reading a folded text: at each position, if a marker starts there drop it, else keep the character.
One left-to-right pass. -/
def unfoldSpec : Str → Str
  | [] => []
  | '\r' :: '\n' :: ' ' :: s => unfoldSpec s
  | '\r' :: '\n' :: '\t' :: s => unfoldSpec s
  | '\n' :: ' ' :: s => unfoldSpec s
  | '\n' :: '\t' :: s => unfoldSpec s
  | c :: s => c :: unfoldSpec s

/-- No fold marker occurs in the text (every marker contains one of these two). -/
def MarkerFree (s : Str) : Prop := ¬ ['\n', ' '] <:+: s ∧ ¬ ['\n', '\t'] <:+: s

/-- A text cut into pieces and rejoined with markers. -/
def joinMarked (p : Str) (rest : List (Marker × Str)) : Str :=
  p ++ (rest.map (fun mp => mp.1.text ++ mp.2)).flatten

/-- The text the pieces came from. -/
def unmarked (p : Str) (rest : List (Marker × Str)) : Str := p ++ (rest.map Prod.snd).flatten

/-- No piece that is followed by a bare-LF marker ends in CR. -/
def CrSafe : Str → List (Marker × Str) → Prop
  | _, [] => True
  | p, (m, q) :: rest => (m.isLf = true → ¬ ['\r'] <:+ p) ∧ CrSafe q rest

/-- Pieces joined by CR LF SPACE. -/
def joinFold : List Str → Str
  | [] => []
  | [p] => p
  | p :: q :: ps => p ++ ['\r', '\n', ' '] ++ joinFold (q :: ps)

/-- An ASCII character: one octet in UTF-8. -/
def IsAscii (c : Char) : Prop := c.toNat < 128

/-- The physical lines of a text: cut at every CRLF. -/
def physicalLines : Str → List Str
  | [] => [[]]
  | '\r' :: '\n' :: s => [] :: physicalLines s
  | c :: s =>
    match physicalLines s with
    | [] => [[c]]
    | l :: ls => (c :: l) :: ls

/-- The characters with the Unicode property White_Space, by code point. -/
def White (c : Char) : Prop :=
  c.toNat ∈ [0x9, 0xA, 0xB, 0xC, 0xD, 0x20, 0x85, 0xA0, 0x1680, 0x2000, 0x2001, 0x2002, 0x2003, 0x2004, 0x2005, 0x2006,
    0x2007, 0x2008, 0x2009, 0x200A, 0x2028, 0x2029, 0x202F, 0x205F, 0x3000]

end Ical.Spec
