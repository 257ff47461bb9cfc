import Verif.Spec.LineOrder
import Verif.Spec.Writable
import Verif.Model.Calendar

/-!
Specification of what programs may do to a calendar file on its way without changing what it says.
-/

namespace Ical.Spec

open Ical

/-- The parameters say the same: for each name the same value, and the same type of the value. -/
def SameParams (ps qs : List DParam) : Prop :=
  (∀ n, (ps.reverse.find? (fun d => d.key == n)).map DParam.value = (qs.reverse.find? (fun d => d.key == n)).map DParam.value) ∧
  (ps.find? (fun d => d.key == c!"VALUE")).map DParam.value = (qs.find? (fun d => d.key == c!"VALUE")).map DParam.value

/-- The same value, or two ways to write the same TEXT. -/
def SameValue (k : Str) (ps : List DParam) (v v' : Str) : Prop :=
  v = v' ∨ (IsTextFor k ((ps.find? (fun d => d.key == c!"VALUE")).map DParam.value) ∧ NoDoubleRead v ∧ NoDoubleRead v' ∧
    readText v = readText v')

mutual
/-- Two elements that say the same line by line: the parameters may be in another order and quoted or not, TEXT may be
escaped differently, the keywords may be in other letters. -/
inductive SameSaid : Item → Item → Prop
  | prop {k ps qs v v'} (params : SameParams ps qs) (val : SameValue k ps v v') : SameSaid (.prop k ps v) (.prop k qs v')
  | comp {b e b' e' n l l'} (items : AllSaid l l') : SameSaid (.comp b e n l) (.comp b' e' n l')
/-- see `SameSaid` -/
inductive AllSaid : List Item → List Item → Prop
  | nil : AllSaid [] []
  | cons {i i' l l'} : SameSaid i i' → AllSaid l l' → AllSaid (i :: l) (i' :: l')
end

variable [Uni]

/-- A calendar file is replaced by another one that says the same: the lines of components may be in another order, or
written differently, and the file may be laid out in any way. -/
inductive Replaced : Str → Str → Prop
  | reordered {br br' b e b' e' l l' file file'} (h : (Item.comp b e c!"VCALENDAR" l).Ok br)
    (h' : (Item.comp b' e' c!"VCALENDAR" l').Ok br') (own : ownLines l = ownLines l') (subs : SameSubs l l')
    (hf : Presents br (.comp b e c!"VCALENDAR" l) file) (hf' : Presents br' (.comp b' e' c!"VCALENDAR" l') file') :
    Replaced file file'
  | respelt {br br' b e b' e' l l' file file'} (h : (Item.comp b e c!"VCALENDAR" l).Ok br)
    (h' : (Item.comp b' e' c!"VCALENDAR" l').Ok br') (said : AllSaid l l')
    (hf : Presents br (.comp b e c!"VCALENDAR" l) file) (hf' : Presents br' (.comp b' e' c!"VCALENDAR" l') file') :
    Replaced file file'

/-- The files a calendar may have become: it is written, and then any number of programs replace the file, or read it
with this library and write it again. -/
inductive Becomes (c : Calendar) : Str → Prop
  | written {w : World} {file : Str} : World.Ok w → c.fmtWrite w = .ok file → Becomes c file
  | replaced {file file' : Str} : Becomes c file → Replaced file file' → Becomes c file'
  | reread {file file' : Str} {d : Calendar} {w : World} : Becomes c file → Calendar.fromStr file = some d → World.Ok w →
    d.fmtWrite w = .ok file' → Becomes c file'

end Ical.Spec
