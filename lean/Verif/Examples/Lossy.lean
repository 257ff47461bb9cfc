import Verif.Examples.Octets
import Verif.Props.Lossy

/-!
Applications of the theorems about lossy decoding (C139).
-/

namespace Ical.Sample

open Nom Spec

/-- the first octet of `ä`, and the rest of it after the fold -/
theorem split_lossy : LossyDecoded [0x61, 0xC3, 13, 10, 32, 0xA4] ['a', lostChar, '\r', '\n', ' ', lostChar] := by
  refine .char (c := 'a') (.lost (p := [0xC3]) ?_ (.inl rfl) ?_ (.char (c := '\r') (.char (c := '\n') (.char (c := ' ')
    (.lost (p := [0xA4]) (o := []) ?_ (.inl rfl) (by simp) .nil)))))
  · intro c r h
    obtain ⟨x, t, h1, -, h2, h3, -⟩ := charOctets_shape c
    rw [h1, List.cons_append, List.cons_append, List.cons.injEq] at h
    obtain ⟨rfl, h⟩ := h
    cases t with
    | nil => simp [more] at h2
    | cons y t =>
      have := h3 y (by simp)
      change 13 :: _ = y :: _ at h
      simp only [List.cons.injEq] at h
      omega
  · intro x r h c v hc
    obtain ⟨y, t, h1, -, h2, h3, -⟩ := charOctets_shape c
    rw [h1, List.cons_append, List.cons.injEq] at hc
    obtain ⟨rfl, rfl⟩ := hc
    change 13 :: _ = x :: _ at h
    simp only [List.cons.injEq] at h
    have := h3 x (by simp)
    omega
  · intro c r h
    obtain ⟨x, t, h1, h2⟩ := first_octet c
    rw [h1, List.cons_append, List.cons_append, List.cons.injEq] at h
    omega

example := lossy_function [0x61, 0xC3, 13, 10, 32, 0xA4]

example := lossy_text (br := .crlf) (s := c!"aä") (by decide) nofun split_folded split_lossy

/-- the character is damaged, and nothing else -/
example : DamagedText c!"aä" ['a', lostChar, lostChar] := ⟨1, .keep (.lost (k := 2) (by decide) (by decide) (by decide) .nil)⟩

example := damaged_read (s := c!"aä") ⟨1, .keep (.lost (k := 2) (by decide) (by decide) (by decide) .nil)⟩

def umlaut : List Item := [.prop c!"NAME" [⟨c!"X", some (true, c!"ä")⟩] c!"ä"]

theorem umlaut_ok : (Item.comp c!"BEGIN:" c!"END:" c!"VCALENDAR" umlaut).Ok .crlf := by
  simp only [umlaut, Item.Ok, ItemsOk, ValOk, DParam.Ok, and_true, List.forall_mem_cons, List.not_mem_nil, false_implies,
    implies_true]
  repeat' apply And.intro
  all_goals decide +kernel

theorem umlaut_names : (Item.comp c!"BEGIN:" c!"END:" c!"VCALENDAR" umlaut).NamesAre Ascii AnyValue := by
  simp only [umlaut, Item.NamesAre, ItemsNamesAre]
  decide +kernel

theorem fold_at (br : Break) (a b : List Nat) : OctetFolded br (a ++ b) (a ++ (breakOctets br ++ 32 :: b)) :=
  folded_keep a (.fold (.inl rfl) (octetFolded_self br b))

def umlautFile : Str := (Item.comp c!"BEGIN:" c!"END:" c!"VCALENDAR" umlaut).text .crlf

/-- the file is folded inside of the first `ä` -/
theorem umlaut_folded : OctetFolded .crlf (octetUnfold (octets umlautFile))
    ((octets umlautFile).take 26 ++ (breakOctets .crlf ++ 32 :: (octets umlautFile).drop 26)) := by
  have h := fold_at .crlf ((octets umlautFile).take 26) ((octets umlautFile).drop 26)
  rw [List.take_append_drop] at h
  rw [show octetUnfold (octets umlautFile) = octets umlautFile by decide +kernel]
  exact h

example : ((octets umlautFile).take 26).getLast? = some 0xC3 ∧ ((octets umlautFile).drop 26).head? = some 0xA4 := by
  decide +kernel

example := lossy_document umlaut_ok umlaut_names (presents (br := .crlf) ✓ nofun) (by decide +kernel) umlaut_folded
  (lossy_exists _).choose_spec

example := lossy_calendar umlaut_ok umlaut_names (presents (br := .crlf) ✓ nofun) (by decide +kernel) umlaut_folded
  (lossy_exists _).choose_spec

instance (K : Str → Prop) [DecidablePred K] (T : Str → Str → Prop) [DecidableRel T] (p : Property) : Decidable (NamesAreProp K T p) :=
  decidable_of_iff (K p.key ∧ ∀ x ∈ p.params, K x.1 ∧ T x.1 x.2) ⟨fun h => ⟨h.1, h.2⟩, fun h => ⟨h.key, h.params⟩⟩

theorem c_asciiNames : NamesAreCal Ascii AnyValue c :=
  ⟨by decide +kernel, c_comps ⟨by decide +kernel, by decide +kernel, by decide +kernel,
      ⟨by decide +kernel, by decide +kernel, by decide +kernel, trivial⟩, trivial⟩
    ⟨by decide +kernel, by decide +kernel, by decide +kernel, trivial⟩
    ⟨by decide +kernel, by decide +kernel, by decide +kernel, trivial⟩
    ⟨by decide +kernel, by decide +kernel, by decide +kernel, trivial⟩⟩

example := lossy_written c_ok c_safe c_stamps c_asciiNames w_ok c_text
  (.fold (.inl rfl) (octetFolded_self .crlf (octetUnfold (octets cText)))) (lossy_exists _).choose_spec

/-- a name that is not in ASCII would not be a name any more -/
example : ¬ IsName ['X', lostChar] := by decide +kernel

end Ical.Sample
