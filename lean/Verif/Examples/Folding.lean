import Verif.Examples.Samples
import Verif.Props.ContentLine
import Verif.Props.Escaping
import Verif.Props.FoldExact
import Verif.Props.FoldFill
import Verif.Props.FoldWork
import Verif.Props.Folding
import Verif.Props.Injective
import Verif.Props.OwnLine
import Verif.Props.OwnText
import Verif.Props.ParamLists
import Verif.Props.Parameter
import Verif.Props.Params
import Verif.Props.PropertyRoundtrip
import Verif.Props.Sizes
import Verif.Props.Strict
import Verif.Props.StrictDocs

/-! The theorems about folding and about single properties, applied to concrete ones. -/

namespace Ical.Sample

open Nom Spec

/-- a line that is folded twice -/
def line : Str := c!"SUMMARY:The meeting of all members of the society in the large hall of the townhall on the market place, with dinner, and with music afterwards, until late"

def lineOut : Str := c!"SUMMARY:The meeting of all members of the society in the large hall of the \r\n townhall on the market place, with dinner, and with music afterwards, unti\r\n l late"

theorem line_out : foldLine line = .ok lineOut := ✓

/-- one without white space -/
def solid : Str := c!"X-URL:http://example.com/aaaaaaaaaaaaaaaaaaaaaaaaaaaaaaaaaaaaaaaaaaaaaaaaaaaaaaaaaaaaaaaaaaaa/bbbbbbbbbbbbbbbbbbbbbbbbbb"

def solidOut : Str := solid.take 75 ++ c!"\r\n " ++ solid.drop 75

theorem solid_out : foldLine solid = .ok solidOut := ✓

theorem solid_cuts : Cuts 75 solid [solid.take 75, solid.drop 75] :=
  .cut 75 (solid.take 75) 'a' (solid.drop 76) [solid.drop 75] ✓ ✓ ✓ ✓ (.last _ _ ✓)

theorem p_marker : ∀ line, ContentLine p line → MarkerFree line :=
  fun _ h => markerFree_of_noLf (contentLine_noLf ✓ ✓ (.inl ✓) h)

theorem p_pairwise : p.params.Pairwise (fun a b => strCmp a.1 b.1 = .lt) := ✓

-- C01
example := fold_unfold line lineOut ✓ line_out
example := written_unfold p p_marker w w_ok pText p_text
-- C02
example := fold_octets_partial line lineOut ✓ line_out
example := written_octets_partial p ✓ ✓ (.inl ✓) w w_ok pText p_text
example := fold_too_long_iff line lineOut ✓ line_out
example := fold_too_long_iff_partial solid solidOut (by simp only [IsAscii]; decide +kernel) ✓ solid_out
example := fold_too_long_cuts_partial solid solidOut _ (.inr ✓) ✓ solid_cuts solid_out
-- C03
example := fold_finishes_ascii_partial line (by simp only [IsAscii]; decide +kernel)
example := fold_finishes_noWs_partial solid (.inl ✓)
/-- long words, some with wide letters -/
def wide : Str := c!"SUMMARY:ääääääääääääääääääääääääääääääääääääääääääääääääääääääää ö öööööööööööööööööööööööööööööööööööööööööööööööööö"

theorem wide_count (k : Nat) (hk : wide.countP isWhitespace ≤ k) (a v b : Str) (h : wide = a ++ v ++ b) :
    v.countP isWhitespace ≤ k := by
  rw [h, List.countP_append, List.countP_append] at hk
  omega

example := fold_finishes_width_partial 2 wide (by decide) ✓ (fun a v b h _ => by
  have := wide_count 2 ✓ a v b h
  omega)
example := fold_finishes_window_partial wide (fun a v b h _ => wide_count 17 ✓ a v b h)
-- C04
example := fold_pieces line lineOut line_out
example := written_property p w w_ok pText p_text
-- C05
example := fold_short c!"SUMMARY:short" ✓
example := fold_long line lineOut ✓ line_out
example := written_short p w w_ok pText p_text
-- C07
example := unfold_any_folding c!"SUMMARY:ab" [(.lfTab, c!" c\r"), (.crlfSp, c!"d\n")] ✓ ✓ (by simp only [CrSafe]; decide +kernel)
-- C11
example := value_type_agreement p p_pairwise p.params.reverse (List.reverse_perm _)
example := value_type_agreement_written p w w_ok ✓ ✓ ✓ ✓ ✓ pText p_text
-- C12
example := property_roundtrip p w w_ok ✓ ✓ ✓ ✓ ✓ ✓ pText p_text
example := property_from_str ⟨c!"SUMMARY", c!"a, b", [(c!"LANGUAGE", c!"en")]⟩ w w_ok ✓ ✓ ✓ ✓ ✓ ✓ ✓
-- C13
example := parameter_order p w w' w_ok w'_ok ✓ ✓ ✓ ✓ ✓ pText pText' p_text p_text'
-- C14
example := param_value_partial c!"CN" c!"A; B" ✓ ✓
example := param_value_empty c!"CN" ✓ c!":x" ✓
-- C15
example := text_one_line p w w_ok ✓ ✓ ✓ pText p_text
-- C57
example := escape_injective c!"a, b" c!"a, b" rfl
-- C64
example := parameters_written_once c!"X-A" c!"v" [(c!"CN", c!"A"), (c!"CN", c!"B; C")] w w_ok ✓ ✓ ✓
  c!"X-A;CN=\"B; C\":v\r\n" ✓
-- C79
example := fold_cuts_partial solid (.inl (by simp only [IsAscii]; decide +kernel))
example := cuts_unique (w := 75) (by decide) solid_cuts solid_cuts
example := fold_fill_partial line lineOut ✓ line_out
-- C82
example := write_property_size p w w_ok p_text
-- C86
example := write_steps_partial p w pText p_text
example := write_steps_tight ⟨c!"SUMMARY", line, [(c!"X", c!"y")]⟩ w (by simp only [IsAscii]; decide +kernel)
example := write_steps_violated w w_ok 3
-- C92
example := write_property_injective p p p_ok p_ok w w w_ok w_ok pText p_text p_text
-- C110
example := strict_property_iff p w w_ok pText p_text
-- C115
def short : Property := ⟨c!"SUMMARY", c!"a, b", [(c!"LANGUAGE", c!"en")]⟩

example := own_text_read p w ✓ ✓ (by simp only [IsAscii]; decide +kernel) ✓ ✓ pText p_text
example := own_text_iff p w w_ok ✓ ✓ (by simp only [IsAscii]; decide +kernel) ✓ ✓ ✓ ✓ ✓ pText p_text
example := own_text_partial short w w_ok ✓ ✓ (by simp only [IsAscii]; decide +kernel) ✓ ✓ ✓ ✓ ✓
  c!"SUMMARY;LANGUAGE=en:a\\, b\r\n" ✓ ⟨c!"SUMMARY", c!"a, b", [⟨c!"LANGUAGE", some c!"en"⟩]⟩ ✓
-- C118
example := property_survives_iff p p_pairwise w w_ok pText p_text
example := plain_property_survives_iff p p_pairwise ✓ p_marker w w_ok pText p_text

theorem short_lines : ∀ line, ContentLine short line → blen line ≤ 75 := by
  rintro _ ⟨params, forms, hp, hf, rfl⟩
  obtain rfl : params = [(c!"LANGUAGE", c!"en")] := List.perm_singleton.1 hp
  cases forms with
  | nil => cases hf
  | cons t forms =>
    cases forms with
    | cons _ _ => cases hf.2
    | nil =>
      obtain ⟨hf, -⟩ := hf
      unfold ParamForm at hf
      subst hf
      decide +kernel

example := short_property_survives_iff short ✓ short_lines w w_ok c!"SUMMARY;LANGUAGE=en:a\\, b\r\n" ✓
-- C121
example := parameter_survives_iff (k := c!"CN") (v := c!"A; B") (t := c!";CN=\"A; B\"") (by unfold ParamForm; decide +kernel)

end Ical.Sample
