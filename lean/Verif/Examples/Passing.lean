import Verif.Examples.Merge
import Verif.Props.Passing

/-!
Applications of the theorems about files that pass through other programs (C136).
-/

namespace Ical.Sample

open Nom Spec

/-- an event as one program writes it -/
def oneWay : List Item :=
  [.prop c!"VERSION" [] c!"2.0",
   .comp c!"BEGIN:" c!"END:" c!"VEVENT"
    [.prop c!"SUMMARY" [] c!"a\\, b\\nc",
     .prop c!"ATTENDEE" [⟨c!"CN", some (false, c!"A")⟩, ⟨c!"ROLE", some (true, c!"CHAIR")⟩] c!"mailto:a"]]

/-- and as another one does -/
def otherWay : List Item :=
  [.prop c!"VERSION" [] c!"2.0",
   .comp c!"begin:" c!"end:" c!"VEVENT"
    [.prop c!"SUMMARY" [] c!"a\\, b\\Nc",
     .prop c!"ATTENDEE" [⟨c!"ROLE", some (false, c!"CHAIR")⟩, ⟨c!"CN", some (true, c!"A")⟩] c!"mailto:a"]]

theorem sameParams_nil : SameParams [] [] := ⟨fun _ => rfl, rfl⟩

theorem ways_same : AllSaid oneWay otherWay := by
  refine .cons (.prop sameParams_nil (.inl rfl)) (.cons (.comp (.cons (.prop sameParams_nil (.inr ?_))
    (.cons (.prop ⟨fun n => ?_, rfl⟩ (.inl rfl)) .nil))) .nil)
  · refine ⟨by decide, ?_, ?_, by decide +kernel⟩ <;> repeat' constructor
  · by_cases h1 : c!"CN" = n
    · subst h1; decide
    · by_cases h2 : c!"ROLE" = n
      · subst h2; decide
      · simp [h1, h2]

theorem oneWay_ok : (Item.comp c!"BEGIN:" c!"END:" c!"VCALENDAR" oneWay).Ok .crlf := by
  simp only [oneWay, Item.Ok, ItemsOk, ValOk, DParam.Ok, and_true, List.forall_mem_cons, List.not_mem_nil, false_implies,
    implies_true]
  repeat' apply And.intro
  all_goals decide +kernel

theorem otherWay_ok : (Item.comp c!"Begin:" c!"End:" c!"VCALENDAR" otherWay).Ok .lf := by
  simp only [otherWay, Item.Ok, ItemsOk, ValOk, DParam.Ok, and_true, List.forall_mem_cons, List.not_mem_nil, false_implies,
    implies_true]
  repeat' apply And.intro
  all_goals decide +kernel

example := respelt_same oneWay_ok otherWay_ok ways_same (presents (br := .crlf) ✓ nofun) (presents (br := .lf) ✓ (fun _ => ✓))

example := replaced_same (.respelt oneWay_ok otherWay_ok ways_same (presents (br := .crlf) ✓ nofun)
  (presents (br := .lf) ✓ (fun _ => ✓)))

/-- written, read and written again, and given to a program that writes LF line breaks -/
example : ∃ file, Becomes c file ∧ Calendar.fromStr file = some c := by
  have h1 : Becomes c cText := .reread (.written w_ok c_text) c_read w_ok c_text
  obtain ⟨l, h2, h3, -⟩ := written_presents c_ok c_safe c_stamps w_ok c_text
  have h4 : Becomes c cText := .replaced h1 (.reordered h2 h2 rfl (sameSubs_refl l) h3 h3)
  exact ⟨cText, h4, becomes_read c_ok c_safe c_stamps h4⟩

end Ical.Sample
