import Verif.Examples.Passing
import Verif.Props.Breaks

/-!
Applications of the theorems about converted line breaks (C137).
-/

namespace Ical.Sample

open Nom Spec

theorem oneWay_unbroken : (Item.comp c!"BEGIN:" c!"END:" c!"VCALENDAR" oneWay).Unbroken := by
  simp only [oneWay, Item.Unbroken, ItemsUnbroken]
  decide +kernel

theorem otherWay_unbroken : (Item.comp c!"Begin:" c!"End:" c!"VCALENDAR" otherWay).Unbroken := by
  simp only [otherWay, Item.Unbroken, ItemsUnbroken]
  decide +kernel

example := to_lf oneWay_ok oneWay_unbroken (presents (br := .crlf) ✓ nofun)

example := to_crlf otherWay_ok otherWay_unbroken (presents (br := .lf) ✓ (fun _ => ✓))

example : toLf c!"a\r\n b\rc\r\r\nd\n" = c!"a\n b\rc\r\nd\n" := by decide

example : toCrlf c!"a\r\n b\rc\nd\r" = c!"a\r\n b\rc\r\nd\r" := by decide

instance (p : Property) : Decidable (UnbrokenProp p) :=
  decidable_of_iff ((∀ x ∈ p.params, '\r' ∉ x.2 ∧ '\n' ∉ x.2) ∧ '\r' ∉ p.val ∧ ('\n' ∈ p.val → IsText p))
    ⟨fun h => ⟨h.1, h.2⟩, fun h => ⟨h.params, h.value⟩⟩

theorem c_unbroken : UnbrokenCal c :=
  ⟨by decide +kernel, c_comps ⟨by decide +kernel, by decide +kernel, ⟨by decide +kernel, by decide +kernel, trivial⟩, trivial⟩
    ⟨by decide +kernel, by decide +kernel, trivial⟩ ⟨by decide +kernel, by decide +kernel, trivial⟩
    ⟨by decide +kernel, by decide +kernel, trivial⟩⟩

example := written_converted c_ok c_safe c_stamps c_unbroken w_ok c_text

/-- lines with a LF in a file with CRLF line breaks do not survive -/
example : Calendar.fromStr c!"BEGIN:VCALENDAR\r\nX:a\nEND:VCALENDAR\r\nEND:VCALENDAR\r\n" ≠
    Calendar.fromStr (toLf c!"BEGIN:VCALENDAR\r\nX:a\nEND:VCALENDAR\r\nEND:VCALENDAR\r\n") := by
  intro h
  have := congrArg (Option.map (fun c => c.props.map Property.val)) h
  revert this
  decide +kernel

end Ical.Sample
