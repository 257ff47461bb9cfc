import Verif.Props.Foreign
import Verif.Props.Nesting
import Verif.Props.ContentLine

/-!
C67: what can be injected through a value that is written as it is. Everything.
-/

namespace Ical

open Nom Spec

variable [Uni]

/-- **C67 (violated, for all texts).** Through the value of a single property that is not a TEXT, whoever chooses the
value adds to the calendar whatever properties and components they like: the calendar is read as if they had been written on
purpose. -/
theorem inject_anything {k x v : Str} {items : List Item} (hk : KeyOk k) (ht : ¬ IsText ⟨k, v, []⟩) (hx : ValOk .crlf x)
    (hi : ItemsOk .crlf items) (hv : v ++ ['\r', '\n'] = x ++ ['\r', '\n'] ++ itemsText .crlf items)
    (hm : MarkerFree (k ++ ':' :: v)) (w : World) (hw : World.Ok w) (out : Str)
    (h : (Calendar.empty.appendProperty ⟨k, v, []⟩).fmtWrite w = .ok out) :
    ∃ c, Calendar.fromStr out = some c ∧ LinesMean ((k, [], x) :: ownLines items) c.props ∧ CompsContain items c.comps := by
  unfold Calendar.fmtWrite at h
  have hp : (Calendar.empty.appendProperty ⟨k, v, []⟩).props = [⟨k, v, []⟩] := rfl
  have hc : (Calendar.empty.appendProperty ⟨k, v, []⟩).comps = [] := rfl
  rw [hp, hc] at h
  have hl : ∀ w : World, World.Ok w → (⟨k, v, []⟩ : Property).line w = k ++ ':' :: v := by
    intro w hw
    obtain ⟨params, forms, h1, h2, h3⟩ := line_contentLine ⟨k, v, []⟩ hw
    have : params = [] := List.Perm.eq_nil h1
    subst this
    cases forms with
    | nil => rw [h3]; simp [rawText, ht]
    | cons => simp [ParamForms] at h2
  unfold fmtProps Property.fmtWrite at h
  rw [hl _ (worldOk_sub (worldOk_sub hw 0) 0)] at h
  cases hf : foldLine (k ++ ':' :: v) with
  | error e => simp only [hf] at h; cases h
  | ok s =>
    simp only [hf, fmtProps, fmtComps] at h
    cases h
    have hend : NoIndent (c!"END:VCALENDAR" ++ crlf) := noIndent_cons (by decide) (by decide)
    have h1 := unfold_line hm hf hend
    have hfold : NoIndent (s ++ (crlf ++ (c!"END:VCALENDAR" ++ crlf))) := by
      refine noIndent_of_unfold (l := k ++ ':' :: v) ?_ ?_ (noIndent_cons (by decide) (by decide))
      · rw [← unfold_eq_spec, fold_unfold _ _ hm hf]
      · cases k with
        | nil => exact noIndent_cons (by decide) (by decide)
        | cons c k =>
          have := hk.1 c (by simp)
          rw [← isKeyChar_iff] at this
          refine noIndent_cons ?_ ?_
          · rintro rfl; rw [isKeyChar_sp] at this; cases this
          · rintro rfl; rw [isKeyChar_tab] at this; cases this
    have h2 := unfold_raw (l := c!"BEGIN:VCALENDAR") (markerFree_of_noLf (by decide)) .crlf hfold
    have hu : unfold (c!"BEGIN:VCALENDAR" ++ crlf ++ (s ++ crlf ++ []) ++ [] ++ (c!"END:VCALENDAR" ++ crlf)) =
        (Item.comp c!"BEGIN:" c!"END:" c!"VCALENDAR" (.prop k [] x :: items)).text .crlf := by
      rw [unfold_eq_spec]
      have e : c!"BEGIN:VCALENDAR" ++ crlf ++ (s ++ crlf ++ []) ++ [] ++ (c!"END:VCALENDAR" ++ crlf) =
          c!"BEGIN:VCALENDAR" ++ (Break.crlf.text ++ (s ++ (crlf ++ (c!"END:VCALENDAR" ++ crlf)))) := by
        simp [Break.text]
      rw [e, h2, h1, unfoldSpec_markerFree _ (by constructor <;> decide)]
      have hv' : v ++ (['\r', '\n'] ++ (c!"END:VCALENDAR" ++ crlf)) =
          x ++ (['\r', '\n'] ++ (itemsText .crlf items ++ (c!"END:VCALENDAR" ++ crlf))) := by
        rw [← List.append_assoc, hv]; simp
      simp only [Item.text, itemsText, Break.text]
      simpa using hv'
    have hok : (Item.comp c!"BEGIN:" c!"END:" c!"VCALENDAR" (.prop k [] x :: items)).Ok .crlf := by
      rw [Item.Ok, ItemsOk, Item.Ok]
      exact ⟨by decide, by decide, isName_upper _ (by decide), ⟨hk, by simp, hx⟩, hi⟩
    refine ⟨⟨(itemsProps (.prop k [] x :: items)).map PProp.toProperty,
      (itemsComps (.prop k [] x :: items)).map PComp.toCalComp⟩, ?_, linesMean_props (.prop k [] x :: items),
      compsContain (.prop k [] x :: items)⟩
    · unfold Calendar.fromStr readCalendar
      rw [hu, components_ok (component_doc hok (by simp))]
      simp [finish, PComp.name, PCal.toCalendar, PComp.props, PComp.comps]

/-- An event of the attacker's choice. -/
def injected : List Item :=
  [.comp c!"BEGIN:" c!"END:" c!"VEVENT" [.prop c!"SUMMARY" [] c!"Pay Mallory"]]

/-- A time zone id, chosen by the sender of an invitation. -/
def evilZone : Str := c!"Europe/Berlin\r\nBEGIN:VEVENT\r\nSUMMARY:Pay Mallory\r\nEND:VEVENT"

example : @KeyOk Uni.ascii c!"TIMEZONE-ID" ∧ ¬ IsText ⟨c!"TIMEZONE-ID", evilZone, []⟩ ∧ ValOk .crlf c!"Europe/Berlin" ∧
    @ItemsOk Uni.ascii .crlf injected ∧
    evilZone ++ ['\r', '\n'] = c!"Europe/Berlin" ++ ['\r', '\n'] ++ itemsText .crlf injected ∧
    MarkerFree (c!"TIMEZONE-ID" ++ ':' :: evilZone) := by
  refine ⟨by decide +kernel, by decide +kernel, ?_, ?_, by decide +kernel, by decide +kernel⟩
  · unfold ValOk; decide +kernel
  · simp only [injected, Item.Ok, ItemsOk, ValOk, List.not_mem_nil, false_implies, implies_true, and_true, true_and]
    decide +kernel

end Ical
