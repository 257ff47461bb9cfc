import Verif.Spec.Alone
import Verif.Props.Presentation

/-!
C105: a component is read in the same way wherever it stands.
-/

namespace Ical

open Nom Spec

theorem compCount_eq (l : List Item) : compCount l = (itemsComps l).length := by
  induction l with
  | nil => rw [compCount, itemsComps]; rfl
  | cons i l ih =>
    cases i with
    | prop k ps v => rw [compCount, itemsComps, ih]
    | comp b e n items => rw [compCount, itemsComps, ih]; rfl

theorem itemsComps_at (pre post : List Item) (b e n : Str) (items : List Item) :
    (itemsComps (pre ++ .comp b e n items :: post))[compCount pre]? = some (.mk n (itemsProps items) (itemsComps items)) := by
  rw [itemsComps_append, compCount_eq, List.getElem?_append_right (Nat.le_refl _), Nat.sub_self, itemsComps]
  rfl

variable [Uni]

theorem read_alone {br : Break} {b e n : Str} {items : List Item} (h : (Item.comp b e n items).Ok br) {file : Str}
    (hf : Presents br (.comp b e n items) file) :
    CalComp.fromStr file = some (PComp.mk n (itemsProps items) (itemsComps items)).toCalComp := by
  unfold CalComp.fromStr readComponent
  rw [presents_read h hf]
  rfl

/-! ### C105 -/

/-- **C105.** A component of a calendar file is read as it is read from a file of its own, whatever the rest of the
calendar is and however the two files are laid out. -/
theorem component_alone {br : Break} {b e : Str} {pre post : List Item} {b' e' n : Str} {items : List Item}
    (h : (Item.comp b e c!"VCALENDAR" (pre ++ .comp b' e' n items :: post)).Ok br) {file : Str}
    (hf : Presents br (.comp b e c!"VCALENDAR" (pre ++ .comp b' e' n items :: post)) file) {br' : Break} {alone : Str}
    (h' : (Item.comp b' e' n items).Ok br') (hf' : Presents br' (.comp b' e' n items) alone) :
    ∃ c x, Calendar.fromStr file = some c ∧ CalComp.fromStr alone = some x ∧ c.comps[compCount pre]? = some x := by
  refine ⟨{ props := (itemsProps (pre ++ .comp b' e' n items :: post)).map PProp.toProperty
            comps := (itemsComps (pre ++ .comp b' e' n items :: post)).map PComp.toCalComp }, _, ?_, read_alone h' hf', ?_⟩
  · unfold Calendar.fromStr readCalendar
    rw [components_ok (presents_read h hf)]
    simp [finish, PComp.name, PCal.toCalendar, PComp.props, PComp.comps]
  · rw [List.getElem?_map, itemsComps_at]
    rfl

/-- **C105.** The same for a component within a component, such as an alarm of an event. -/
theorem subcomponent_alone {br : Break} {b e m : Str} {pre post : List Item} {b' e' n : Str} {items : List Item}
    (h : (Item.comp b e m (pre ++ .comp b' e' n items :: post)).Ok br) {file : Str}
    (hf : Presents br (.comp b e m (pre ++ .comp b' e' n items :: post)) file) {br' : Break} {alone : Str}
    (h' : (Item.comp b' e' n items).Ok br') (hf' : Presents br' (.comp b' e' n items) alone) :
    ∃ c x, CalComp.fromStr file = some c ∧ CalComp.fromStr alone = some x ∧
      c.toOther.inner.comps[compCount pre]? = some x.toOther := by
  refine ⟨_, _, read_alone h hf, read_alone h' hf', ?_⟩
  rw [toOther_toCalComp, toOther_toCalComp, toOther_comps, PComp.comps, List.getElem?_map, itemsComps_at]
  rfl

/-- **C105.** Pasting, replacing or cutting out components does not affect how the others are read. -/
theorem others_unaffected {br br' : Break} {b e : Str} {pre mid mid' post : List Item}
    (h : (Item.comp b e c!"VCALENDAR" (pre ++ (mid ++ post))).Ok br) {file : Str}
    (hf : Presents br (.comp b e c!"VCALENDAR" (pre ++ (mid ++ post))) file)
    (h' : (Item.comp b e c!"VCALENDAR" (pre ++ (mid' ++ post))).Ok br') {file' : Str}
    (hf' : Presents br' (.comp b e c!"VCALENDAR" (pre ++ (mid' ++ post))) file')
    (hm : ∀ i ∈ mid ++ mid', ∃ b e n l, i = .comp b e n l) :
    ∃ props before xs ys after, Calendar.fromStr file = some ⟨props, before ++ (xs ++ after)⟩ ∧
      Calendar.fromStr file' = some ⟨props, before ++ (ys ++ after)⟩ ∧
      before.length = compCount pre ∧ after.length = compCount post ∧ xs.length = mid.length ∧ ys.length = mid'.length := by
  have noProps : ∀ l : List Item, (∀ i ∈ l, ∃ b e n l, i = Item.comp b e n l) → itemsProps l = [] ∧ (itemsComps l).length = l.length := by
    intro l
    induction l with
    | nil => exact fun _ => ⟨by rw [itemsProps], by rw [itemsComps]; rfl⟩
    | cons i l ih =>
      intro hl
      obtain ⟨b, e, n, l', rfl⟩ := hl i (List.mem_cons_self ..)
      obtain ⟨i1, i2⟩ := ih (fun i hi => hl i (List.mem_cons_of_mem _ hi))
      refine ⟨by rw [itemsProps, i1], by rw [itemsComps, List.length_cons, i2]; rfl⟩
  obtain ⟨p1, l1⟩ := noProps mid (fun i hi => hm i (List.mem_append_left _ hi))
  obtain ⟨p2, l2⟩ := noProps mid' (fun i hi => hm i (List.mem_append_right _ hi))
  refine ⟨(itemsProps pre ++ itemsProps post).map PProp.toProperty, (itemsComps pre).map PComp.toCalComp,
    (itemsComps mid).map PComp.toCalComp, (itemsComps mid').map PComp.toCalComp, (itemsComps post).map PComp.toCalComp,
    ?_, ?_, by rw [List.length_map, compCount_eq], by rw [List.length_map, compCount_eq], by rw [List.length_map, l1],
    by rw [List.length_map, l2]⟩
  · unfold Calendar.fromStr readCalendar
    rw [components_ok (presents_read h hf)]
    simp [finish, PComp.name, PCal.toCalendar, PComp.props, PComp.comps, itemsProps_append, itemsComps_append, p1]
  · unfold Calendar.fromStr readCalendar
    rw [components_ok (presents_read h' hf')]
    simp [finish, PComp.name, PCal.toCalendar, PComp.props, PComp.comps, itemsProps_append, itemsComps_append, p2]

end Ical

/-! ### Examples -/

namespace Ical

open Nom Spec

local instance asciiUniAlone : Uni := Uni.ascii

/-- The event of a calendar file with CRLF, and alone in a file with LF. -/
example : ∃ c x,
    Calendar.fromStr c!"BEGIN:VCALENDAR\r\nVERSION:2.0\r\nBEGIN:VEVENT\r\nUID:1\r\nEND:VEVENT\r\nEND:VCALENDAR\r\n" = some c ∧
    CalComp.fromStr c!"BEGIN:VEVENT\nUID:1\nEND:VEVENT\n" = some x ∧ c.comps[0]? = some x := by
  have hok : ∀ br, ValOk br c!"1" ∧ ValOk br c!"2.0" := by
    intro br
    cases br
    · exact ⟨by unfold ValOk; decide, by unfold ValOk; decide⟩
    · exact ⟨by unfold ValOk; decide, by unfold ValOk; decide⟩
  refine component_alone (br := .crlf) (br' := .lf) (b := c!"BEGIN:") (e := c!"END:") (b' := c!"BEGIN:") (e' := c!"END:")
    (n := c!"VEVENT") (pre := [.prop c!"VERSION" [] c!"2.0"]) (post := []) (items := [.prop c!"UID" [] c!"1"]) ?_ ?_ ?_ ?_
  · simp only [List.cons_append, List.nil_append, Item.Ok, ItemsOk, and_true]
    exact ⟨by decide, by decide, by decide +kernel, ⟨by decide +kernel, by simp, (hok _).2⟩, by decide, by decide,
      by decide +kernel, by decide +kernel, by simp, (hok _).1⟩
  · unfold Presents
    refine ⟨[], [], c!"VERSION:2.0\r\nBEGIN:VEVENT\r\nUID:1\r\nEND:VEVENT\r\n", c!"\r\n", blank_nil, blank_nil,
      ⟨[.crlf], rfl⟩, ?_, (fun h => by cases h),
      c!"BEGIN:VCALENDAR\r\nVERSION:2.0\r\nBEGIN:VEVENT\r\nUID:1\r\nEND:VEVENT\r\nEND:VCALENDAR\r\n", [],
      rfl, rfl, by decide +kernel, by decide +kernel, trivial⟩
    simp only [List.cons_append, List.nil_append, SpacedAll, Spaced]
    exact ⟨c!"VERSION:2.0\r\n", c!"BEGIN:VEVENT\r\nUID:1\r\nEND:VEVENT\r\n", ⟨[], blank_nil, rfl⟩,
      ⟨_, [], ⟨[], c!"UID:1\r\n", [], blank_nil, blank_nil, ⟨_, [], ⟨[], blank_nil, rfl⟩, rfl, rfl⟩, rfl⟩, rfl, rfl⟩, rfl⟩
  · simp only [Item.Ok, ItemsOk, and_true]
    exact ⟨by decide, by decide, by decide +kernel, by decide +kernel, by simp, (hok _).1⟩
  · unfold Presents
    refine ⟨[], [], c!"UID:1\n", c!"\n", blank_nil, blank_nil, ⟨[.lf], rfl⟩, ?_, (fun _ => by decide +kernel),
      c!"BEGIN:VEVENT\nUID:1\nEND:VEVENT\n", [], rfl, rfl, by decide +kernel, by decide +kernel, trivial⟩
    simp only [SpacedAll, Spaced]
    exact ⟨_, [], ⟨[], blank_nil, rfl⟩, rfl, rfl⟩

end Ical
