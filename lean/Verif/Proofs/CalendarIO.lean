import Verif.Proofs.ComponentIO
import Verif.Props.Parsing

/-!
Writing a calendar and reading it back.
-/

namespace Ical

open Nom Spec

/-- a component of the same kind with the content of a generic one -/
def CalComp.withContent (x : CalComp) (o : Other) : CalComp :=
  match x with
  | .event _ => .event ⟨o.inner⟩
  | .todo _ => .todo ⟨o.inner⟩
  | .venue _ => .venue ⟨o.inner⟩
  | .other _ => .other o

theorem withContent_self (x : CalComp) : x.withContent x.toOther = x := by
  cases x with
  | other o => obtain ⟨n, p, m, c⟩ := o; rfl
  | _ => rfl

theorem withContent_toOther (x : CalComp) (o : Other) (h : o.name = x.toOther.name) :
    (x.withContent o).toOther = o := by
  obtain ⟨n, p, m, c⟩ := o
  have h : n = _ := h
  subst h
  cases x with
  | other o => rfl
  | _ => rfl

variable [Uni]

theorem calComp_fmtWrite (x : CalComp) (w : World) : x.fmtWrite w = x.toOther.fmtWrite w := by
  cases x <;> rfl

theorem calCompOk_other {x : CalComp} (h : CalCompOk x) : OtherOk x.toOther := by
  cases x with
  | other o => obtain ⟨n, p, m, c⟩ := o; exact h.1
  | _ => exact h

theorem calendarOk_writable {c : Calendar} (h : CalendarOk c) : CalendarWritable c :=
  ⟨h.props, fun x hx => otherOk_writable _ (calCompOk_other (h.comps x hx))⟩

/-- the unfolded text of the components of a calendar -/
def compItems : List CalComp → World → List Item
  | [], _ => []
  | x :: l, w => x.toOther.item (w.sub 0) :: compItems l (w.sub 1)

/-- what is read back for the components of a calendar -/
def compTrips : List CalComp → World → List CalComp
  | [], _ => []
  | x :: l, w => x.withContent (x.toOther.trip (w.sub 0)) :: compTrips l (w.sub 1)

theorem unfold_comps (l : List CalComp) (hl : ∀ x ∈ l, OtherWritable x.toOther) {w : World} (hw : World.Ok w) {out : Str}
    (h : fmtComps l w = .ok out) {t : Str} (ht : NoIndent t) :
    unfoldSpec (out ++ t) = itemsText .crlf (compItems l w) ++ unfoldSpec t ∧ NoIndent (out ++ t) := by
  induction l generalizing w out with
  | nil => cases h; exact ⟨rfl, ht⟩
  | cons x l ih =>
    unfold fmtComps at h
    cases ha : x.fmtWrite (w.sub 0) with
    | error e => rw [ha] at h; cases h
    | ok a =>
      rw [ha] at h
      cases hb : fmtComps l (w.sub 1) with
      | error e => rw [hb] at h; cases h
      | ok b =>
        rw [hb] at h
        cases h
        obtain ⟨h1, h2⟩ := ih (fun y hy => hl y (by simp [hy])) (worldOk_sub hw 1) hb
        rw [calComp_fmtWrite] at ha
        obtain ⟨h3, h4⟩ := unfold_other _ (hl x (by simp)) (worldOk_sub hw 0) ha h2
        rw [List.append_assoc]
        exact ⟨by rw [h3, h1, compItems, itemsText, List.append_assoc], h4⟩

theorem compItems_ok (l : List CalComp) (hl : ∀ x ∈ l, OtherWritable x.toOther) {w : World} (hw : World.Ok w) :
    ItemsOk .crlf (compItems l w) := by
  induction l generalizing w with
  | nil => trivial
  | cons x l ih =>
    exact ⟨other_item_ok _ (hl x (by simp)) (worldOk_sub hw 0),
      ih (fun y hy => hl y (by simp [hy])) (worldOk_sub hw 1)⟩

theorem compItems_props (l : List CalComp) (w : World) : itemsProps (compItems l w) = [] := by
  induction l generalizing w with
  | nil => rfl
  | cons x l ih =>
    generalize ho : x.toOther = o
    obtain ⟨n, p, m, c⟩ := o
    simp only [compItems, ho, Other.item, itemsProps]
    exact ih _

theorem compItems_comps (l : List CalComp) (w : World) :
    itemsComps (compItems l w) = match l with
      | [] => []
      | x :: l => x.toOther.tree (w.sub 0) :: itemsComps (compItems l (w.sub 1)) := by
  cases l with
  | nil => simp [compItems, itemsComps]
  | cons x l =>
    generalize ho : x.toOther = o
    obtain ⟨n, p, m, c⟩ := o
    simp only [compItems, ho, Other.item, itemsComps, Other.tree]

theorem tree_name (o : Other) (w : World) : (o.tree w).name = o.name := by
  obtain ⟨n, p, m, c⟩ := o
  simp only [Other.tree, Other.item, PComp.name, Other.name]

omit [Uni] in
theorem toOther_inner (c : PComp) : c.toInner = c.toOther.inner := by
  obtain ⟨n, p, l⟩ := c
  unfold PComp.toInner PComp.toOther
  rfl

omit [Uni] in
theorem toOther_name (c : PComp) : c.toOther.name = c.name := by
  obtain ⟨n, p, l⟩ := c
  unfold PComp.toOther
  rfl

omit [Uni] in
theorem ofInner_inner (o : Other) : Other.ofInner o.name o.inner = o := by
  obtain ⟨n, p, m, c⟩ := o
  rfl

theorem toCalComp_trip {x : CalComp} (hx : CalCompOk x) {w : World} (hw : World.Ok w) :
    (x.toOther.tree w).toCalComp = x.withContent (x.toOther.trip w) := by
  have ht := tree_trip _ (calCompOk_other hx) hw
  have hn := tree_name x.toOther w
  unfold PComp.toCalComp
  rw [hn, toOther_inner, ht]
  cases x with
  | event e => rfl
  | todo e => rfl
  | venue e => rfl
  | other o =>
    obtain ⟨-, h1, h2, h3⟩ := hx
    have e : (CalComp.other o).toOther = o := by obtain ⟨n, p, m, c⟩ := o; rfl
    rw [e] at ht hn ⊢
    rw [if_neg h1, if_neg h2, if_neg h3]
    have : o.name = (o.trip w).name := by rw [← ht, toOther_name, hn]
    rw [this, ofInner_inner]
    rfl

theorem comps_trip (l : List CalComp) (hl : ∀ x ∈ l, CalCompOk x) {w : World} (hw : World.Ok w) :
    (itemsComps (compItems l w)).map PComp.toCalComp = compTrips l w := by
  induction l generalizing w with
  | nil => rw [compItems_comps]; rfl
  | cons x l ih =>
    rw [compItems_comps]
    simp only [List.map_cons, compTrips]
    rw [toCalComp_trip (hl x (by simp)) (worldOk_sub hw 0), ih (fun y hy => hl y (by simp [hy])) (worldOk_sub hw 1)]

/-- the unfolded text of a calendar -/
def Calendar.item (c : Calendar) (w : World) : Item :=
  .comp c!"BEGIN:" c!"END:" c!"VCALENDAR" (propItems c.props (w.sub 0) ++ compItems c.comps (w.sub 1))

/-- what is read back for a calendar -/
def Calendar.trip (c : Calendar) (w : World) : Calendar :=
  { props := c.props.map Property.readBack, comps := compTrips c.comps (w.sub 1) }

theorem isName_upper (s : Str) (h : ∀ c ∈ s, 0x41 ≤ c.toNat ∧ c.toNat ≤ 0x5A) : IsName s := by
  intro c hc
  have := h c hc
  left
  unfold isAlnum
  rw [if_pos (by omega)]
  simp only [Bool.or_eq_true, Bool.and_eq_true, decide_eq_true_eq]
  omega

theorem calendar_item_ok {c : Calendar} (hc : CalendarWritable c) {w : World} (hw : World.Ok w) : (c.item w).Ok .crlf := by
  simp only [Calendar.item, Item.Ok, itemsOk_append]
  exact ⟨rfl, rfl, isName_upper _ (by decide), propItems_ok hc.props (worldOk_sub hw 0),
    compItems_ok _ hc.comps (worldOk_sub hw 1)⟩

/-- the unfolded text of a calendar in front of other text -/
theorem unfold_calendar_then {c : Calendar} (hc : CalendarWritable c) {w : World} (hw : World.Ok w) {out : Str}
    (h : c.fmtWrite w = .ok out) {t : Str} (ht : NoIndent t) :
    unfoldSpec (out ++ t) = (c.item w).text .crlf ++ unfoldSpec t := by
  unfold Calendar.fmtWrite at h
  cases hps : fmtProps c.props (w.sub 0) with
  | error e => simp only [hps] at h; cases h
  | ok ps =>
    cases hcs : fmtComps c.comps (w.sub 1) with
    | error e => simp only [hps, hcs] at h; cases h
    | ok cs =>
      simp only [hps, hcs] at h
      cases h
      have hend : NoIndent (c!"END:" ++ c!"VCALENDAR" ++ crlf ++ t) := noIndent_cons (by decide) (by decide)
      have e0 := keyword_line c!"VCALENDAR" c!"END:" (by decide) ht
      obtain ⟨c1, c2⟩ := unfold_comps c.comps hc.comps (worldOk_sub hw 1) hcs hend
      obtain ⟨p1, p2⟩ := unfold_props hc.props (worldOk_sub hw 0) hps c2
      have e1 := keyword_line c!"VCALENDAR" c!"BEGIN:" (by decide) p2
      rw [p1, c1, e0] at e1
      simp only [Calendar.item, Item.text, itemsText_append, Break.text]
      simp only [List.append_assoc] at e1 ⊢
      exact e1

theorem unfold_calendar {c : Calendar} (hc : CalendarWritable c) {w : World} (hw : World.Ok w) {out : Str}
    (h : c.fmtWrite w = .ok out) : unfold out = (c.item w).text .crlf := by
  have := unfold_calendar_then hc hw h noIndent_nil
  rw [List.append_nil] at this
  rw [unfold_eq_spec, this]
  exact List.append_nil _

/-- reading a calendar back -/
theorem calendar_read {c : Calendar} (hc : CalendarOk c) {w : World} (hw : World.Ok w) {out : Str}
    (h : c.fmtWrite w = .ok out) : Calendar.fromStr out = some (c.trip w) := by
  have hok := calendar_item_ok (calendarOk_writable hc) hw
  have hu := unfold_calendar (calendarOk_writable hc) hw h
  unfold Calendar.fromStr readCalendar
  rw [hu]
  unfold Calendar.item at hok ⊢
  rw [components_ok (component_doc hok (by simp))]
  simp only [finish, PComp.name, PComp.props, PComp.comps, Option.map_some, if_true, PCal.toCalendar,
    itemsProps_append, itemsComps_append, compItems_props, propItems_comps, List.nil_append, List.append_nil]
  rw [(propItems_props hc.props (worldOk_sub hw 0)).1, comps_trip _ hc.comps (worldOk_sub hw 1)]
  rfl

end Ical
