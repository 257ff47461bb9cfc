import Verif.Spec.Venues
import Verif.Props.Reread
import Verif.Props.Getters

/-!
C128: UIDs stay apart and references to venues can be followed.
-/

namespace Ical

open Nom Spec

theorem get_map (f : Property → Property) (k : Str) (m : BMap Property) :
    BMap.get k (m.map (fun x => (x.1, f x.2))) = (BMap.get k m).map f := by
  induction m with
  | nil => rfl
  | cons x m ih =>
    obtain ⟨k', v⟩ := x
    simp only [List.map_cons, BMap.get]
    split
    · rfl
    · exact ih

theorem get_rereadOther (k : Str) (o : Other) :
    BMap.get k (rereadOther o).inner.props = (BMap.get k o.inner.props).map rereadProp := by
  obtain ⟨n, p, m, c⟩ := o
  rw [rereadOther]
  exact get_map rereadProp k p

theorem rereadOther_name (o : Other) : (rereadOther o).name = o.name := by
  obtain ⟨n, p, m, c⟩ := o
  rw [rereadOther]
  rfl

/-- An event or to-do given a venue refers to it, and a venue given a UID is found by it. -/
theorem venue_refers (e : Event) (t : Todo) (v : Venue) (loc u : Str) :
    venueRef (.event (Component.venue e loc u)) = some u ∧ venueRef (.todo (Component.venue t loc u)) = some u ∧
      IsVenue u (.venue (Component.uid v u)) := by
  refine ⟨?_, ?_, rfl, ⟨c!"UID", u, []⟩, ?_, rfl⟩
  · show (BMap.get c!"LOCATION" (BMap.insert c!"LOCATION" _ e.inner.props)).bind _ = _
    rw [BMap.get_insert_self]
    rfl
  · show (BMap.get c!"LOCATION" (BMap.insert c!"LOCATION" _ t.inner.props)).bind _ = _
    rw [BMap.get_insert_self]
    rfl
  · exact BMap.get_insert_self _ _ _

variable [Uni]

/-- What is looked up in a component read back, whatever its texts. -/
theorem reread_get {c c' : Calendar} (hc : CalendarOk c) (h : CalStamped (rereadCal c) c') {i : Nat} {x x' : CalComp}
    (hx : c.comps[i]? = some x) (hx' : c'.comps[i]? = some x') (k : Str)
    (h1 : k ≠ c!"DTSTAMP") (h2 : k ≠ c!"UID" ∨ (BMap.get k x.toOther.inner.props).isSome) :
    x'.toOther.name = x.toOther.name ∧
      BMap.get k x'.toOther.inner.props = (BMap.get k x.toOther.inner.props).map rereadProp := by
  have hi : (rereadCal c).comps[i]? = some (rereadComp x) := by simp [rereadCal, hx]
  obtain ⟨-, hst⟩ := h.comps i _ _ hi hx'
  rw [rereadComp_toOther] at hst
  have ho : InOrder (rereadOther x.toOther).inner.props := by
    have := calCompOk_inOrder (hc.comps x (List.mem_of_getElem? hx))
    generalize x.toOther = o at *
    obtain ⟨n, p, m, cs⟩ := o
    rw [rereadOther]
    exact inOrder_reread this
  refine ⟨(stamped_rest hst).1.trans (rereadOther_name _), ?_⟩
  rw [stamped_get hst ho k (.inl h1) (by
    rcases h2 with h2 | h2
    · exact .inl h2
    · right; rw [get_rereadOther]; simpa using h2), get_rereadOther]

/-- **C128, exactly.** After writing and reading back, two components have the same UID if and only if the texts of their
UIDs are the same once a backslash before a colon is dropped and a backslash with n or N is a line feed. -/
theorem uids_apart_iff (c : Calendar) (hc : CalendarOk c) (w : World) (hw : World.Ok w) (out : Str)
    (h : c.fmtWrite w = .ok out) :
    ∃ c', Calendar.fromStr out = some c' ∧ c'.comps.length = c.comps.length ∧
      ∀ (i j : Nat) x y x' y' p q, c.comps[i]? = some x → c.comps[j]? = some y → c'.comps[i]? = some x' →
        c'.comps[j]? = some y' → uidOf x = some p → uidOf y = some q → IsText p → IsText q →
        ∃ p' q', uidOf x' = some p' ∧ uidOf y' = some q' ∧
          (p'.val = q'.val ↔ rereadText p.val = rereadText q.val) := by
  obtain ⟨c', h1, h2⟩ := calendar_reread c hc w hw out h
  refine ⟨c', h1, by rw [h2.length]; simp [rereadCal], ?_⟩
  intro i j x y x' y' p q hx hy hx' hy' hp hq tp tq
  have ex := (reread_get hc h2 hx hx' c!"UID" (by decide) (.inr (by rw [← uidOf, hp]; rfl))).2
  have ey := (reread_get hc h2 hy hy' c!"UID" (by decide) (.inr (by rw [← uidOf, hq]; rfl))).2
  refine ⟨rereadProp p, rereadProp q, ?_, ?_, ?_⟩
  · rw [uidOf, ex, ← uidOf, hp]; rfl
  · rw [uidOf, ey, ← uidOf, hq]; rfl
  · simp only [rereadProp, if_pos tp, if_pos tq]

/-- **C128** (partial: UIDs that survive, C08). Such UIDs are the same after if and only if they were before. -/
theorem uids_apart_partial (c : Calendar) (hc : CalendarOk c) (w : World) (hw : World.Ok w) (out : Str)
    (h : c.fmtWrite w = .ok out) :
    ∃ c', Calendar.fromStr out = some c' ∧ c'.comps.length = c.comps.length ∧
      ∀ (i j : Nat) x y x' y' p q, c.comps[i]? = some x → c.comps[j]? = some y → c'.comps[i]? = some x' →
        c'.comps[j]? = some y' → uidOf x = some p → uidOf y = some q → IsText p → IsText q → TextSafe p.val →
        TextSafe q.val → ∃ p' q', uidOf x' = some p' ∧ uidOf y' = some q' ∧ (p'.val = q'.val ↔ p.val = q.val) := by
  obtain ⟨c', h1, h2, h3⟩ := uids_apart_iff c hc w hw out h
  refine ⟨c', h1, h2, ?_⟩
  intro i j x y x' y' p q hx hy hx' hy' hp hq tp tq sp sq
  have := h3 i j x y x' y' p q hx hy hx' hy' hp hq tp tq
  rwa [(rereadText_iff _).2 sp, (rereadText_iff _).2 sq] at this

/-- **C128, exactly, for venues.** References are kept as they are; the venues are found afterwards if and only if for each
reference there is a venue whose UID is read back as the reference. -/
theorem venues_known_iff (c : Calendar) (hc : CalendarOk c)
    (hu : ∀ y ∈ c.comps, y.toOther.name = c!"VVENUE" → ∃ p, uidOf y = some p ∧ IsText p)
    (w : World) (hw : World.Ok w) (out : Str) (h : c.fmtWrite w = .ok out) :
    ∃ c', Calendar.fromStr out = some c' ∧
      (∀ (i : Nat) x x', c.comps[i]? = some x → c'.comps[i]? = some x' → venueRef x' = venueRef x) ∧
      (VenuesKnown c' ↔ ∀ x ∈ c.comps, ∀ u, venueRef x = some u →
        ∃ y ∈ c.comps, ∃ v, IsVenue v y ∧ rereadText v = u) := by
  obtain ⟨c', h1, h2⟩ := calendar_reread c hc w hw out h
  have hlen : c'.comps.length = c.comps.length := by rw [h2.length]; simp [rereadCal]
  have hr : ∀ (i : Nat) x x', c.comps[i]? = some x → c'.comps[i]? = some x' → venueRef x' = venueRef x := by
    intro i x x' hx hx'
    rw [venueRef, (reread_get hc h2 hx hx' c!"LOCATION" (by decide) (.inl (by decide))).2, venueRef]
    cases BMap.get c!"LOCATION" x.toOther.inner.props <;> rfl
  have hv : ∀ (i : Nat) y y', c.comps[i]? = some y → c'.comps[i]? = some y' → ∀ u,
      (IsVenue u y' ↔ ∃ v, IsVenue v y ∧ rereadText v = u) := by
    intro i y y' hy hy' u
    have hn := (reread_get hc h2 hy hy' c!"LOCATION" (by decide) (.inl (by decide))).1
    unfold IsVenue
    rw [hn]
    by_cases hname : y.toOther.name = c!"VVENUE"
    · obtain ⟨p, hp, tp⟩ := hu y (List.mem_of_getElem? hy) hname
      have ey := (reread_get hc h2 hy hy' c!"UID" (by decide) (.inr (by rw [← uidOf, hp]; rfl))).2
      have ey' : uidOf y' = some (rereadProp p) := by rw [uidOf, ey, ← uidOf, hp]; rfl
      rw [ey', hp]
      simp only [hname, true_and, Option.some.injEq, exists_eq_left', rereadProp, if_pos tp]
    · simp [hname]
  refine ⟨c', h1, hr, ?_⟩
  have back : ∀ x' ∈ c'.comps, ∃ (i : Nat) (x : CalComp), c.comps[i]? = some x ∧ c'.comps[i]? = some x' := by
    intro x' hx'
    obtain ⟨i, hi⟩ := List.getElem?_of_mem hx'
    have hlt : i < c.comps.length := by rw [← hlen]; exact (List.getElem?_eq_some_iff.1 hi).1
    exact ⟨i, _, List.getElem?_eq_getElem hlt, hi⟩
  have forth : ∀ x ∈ c.comps, ∃ (i : Nat) (x' : CalComp), c.comps[i]? = some x ∧ c'.comps[i]? = some x' := by
    intro x hx
    obtain ⟨i, hi⟩ := List.getElem?_of_mem hx
    have hlt : i < c'.comps.length := by rw [hlen]; exact (List.getElem?_eq_some_iff.1 hi).1
    exact ⟨i, _, hi, List.getElem?_eq_getElem hlt⟩
  constructor
  · intro H x hx u hxu
    obtain ⟨i, x', hi, hi'⟩ := forth x hx
    obtain ⟨y', hy', hyu⟩ := H x' (List.mem_of_getElem? hi') u (by rw [hr i x x' hi hi', hxu])
    obtain ⟨j, y, hj, hj'⟩ := back y' hy'
    exact ⟨y, List.mem_of_getElem? hj, (hv j y y' hj hj' u).1 hyu⟩
  · intro H x' hx' u hxu
    obtain ⟨i, x, hi, hi'⟩ := back x' hx'
    obtain ⟨y, hy, hyu⟩ := H x (List.mem_of_getElem? hi) u (by rw [← hr i x x' hi hi', hxu])
    obtain ⟨j, y', hj, hj'⟩ := forth y hy
    exact ⟨y', List.mem_of_getElem? hj', (hv j y y' hj hj' u).2 hyu⟩

/-- **C128** (partial: venues with UIDs that survive, C08). References to venues can be followed after if and only if they
could be before. -/
theorem venues_known_partial (c : Calendar) (hc : CalendarOk c)
    (hu : ∀ y ∈ c.comps, y.toOther.name = c!"VVENUE" → ∃ p, uidOf y = some p ∧ IsText p ∧ TextSafe p.val)
    (w : World) (hw : World.Ok w) (out : Str) (h : c.fmtWrite w = .ok out) :
    ∃ c', Calendar.fromStr out = some c' ∧ (VenuesKnown c' ↔ VenuesKnown c) := by
  obtain ⟨c', h1, -, h3⟩ := venues_known_iff c hc (fun y hy hn => by
    obtain ⟨p, a, b, _⟩ := hu y hy hn; exact ⟨p, a, b⟩) w hw out h
  refine ⟨c', h1, h3.trans ?_⟩
  have key : ∀ y ∈ c.comps, ∀ u, (∃ v, IsVenue v y ∧ rereadText v = u) ↔ IsVenue u y := by
    intro y hy u
    have safe : ∀ v, IsVenue v y → rereadText v = v := by
      rintro v ⟨hn, q, hq, rfl⟩
      obtain ⟨p, a, _, b⟩ := hu y hy hn
      rw [hq] at a
      obtain rfl := Option.some.inj a
      exact (rereadText_iff _).2 b
    constructor
    · rintro ⟨v, hv, rfl⟩; rw [safe v hv]; exact hv
    · intro hv; exact ⟨u, hv, safe u hv⟩
  constructor
  · intro H x hx u hxu
    obtain ⟨y, hy, hv⟩ := H x hx u hxu
    exact ⟨y, hy, (key y hy u).1 hv⟩
  · intro H x hx u hxu
    obtain ⟨y, hy, hv⟩ := H x hx u hxu
    exact ⟨y, hy, (key y hy u).2 hv⟩

/-! ### What is missing -/

/-- Two events with different UIDs: one with a backslash and an n, one with a line feed. -/
def twins : Calendar :=
  (Calendar.empty.push (.event (Component.uid Event.new c!"a\\nb"))).push (.event (Component.uid Event.new c!"a\nb"))

/-- An event at a venue, and the venue. -/
def lostVenue : Calendar :=
  (Calendar.empty.push (.event (Component.venue Event.new c!"Hall 1" c!"C:\\new"))).push
    (.venue (Component.uid Venue.new c!"C:\\new"))

/-- A clock, UUIDs and an order of maps. -/
def venueWorld : World := ⟨fun _ => ⟨⟨⟨2026, 1, 1⟩, 0, 0, 0, 0⟩⟩, fun _ => c!"0-f", fun _ l => l⟩

omit [Uni] in
/-- **C128, what is missing.** Two events with different UIDs have the same UID after they were written and read back. -/
theorem uids_apart_violated : twins.comps.map (fun x => (uidOf x).map (fun p => p.val)) = [some c!"a\\nb", some c!"a\nb"] ∧
    ∃ out c', @Calendar.fmtWrite Uni.ascii twins venueWorld = .ok out ∧ @Calendar.fromStr Uni.ascii out = some c' ∧
      c'.comps.map (fun x => (uidOf x).map (fun p => p.val)) = [some c!"a\nb", some c!"a\nb"] := by
  refine ⟨by decide +kernel, c!"BEGIN:VCALENDAR\r\nBEGIN:VEVENT\r\nDTSTAMP:20260101T000000Z\r\nUID:a\\\\nb\r\nEND:VEVENT\r\nBEGIN:VEVENT\r\nDTSTAMP:20260101T000000Z\r\nUID:a\\Nb\r\nEND:VEVENT\r\nEND:VCALENDAR\r\n", ?_⟩
  have h : (@Calendar.fromStr Uni.ascii c!"BEGIN:VCALENDAR\r\nBEGIN:VEVENT\r\nDTSTAMP:20260101T000000Z\r\nUID:a\\\\nb\r\nEND:VEVENT\r\nBEGIN:VEVENT\r\nDTSTAMP:20260101T000000Z\r\nUID:a\\Nb\r\nEND:VEVENT\r\nEND:VCALENDAR\r\n").map
      (fun c' => c'.comps.map (fun x => (uidOf x).map (fun p => p.val))) = some [some c!"a\nb", some c!"a\nb"] := by
    decide +kernel
  obtain ⟨c', h1, h2⟩ := Option.map_eq_some_iff.1 h
  exact ⟨c', by decide +kernel, h1, h2⟩

omit [Uni] in
/-- **C128, what is missing.** A venue that is found before is not found after the calendar was written and read back. -/
theorem venues_known_violated : VenuesKnown lostVenue ∧
    ∃ out c', @Calendar.fmtWrite Uni.ascii lostVenue venueWorld = .ok out ∧ @Calendar.fromStr Uni.ascii out = some c' ∧
      ¬ VenuesKnown c' := by
  constructor
  · intro x hx u hu
    refine ⟨.venue (Component.uid Venue.new c!"C:\\new"), by simp [lostVenue, Calendar.push], by decide +kernel, ?_⟩
    simp only [lostVenue, Calendar.push, Calendar.empty, List.nil_append, List.mem_append, List.mem_singleton] at hx
    rcases hx with rfl | rfl
    · have : venueRef (.event (Component.venue Event.new c!"Hall 1" c!"C:\\new")) = some c!"C:\\new" := by decide +kernel
      rw [this] at hu
      obtain rfl := Option.some.inj hu
      exact ⟨⟨c!"UID", c!"C:\\new", []⟩, by decide +kernel, rfl⟩
    · have : venueRef (.venue (Component.uid Venue.new c!"C:\\new")) = none := by decide +kernel
      rw [this] at hu
      cases hu
  · have h : (@Calendar.fromStr Uni.ascii c!"BEGIN:VCALENDAR\r\nBEGIN:VEVENT\r\nDTSTAMP:20260101T000000Z\r\nLOCATION;VVENUE=\"C:\\new\":Hall 1\r\nUID:0-f\r\nEND:VEVENT\r\nBEGIN:VVENUE\r\nDTSTAMP:20260101T000000Z\r\nUID:C:\\\\new\r\nEND:VVENUE\r\nEND:VCALENDAR\r\n").map
        (fun c' => (c'.comps.map venueRef, c'.comps.map (fun x => (uidOf x).map (fun p => p.val)))) =
          some ([some c!"C:\\new", none], [some c!"0-f", some c!"C:\new"]) := by
      decide +kernel
    obtain ⟨c', h1, h2⟩ := Option.map_eq_some_iff.1 h
    refine ⟨_, c', by decide +kernel, h1, ?_⟩
    obtain ⟨h3, h4⟩ := Prod.mk.inj h2
    intro H
    have hm : some c!"C:\\new" ∈ c'.comps.map venueRef := by rw [h3]; simp
    obtain ⟨x, hx, hxu⟩ := List.mem_map.1 hm
    obtain ⟨y, hy, _, q, hq, hqu⟩ := H x hx _ hxu
    have : some q.val ∈ c'.comps.map (fun x => (uidOf x).map (fun p => p.val)) :=
      List.mem_map.2 ⟨y, hy, by rw [hq]; rfl⟩
    rw [h4, hqu] at this
    revert this
    decide

end Ical
