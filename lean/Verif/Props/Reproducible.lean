import Verif.Props.Writes

/-!
Serialization is reproducible: nothing but the content of the calendar goes into the text, once the stamps are
set and no property has two parameters.
-/

namespace Ical.Spec

open Ical

/-- A property with at most one parameter. -/
def FewParams (p : Property) : Prop := p.params.length ≤ 1

instance (p : Property) : Decidable (FewParams p) := by unfold FewParams; infer_instance

end Ical.Spec

namespace Ical

open Nom Spec

variable [Uni]

omit [Uni] in
theorem few_order {w : World} (hw : World.Ok w) (path : List Nat) {l : List (Str × Str)} (h : l.length ≤ 1) :
    w.order path l = l := by
  have hp := hw.order path l
  match l, h with
  | [], _ => exact List.perm_nil.1 hp
  | [x], _ => exact List.perm_singleton.1 hp

theorem prop_reproducible {p : Property} (hp : FewParams p) {w w' : World} (hw : World.Ok w) (hw' : World.Ok w') :
    p.fmtWrite w = p.fmtWrite w' := by
  unfold Property.fmtWrite Property.line
  rw [few_order hw _ hp, few_order hw' _ hp]

theorem props_reproducible {l : List Property} (hl : ∀ p ∈ l, FewParams p) {w w' : World} (hw : World.Ok w)
    (hw' : World.Ok w') : fmtProps l w = fmtProps l w' := by
  induction l generalizing w w' with
  | nil => rfl
  | cons p l ih =>
    unfold fmtProps
    rw [prop_reproducible (hl p (by simp)) (worldOk_sub hw 0) (worldOk_sub hw' 0),
      ih (fun q hq => hl q (by simp [hq])) (worldOk_sub hw 1) (worldOk_sub hw' 1)]

mutual
theorem other_reproducible : (o : Other) → HasStamps o → AllProps FewParams o → (w w' : World) → World.Ok w →
    World.Ok w' → o.fmtWrite w = o.fmtWrite w'
  | .mk name props multi comps, hs, hf, w, w', hw, hw' => by
    unfold Other.fmtWrite
    rw [props_reproducible (l := props.values) (fun p hp => by
        obtain ⟨x, hx, rfl⟩ := List.mem_map.1 hp
        exact hf.1 x hx) (worldOk_sub hw 0) (worldOk_sub hw' 0),
      props_reproducible (l := multi.values.flatten) (fun p hp => by
        obtain ⟨g, hg, hpg⟩ := List.mem_flatten.1 hp
        obtain ⟨x, hx, rfl⟩ := List.mem_map.1 hg
        exact hf.2.1 x hx p hpg) (worldOk_sub hw 1) (worldOk_sub hw' 1),
      others_reproducible comps hs.2.2 hf.2.2 _ _ (worldOk_sub hw 2) (worldOk_sub hw' 2),
      if_pos (containsKey_iff.2 hs.1), if_pos (containsKey_iff.2 hs.1),
      if_pos (containsKey_iff.2 hs.2.1), if_pos (containsKey_iff.2 hs.2.1)]
theorem others_reproducible : (l : List Other) → HaveStamps l → AllPropss FewParams l → (w w' : World) → World.Ok w →
    World.Ok w' → fmtOthers l w = fmtOthers l w'
  | [], _, _, _, _, _, _ => rfl
  | o :: l, hs, hf, w, w', hw, hw' => by
    unfold fmtOthers
    rw [other_reproducible o hs.1 hf.1 _ _ (worldOk_sub hw 0) (worldOk_sub hw' 0),
      others_reproducible l hs.2 hf.2 _ _ (worldOk_sub hw 1) (worldOk_sub hw' 1)]
end

theorem comps_reproducible (l : List CalComp) (hs : ∀ x ∈ l, HasStamps x.toOther)
    (hf : ∀ x ∈ l, AllProps FewParams x.toOther) {w w' : World} (hw : World.Ok w) (hw' : World.Ok w') :
    fmtComps l w = fmtComps l w' := by
  induction l generalizing w w' with
  | nil => rfl
  | cons x l ih =>
    unfold fmtComps
    rw [calComp_fmtWrite, calComp_fmtWrite,
      other_reproducible _ (hs x (by simp)) (hf x (by simp)) _ _ (worldOk_sub hw 0) (worldOk_sub hw' 0),
      ih (fun y hy => hs y (by simp [hy])) (fun y hy => hf y (by simp [hy])) (worldOk_sub hw 1) (worldOk_sub hw' 1)]

/-- **C62.** If every component has its DTSTAMP and UID and no property has two parameters, then serializing gives
the same result every time, whatever the clock, the UUIDs and the order of hash maps. -/
theorem serialization_reproducible (c : Calendar) (hs : ∀ x ∈ c.comps, HasStamps x.toOther)
    (hf : EveryProp FewParams c) (w w' : World) (hw : World.Ok w) (hw' : World.Ok w') :
    c.fmtWrite w = c.fmtWrite w' := by
  unfold Calendar.fmtWrite
  rw [props_reproducible hf.1 (worldOk_sub hw 0) (worldOk_sub hw' 0),
    comps_reproducible c.comps hs hf.2 (worldOk_sub hw 1) (worldOk_sub hw' 1)]

/-- **C62.** With any number of parameters, two serializations of a well-formed calendar whose components have
DTSTAMP and UID are read as the same calendar. -/
theorem serializations_equivalent (c : Calendar) (hc : CalendarOk c) (hs : ∀ x ∈ c.comps, HasStamps x.toOther)
    (w w' : World) (hw : World.Ok w) (hw' : World.Ok w') (out out' : Str) (h : c.fmtWrite w = .ok out)
    (h' : c.fmtWrite w' = .ok out') :
    (∃ r, Calendar.fromStr out = some r) ∧ Calendar.fromStr out = Calendar.fromStr out' := by
  rw [calendar_read hc hw h, calendar_read hc hw' h']
  refine ⟨⟨_, rfl⟩, ?_⟩
  have h2 : ∀ (l : List CalComp) (w w' : World), (∀ x ∈ l, HasStamps x.toOther) → compTrips l w = compTrips l w' := by
    intro l
    induction l with
    | nil => intros; rfl
    | cons x l ih =>
      intro w w' hl
      unfold compTrips
      rw [trip_stamped _ (hl x (by simp)), trip_stamped _ (hl x (by simp)), ih _ (w'.sub 1) (fun y hy => hl y (by simp [hy]))]
  unfold Calendar.trip
  rw [h2 _ _ (w'.sub 1) hs]

/-- **C62.** Writing what was read from a serialized calendar gives the serialized text again, to the last
octet. -/
theorem rewrite_identical (c : Calendar) (hc : CalendarOk c) (hv : CalendarSafe c)
    (hs : ∀ x ∈ c.comps, HasStamps x.toOther) (hf : EveryProp FewParams c) (w w' : World) (hw : World.Ok w)
    (hw' : World.Ok w') (out : Str) (h : c.fmtWrite w = .ok out) :
    ∃ c', Calendar.fromStr out = some c' ∧ c'.fmtWrite w' = .ok out :=
  ⟨c, calendar_roundtrip c hc hv hs w hw out h, by
    rw [serialization_reproducible c hs hf w' w hw' hw]; exact h⟩

end Ical

namespace Ical

open Nom Spec

/-- a calendar with an event that has its stamps and a date -/
def stampedCal : Calendar :=
  Calendar.new.push (.event (Component.allDay (Component.uid (Component.timestamp (Component.summary Event.new c!"a;b")
    ⟨⟨⟨2026, 1, 2⟩, 3, 4, 5, 0⟩⟩) c!"u1") ⟨2026, 1, 2⟩))

/-- It satisfies the conditions, and this is its text, always. -/
example : (∀ x ∈ stampedCal.comps, HasStamps x.toOther) ∧ EveryProp FewParams stampedCal ∧
    ∀ w : World, World.Ok w → @Calendar.fmtWrite Uni.ascii stampedCal w = .ok (
      c!"BEGIN:VCALENDAR\r\nVERSION:2.0\r\nPRODID:ICALENDAR-RS\r\nCALSCALE:GREGORIAN\r\nBEGIN:VEVENT\r\n" ++
      c!"DTEND;VALUE=DATE:20260102\r\nDTSTAMP:20260102T030405Z\r\nDTSTART;VALUE=DATE:20260102\r\n" ++
      c!"SUMMARY:a\\;b\r\nUID:u1\r\nEND:VEVENT\r\nEND:VCALENDAR\r\n") := by
  have h1 : ∀ x ∈ stampedCal.comps, HasStamps x.toOther := by
    intro x hx
    rw [List.mem_singleton.1 (show x ∈ [_] from hx)]
    exact ⟨by decide +kernel, by decide +kernel, trivial⟩
  have h2 : EveryProp FewParams stampedCal := by
    refine ⟨by decide +kernel, fun x hx => ?_⟩
    rw [List.mem_singleton.1 (show x ∈ [_] from hx)]
    exact ⟨by decide +kernel, by decide +kernel, trivial⟩
  refine ⟨h1, h2, fun w hw => ?_⟩
  let w0 : World := ⟨fun _ => ⟨⟨⟨2026, 1, 1⟩, 0, 0, 0, 0⟩⟩, fun _ => c!"0-f", fun _ l => l⟩
  have hw0 : World.Ok w0 := ⟨fun _ _ => .refl _, fun _ => by dsimp only [w0]; decide, fun _ => by dsimp only [w0]; decide⟩
  rw [@serialization_reproducible Uni.ascii _ h1 h2 w w0 hw hw0]
  decide +kernel

/-- Without UID, or with two parameters, the text does depend on the run. -/
example : ∃ w w' : World, World.Ok w ∧ World.Ok w' ∧
    @Property.fmtWrite Uni.ascii ⟨c!"X", c!"v", [(c!"A", c!"1"), (c!"B", c!"2")]⟩ w = .ok c!"X;A=1;B=2:v\r\n" ∧
    @Property.fmtWrite Uni.ascii ⟨c!"X", c!"v", [(c!"A", c!"1"), (c!"B", c!"2")]⟩ w' = .ok c!"X;B=2;A=1:v\r\n" ∧
    @Other.fmtWrite Uni.ascii (.mk c!"V" [(c!"DTSTAMP", ⟨c!"DTSTAMP", c!"x", []⟩)] [] []) w ≠
    @Other.fmtWrite Uni.ascii (.mk c!"V" [(c!"DTSTAMP", ⟨c!"DTSTAMP", c!"x", []⟩)] [] []) w' := by
  refine ⟨⟨fun _ => ⟨⟨⟨2026, 1, 1⟩, 0, 0, 0, 0⟩⟩, fun _ => c!"0-f", fun _ l => l⟩,
    ⟨fun _ => ⟨⟨⟨2026, 1, 1⟩, 0, 0, 0, 0⟩⟩, fun _ => c!"1-f", fun _ l => l.reverse⟩,
    ⟨fun _ _ => .refl _, fun _ => by dsimp only; decide, fun _ => by dsimp only; decide⟩,
    ⟨fun _ _ => List.reverse_perm _, fun _ => by dsimp only; decide, fun _ => by dsimp only; decide⟩,
    by decide +kernel, by decide +kernel, by decide +kernel⟩

end Ical
