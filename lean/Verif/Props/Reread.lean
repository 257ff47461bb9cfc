import Verif.Spec.Reread
import Verif.Props.Roundtrip
import Verif.Props.Escaping

/-!
C83: exactly what is lost when texts are written and read back.
-/

namespace Ical

open Nom Spec

/-! ### Calendars -/

variable [Uni]

theorem readBack_reread (p : Property) : p.readBack = rereadProp p := by
  unfold Property.readBack rereadProp
  simp only [text_reread, isText_iff]

theorem readProps_reread (m : BMap Property) : readProps m = m.map (fun x => (x.1, rereadProp x.2)) := by
  unfold readProps
  simp only [readBack_reread]

theorem readMulti_reread (m : BMap (List Property)) :
    readMulti m = m.map (fun x => (x.1, x.2.map rereadProp)) := by
  unfold readMulti
  refine List.map_congr_left ?_
  intro x _
  rw [show (Property.readBack : Property → Property) = rereadProp from funext readBack_reread]

mutual
theorem readAll_reread : (o : Other) → o.readAll = rereadOther o
  | .mk _ props multi comps => by
    unfold Other.readAll
    rw [rereadOther, readProps_reread, readMulti_reread, readAlls_reread comps]
theorem readAlls_reread : (l : List Other) → readAlls l = rereadOthers l
  | [] => by rw [rereadOthers, readAlls]
  | o :: l => by rw [readAlls, rereadOthers, readAll_reread o, readAlls_reread l]
end

theorem readComp_reread (x : CalComp) : x.withContent x.toOther.readAll = rereadComp x := by
  rw [readAll_reread]
  cases x with
  | other o => obtain ⟨n, p, m, c⟩ := o; rfl
  | _ => rfl

theorem readCal_reread (c : Calendar) : c.readAll = rereadCal c := by
  unfold Calendar.readAll rereadCal
  rw [show (fun x : CalComp => x.withContent x.toOther.readAll) = rereadComp from funext readComp_reread,
    show (Property.readBack : Property → Property) = rereadProp from funext readBack_reread]

omit [Uni] in
theorem inOrder_reread {m : BMap Property} (h : InOrder m) : InOrder (m.map (fun x => (x.1, rereadProp x.2))) := by
  unfold InOrder at *
  rw [List.pairwise_map]
  exact h

mutual
theorem trip_reread : (o : Other) → OtherOk o → (w : World) → World.Ok w → Stamped (rereadOther o) (o.trip w)
  | .mk name props multi comps, ho, w, hw => by
    unfold Other.trip
    rw [rereadOther, readProps_reread, readMulti_reread]
    exact .mk (hw.now []) (hw.uuid []) (addMissing_spec (inOrder_reread ho.2.1.inOrder))
      (addMissing_spec (sorted_addMissing (inOrder_reread ho.2.1.inOrder)))
      (tripAll_reread comps ho.2.2 _ (worldOk_sub hw 2))
theorem tripAll_reread : (l : List Other) → OthersOk l → (w : World) → World.Ok w →
    StampedAll (rereadOthers l) (tripAll l w)
  | [], _, _, _ => by rw [rereadOthers, tripAll]; exact .nil
  | o :: l, ho, w, hw => by
    rw [rereadOthers, tripAll]
    exact .cons (trip_reread o ho.1 _ (worldOk_sub hw 0)) (tripAll_reread l ho.2 _ (worldOk_sub hw 1))
end

omit [Uni] in
theorem sameKind_trans {x y z : CalComp} (h1 : SameKind x y) (h2 : SameKind y z) : SameKind x z := by
  cases x <;> cases y <;> first | exact h1.elim | (cases z <;> first | exact h2.elim | trivial)

omit [Uni] in
theorem sameKind_symm {x y : CalComp} (h : SameKind x y) : SameKind y x := by
  cases x <;> cases y <;> first | exact h.elim | trivial

theorem rereadComp_toOther (x : CalComp) : (rereadComp x).toOther = rereadOther x.toOther := by
  rw [← readComp_reread, withContent_toOther _ _ (readAll_name _), readAll_reread]

/-- **C83.** What any well-formed calendar is read back as, whatever its texts: the calendar with every TEXT value
changed as by `rereadText`, at any depth, and with DTSTAMP and UID generated where they are missing. -/
theorem calendar_reread (c : Calendar) (hc : CalendarOk c) (w : World) (hw : World.Ok w) (out : Str)
    (h : c.fmtWrite w = .ok out) : ∃ c', Calendar.fromStr out = some c' ∧ CalStamped (rereadCal c) c' := by
  refine ⟨_, calendar_read hc hw h, ?_, ?_, ?_⟩
  · show c.props.map Property.readBack = c.props.map rereadProp
    rw [show (Property.readBack : Property → Property) = rereadProp from funext readBack_reread]
  · show (compTrips c.comps (w.sub 1)).length = (c.comps.map rereadComp).length
    rw [(compTrips_get c.comps (w.sub 1)).1, List.length_map]
  · intro i y x' hy hx'
    simp only [rereadCal, List.getElem?_map, Option.map_eq_some_iff] at hy
    obtain ⟨x, hx, rfl⟩ := hy
    obtain ⟨w', h3, rfl⟩ := (compTrips_get c.comps (w.sub 1)).2 i x x' hx hx'
    have hm : x ∈ c.comps := List.mem_of_getElem? hx
    refine ⟨?_, ?_⟩
    · rw [← readComp_reread]
      exact sameKind_trans (sameKind_symm (sameKind_withContent _ _)) (sameKind_withContent _ _)
    · rw [withContent_toOther _ _ (trip_name _ _), rereadComp_toOther]
      exact trip_reread _ (calCompOk_other (hc.comps x hm)) _ (h3 (worldOk_sub hw 1))

/-! ### Exactly which calendars survive -/

omit [Uni] in
theorem rereadText_iff (t : Str) : rereadText t = t ↔ TextSafe t := by
  rw [← text_reread, text_roundtrip_partial]
  rfl

omit [Uni] in
theorem rereadProp_iff (p : Property) : rereadProp p = p ↔ ValueSafe p := by
  obtain ⟨k, v, ps⟩ := p
  unfold rereadProp ValueSafe
  simp only [Property.mk.injEq, true_and, and_true]
  split
  · rename_i h
    simp only [rereadText_iff]
    exact ⟨fun h' _ => h', fun h' => h' h⟩
  · rename_i h
    exact ⟨fun _ h' => absurd h' h, fun _ => rfl⟩

omit [Uni] in
theorem map_id_iff {α : Type} {f : α → α} {l : List α} : l.map f = l ↔ ∀ x ∈ l, f x = x := by
  induction l with
  | nil => simp
  | cons x l ih => simp [ih]

omit [Uni] in
theorem rereadProps_iff (m : BMap Property) :
    m.map (fun x => (x.1, rereadProp x.2)) = m ↔ ∀ x ∈ m, ValueSafe x.2 := by
  rw [map_id_iff]
  refine forall₂_congr fun x _ => ?_
  obtain ⟨k, p⟩ := x
  simp [rereadProp_iff]

omit [Uni] in
theorem rereadMulti_iff (m : BMap (List Property)) :
    m.map (fun x => (x.1, x.2.map rereadProp)) = m ↔ ∀ x ∈ m, ∀ p ∈ x.2, ValueSafe p := by
  rw [map_id_iff]
  refine forall₂_congr fun x _ => ?_
  obtain ⟨k, p⟩ := x
  simp [map_id_iff, rereadProp_iff]

omit [Uni] in
mutual
theorem rereadOther_iff : (o : Other) → (rereadOther o = o ↔ OtherSafe o)
  | .mk _ props multi comps => by
    rw [rereadOther, OtherSafe]
    simp only [Other.mk.injEq, true_and, rereadProps_iff, rereadMulti_iff, rereadOthers_iff comps]
theorem rereadOthers_iff : (l : List Other) → (rereadOthers l = l ↔ OthersSafe l)
  | [] => by simp [rereadOthers, OthersSafe]
  | o :: l => by
    rw [rereadOthers, OthersSafe]
    simp only [List.cons.injEq, rereadOther_iff o, rereadOthers_iff l]
end

theorem rereadComp_iff (x : CalComp) : rereadComp x = x ↔ OtherSafe x.toOther := by
  rw [← rereadOther_iff]
  constructor
  · intro h
    rw [← rereadComp_toOther, h]
  · intro h
    rw [← readComp_reread, readAll_reread, h, withContent_self]

theorem rereadCal_iff (c : Calendar) : rereadCal c = c ↔ CalendarSafe c := by
  obtain ⟨props, comps⟩ := c
  unfold rereadCal
  simp only [Calendar.mk.injEq, map_id_iff, rereadProp_iff, rereadComp_iff]
  exact ⟨fun h => ⟨h.1, h.2⟩, fun h => ⟨h.props, h.comps⟩⟩

/-- **C83.** A well-formed calendar whose components have DTSTAMP and UID is read back as it was if and only if
all its texts survive. -/
theorem calendar_survives_iff (c : Calendar) (hc : CalendarOk c) (hst : ∀ x ∈ c.comps, HasStamps x.toOther)
    (w : World) (hw : World.Ok w) (out : Str) (h : c.fmtWrite w = .ok out) :
    Calendar.fromStr out = some c ↔ CalendarSafe c := by
  rw [calendar_read hc hw h, trip_readAll hst, readCal_reread, Option.some.injEq, rereadCal_iff]

/-- **C83.** Reading and writing again and again is stable from the first time on if and only if the texts read
the first time survive. -/
theorem reread_stable_iff (f : Nat → Calendar) (hf : Chain f) (h0 : CalendarOk (f 0)) :
    (∀ n, f (n + 1) = f 1) ↔ CalendarSafe (f 1) := by
  rw [← rereadCal_iff, ← readCal_reread]
  constructor
  · intro h
    rw [← chain_readAll hf h0 0]
    exact h 1
  · intro h n
    induction n with
    | zero => rfl
    | succ n ih => rw [chain_readAll hf h0 n, ih, h]

omit [Uni] in
/-- a calendar with a text that does not survive, in a nested component -/
example : let p : Property := ⟨c!"SUMMARY", c!"C:\\new, \\:", []⟩
    let c : Calendar := ⟨[], [.event ⟨⟨[], [], [.mk c!"VALARM" [(c!"SUMMARY", p)] [] []]⟩⟩]⟩
    ¬ CalendarSafe c ∧ (rereadCal c).comps.map (fun x => x.toOther.inner.comps.map (fun o => o.inner.props)) =
      [[[(c!"SUMMARY", ⟨c!"SUMMARY", c!"C:\new, :", []⟩)]]] := by
  refine ⟨?_, by decide +kernel⟩
  intro h
  have := h.comps _ List.mem_cons_self
  exact absurd this.2.2.1.1 (by decide +kernel)

end Ical
