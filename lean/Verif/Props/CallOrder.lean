import Verif.Props.Order
import Verif.Spec.WellFormed

/-!
The order of builder calls matters only where two calls write the same property, append to the same
multi-property or both add a sub-component.
-/

namespace Ical.Spec

open Ical

/-- Two builder calls that do not touch the same key and do not both add a sub-component. -/
structure Independent (x y : Call) : Prop where
  sets : ∀ p ∈ x.sets, ∀ q ∈ y.sets, p.key ≠ q.key
  appends : ∀ p q, x.appends = some p → y.appends = some q → p.key ≠ q.key
  adds : x.adds = none ∨ y.adds = none

/-- Two histories of builder calls agree on every key: the same property set last, the same properties appended
in the same order; and they add the same sub-components in the same order. -/
structure SameEffect (calls calls' : List Call) : Prop where
  sets : ∀ k, (calls.flatMap Call.sets).reverse.find? (fun p => p.key == k) =
    (calls'.flatMap Call.sets).reverse.find? (fun p => p.key == k)
  appends : ∀ k, (calls.filterMap Call.appends).filter (fun p => p.key == k) =
    (calls'.filterMap Call.appends).filter (fun p => p.key == k)
  adds : calls.filterMap Call.adds = calls'.filterMap Call.adds

end Ical.Spec

namespace Ical

open Nom Spec

theorem kind_run {C : Type} [Component C] (c : C) (x : Call) : Component.kind (x.run c) = Component.kind c := by
  cases x <;>
    simp only [Call.run, Component.appendProperty, Component.addProperty,
      Component.appendMultiProperty, Component.addMultiProperty, Component.appendComponent,
      Component.timestamp, Component.priority, Component.summary, Component.description, Component.uid,
      Component.sequence, Component.class_, Component.url, Component.lastModified, Component.created,
      Component.starts, Component.ends, Component.allDay, Component.venue, Component.location,
      Component.alarm, Component.kind_withInner]

theorem kind_runs {C : Type} [Component C] (calls : List Call) (c : C) :
    Component.kind (calls.foldl Call.run c) = Component.kind c := by
  induction calls generalizing c with
  | nil => rfl
  | cons x calls ih => rw [List.foldl_cons, ih, kind_run]

theorem sorted_multi_runs {C : Type} [Component C] (calls : List Call) (c : C)
    (h : BMap.Sorted (Component.inner c).multi) : BMap.Sorted (Component.inner (calls.foldl Call.run c)).multi := by
  induction calls generalizing c with
  | nil => exact h
  | cons x calls ih =>
    refine ih _ ?_
    rw [inner_run]
    simp only
    split
    · unfold Inner.insertMulti
      simp only
      split <;> exact BMap.sorted_insert h
    · exact h

/-- **C63.** Nothing but the property set last for each key, the properties appended for each key and the
sub-components added matters: histories that agree on these make the same component. -/
theorem calls_determined {C : Type} [Component C] (c : C) (hp : InOrder (Component.properties c))
    (hm : InOrder (Component.multiProperties c)) (calls calls' : List Call) (h : SameEffect calls calls') :
    Component.toOther (calls.foldl Call.run c) = Component.toOther (calls'.foldl Call.run c) := by
  unfold Component.toOther
  rw [kind_runs, kind_runs]
  have h1 : Component.properties (calls.foldl Call.run c) = Component.properties (calls'.foldl Call.run c) := by
    refine BMap.ext ?_ ?_ ?_
    · unfold Component.properties; rw [props_runs]; exact sorted_sets _ _ hp
    · unfold Component.properties; rw [props_runs]; exact sorted_sets _ _ hp
    · intro k; rw [component_map, component_map, h.sets]
  have h2 : Component.multiProperties (calls.foldl Call.run c) = Component.multiProperties (calls'.foldl Call.run c) := by
    refine BMap.ext (sorted_multi_runs _ _ hm) (sorted_multi_runs _ _ hm) ?_
    intro k
    obtain ⟨e1, e2⟩ := multi_keeps_all c calls k
    obtain ⟨e3, e4⟩ := multi_keeps_all c calls' k
    rw [h.appends, ← e3] at e1
    have hn : ∀ l : List Property, (∀ p ∈ l, p.key ≠ k) ↔ l.filter (fun p => p.key == k) = [] := by
      intro l; simp [List.filter_eq_nil_iff]
    rw [hn, h.appends, ← hn, ← e4] at e2
    cases ha : (Component.multiProperties (calls.foldl Call.run c)).get k with
    | none => rw [e2.1 ha]
    | some a =>
      cases hb : (Component.multiProperties (calls'.foldl Call.run c)).get k with
      | none => rw [e2.2 hb] at ha; cases ha
      | some b => rw [ha, hb] at e1; rw [show a = b from e1]
  have h3 : Component.subComponents (calls.foldl Call.run c) = Component.subComponents (calls'.foldl Call.run c) := by
    rw [sub_components, sub_components, h.adds]
  unfold Component.properties at h1
  unfold Component.multiProperties at h2
  unfold Component.subComponents at h3
  unfold Other.ofInner
  rw [h1, h2, h3]

/-- the effects of independent calls in either order -/
theorem sameEffect_swap {x y : Call} (h : Independent x y) (l : List Call) : SameEffect (x :: y :: l) (y :: x :: l) := by
  refine ⟨?_, ?_, ?_⟩
  · intro k
    simp only [List.flatMap_cons, List.reverse_append, List.append_assoc, List.find?_append]
    congr 1
    cases hx : x.sets.reverse.find? (fun p => p.key == k) with
    | none => simp
    | some p =>
      have hy : y.sets.reverse.find? (fun p => p.key == k) = none := by
        rw [List.find?_eq_none]
        intro q hq hk
        have h1 : p.key = k := by have := List.find?_some hx; simpa using this
        have h2 : q.key = k := by simpa using hk
        exact h.sets p (by simpa using List.mem_of_find?_eq_some hx) q (by simpa using hq) (h1.trans h2.symm)
      rw [hy]; rfl
  · intro k
    cases hx : x.appends with
    | none => cases hy : y.appends <;> simp [hx, hy]
    | some p =>
      cases hy : y.appends with
      | none => simp [hx, hy]
      | some q =>
        have := h.appends p q hx hy
        simp only [List.filterMap_cons, hx, hy, List.filter_cons]
        by_cases h1 : p.key = k <;> by_cases h2 : q.key = k
        · exact absurd (h1.trans h2.symm) this
        all_goals simp [h1, h2]
  · rcases h.adds with h | h <;> cases hy : y.adds <;> cases hx : x.adds <;> simp_all

theorem sameEffect_cons (x : Call) {l l' : List Call} (h : SameEffect l l') : SameEffect (x :: l) (x :: l') := by
  refine ⟨?_, ?_, ?_⟩
  · intro k
    simp only [List.flatMap_cons, List.reverse_append, List.find?_append, h.sets]
  · intro k
    have := h.appends k
    simp only [List.filterMap_cons]
    cases x.appends with
    | none => exact this
    | some p => simp only [List.filter_cons, this]
  · simp only [List.filterMap_cons, h.adds]

theorem independent_symm {x y : Call} (h : Independent x y) : Independent y x :=
  ⟨fun p hp q hq he => h.sets q hq p hp he.symm, fun p q hp hq he => h.appends q p hq hp he.symm, h.adds.symm⟩

theorem sameEffect_perm {l l' : List Call} (hperm : l.Perm l') : l.Pairwise Independent → SameEffect l l' := by
  induction hperm with
  | nil => exact fun _ => ⟨fun _ => rfl, fun _ => rfl, rfl⟩
  | cons x _ ih => exact fun h => sameEffect_cons x (ih (List.pairwise_cons.1 h).2)
  | swap x y l =>
    intro h
    exact sameEffect_swap ((List.pairwise_cons.1 h).1 x (by simp)) l
  | trans h1 _ ih1 ih2 =>
    intro h
    have a := ih1 h
    have b := ih2 (h1.pairwise h (fun hab => independent_symm hab))
    exact ⟨fun k => (a.sets k).trans (b.sets k), fun k => (a.appends k).trans (b.appends k), a.adds.trans b.adds⟩

/-- **C63.** Calls that touch different keys can be made in any order: the component is the same, and so is its
text. -/
theorem call_order_irrelevant [Uni] {C : Type} [Component C] (c : C) (hp : InOrder (Component.properties c))
    (hm : InOrder (Component.multiProperties c)) (calls calls' : List Call) (hperm : calls.Perm calls')
    (hi : calls.Pairwise Independent) (w : World) :
    Component.toOther (calls.foldl Call.run c) = Component.toOther (calls'.foldl Call.run c) ∧
    Component.fmtWrite (calls.foldl Call.run c) w = Component.fmtWrite (calls'.foldl Call.run c) w := by
  have h := calls_determined c hp hm calls calls' (sameEffect_perm hperm hi)
  exact ⟨h, by unfold Component.fmtWrite; rw [h]⟩

/-- **C63.** Repeating a call that sets properties changes nothing. -/
theorem call_idempotent {C : Type} [Component C] (c : C) (hp : InOrder (Component.properties c))
    (hm : InOrder (Component.multiProperties c)) (x : Call) (h1 : x.appends = none) (h2 : x.adds = none) :
    Component.toOther (x.run (x.run c)) = Component.toOther (x.run c) := by
  refine calls_determined c hp hm [x, x] [x] ⟨?_, ?_, ?_⟩
  · intro k
    simp only [List.flatMap_cons, List.flatMap_nil, List.append_nil, List.reverse_append, List.find?_append]
    cases x.sets.reverse.find? (fun p => p.key == k) <;> rfl
  · intro k; simp [h1]
  · simp [h2]

/-- Summary, priority, a comment, an attendee and an alarm are pairwise independent; two comments or two summaries
are not. -/
example (a : Alarm) : ([.summary c!"s", .priority 3, .addMultiProperty c!"COMMENT" c!"x",
      .addMultiProperty c!"ATTENDEE" c!"m", .alarm a] : List Call).Pairwise Independent ∧
    ¬ Independent (.summary c!"s") (.addProperty c!"SUMMARY" c!"t") ∧
    ¬ Independent (.addMultiProperty c!"COMMENT" c!"x") (.addMultiProperty c!"COMMENT" c!"y") := by
  refine ⟨?_, fun h => h.sets ⟨c!"SUMMARY", c!"s", []⟩ (by simp [Call.sets]) ⟨c!"SUMMARY", c!"t", []⟩ (by simp [Call.sets]) rfl,
    fun h => h.appends _ _ rfl rfl rfl⟩
  simp only [List.pairwise_cons, List.mem_cons, List.not_mem_nil, or_false, forall_eq_or_imp, forall_eq]
  repeat' apply And.intro
  all_goals first
    | exact ⟨by simp [Call.sets], by simp [Call.appends], by simp [Call.adds]⟩
    | simp

/-- The order of dependent calls does matter. -/
example : ((([.summary c!"a", .summary c!"b"] : List Call).foldl Call.run Event.new).inner.props.get c!"SUMMARY").map
      Property.val = some c!"b" ∧
    ((([.summary c!"b", .summary c!"a"] : List Call).foldl Call.run Event.new).inner.props.get c!"SUMMARY").map
      Property.val = some c!"a" := by
  decide +kernel

end Ical
