import Verif.Spec.LineOrder
import Verif.Props.Presentation
import Verif.Props.Stamps

/-!
C103: the order of lines within a component.
-/

namespace Ical

open Nom Spec

theorem multis_repeatable (k : Str) : multis.contains k = true ↔ k ∈ repeatable := by
  rw [List.contains_eq_mem, decide_eq_true_iff]
  rfl

/-- The converted single properties of a component, by the lines that count. -/
theorem inner_props_counting (l : List Item) (comps : List Other) (k : Str) :
    BMap.get k (innerOfProps (itemsProps l) comps).props =
      if k ∈ repeatable then none else ((counting k l).map (fun x => (meaningProp k x.1 x.2).toProperty)).head? := by
  unfold innerOfProps
  rw [(foldl_insertMulti_rest _ _).1, BMap.get_ofList, find_reverse_filter, List.filter_map, List.filter_filter,
    List.getLast?_map, Option.map_map]
  split
  · rename_i hk
    rw [(List.filter_eq_nil_iff).2]
    · rfl
    · intro p _ hp
      simp only [Function.comp_apply, Bool.and_eq_true, beq_iff_eq, Bool.not_eq_true'] at hp
      have := (multis_repeatable p.name).2 (hp.1 ▸ hk)
      unfold PProp.isMulti at hp
      rw [this] at hp
      cases hp.2
  · rename_i hk
    have e : (itemsProps l).filter (fun p => ((fun x : Str × Property => x.1 == k) ∘ fun p : PProp => (p.name, p.toProperty)) p &&
        !p.isMulti) = (itemsProps l).filter (fun p => p.name == k) := by
      refine List.filter_congr fun p _ => ?_
      simp only [Function.comp_apply]
      by_cases hp : p.name = k
      · have : p.isMulti = false := by
          cases hm : p.isMulti
          · rfl
          · exact absurd ((multis_repeatable p.name).1 hm) (hp ▸ hk)
        simp [this]
      · simp [hp]
    rw [e, itemsProps_filter, List.getLast?_map, Option.map_map]
    unfold counting
    rw [if_neg hk]
    cases (linesNamed k l).getLast? <;> rfl

/-- The converted repeated properties of a component, by the lines that count. -/
theorem inner_multi_counting (l : List Item) (comps : List Other) (k : Str) :
    BMap.get k (innerOfProps (itemsProps l) comps).multi =
      if k ∈ repeatable ∧ counting k l ≠ [] then some ((counting k l).map (fun x => (meaningProp k x.1 x.2).toProperty))
      else none := by
  have hfold : ∀ (l : List PProp) (i : Inner), l.foldl (fun c p => c.insertMulti p.toProperty) i =
      (l.map PProp.toProperty).foldl Inner.insertMulti i := by
    intro l i
    rw [List.foldl_map]
  have key : (((itemsProps l).filter PProp.isMulti).map PProp.toProperty).filter (fun p => p.key == k) =
      if k ∈ repeatable then (counting k l).map (fun x => (meaningProp k x.1 x.2).toProperty) else [] := by
    rw [List.filter_map, List.filter_filter]
    split
    · rename_i hk
      have e : (itemsProps l).filter (fun p => ((fun q : Property => q.key == k) ∘ PProp.toProperty) p && p.isMulti) =
          (itemsProps l).filter (fun p => p.name == k) := by
        refine List.filter_congr fun p _ => ?_
        simp only [Function.comp_apply]
        by_cases hp : p.name = k
        · have : p.isMulti = true := (multis_repeatable p.name).2 (hp ▸ hk)
          simp [this, PProp.toProperty]
        · simp [hp, PProp.toProperty]
      rw [e, itemsProps_filter, List.map_map]
      unfold counting
      rw [if_pos hk]
      rfl
    · rename_i hk
      rw [(List.filter_eq_nil_iff).2]
      · rfl
      · intro p _ hp
        simp only [Function.comp_apply, Bool.and_eq_true, beq_iff_eq, PProp.toProperty] at hp
        exact hk (hp.1 ▸ (multis_repeatable p.name).1 hp.2)
  unfold innerOfProps
  rw [hfold, (foldl_insertMulti _ _ (by exact .nil)).2.2.2 k, key]
  by_cases hk : k ∈ repeatable
  · by_cases hc : counting k l = []
    · simp [hc, BMap.get]
    · simp [hk, hc, BMap.get]
  · simp [hk, BMap.get]

theorem inner_multi_sorted (l : List PProp) (comps : List Other) : BMap.Sorted (innerOfProps l comps).multi := by
  have hfold : ∀ (l : List PProp) (i : Inner), l.foldl (fun c p => c.insertMulti p.toProperty) i =
      (l.map PProp.toProperty).foldl Inner.insertMulti i := by
    intro l i
    rw [List.foldl_map]
  unfold innerOfProps
  rw [hfold]
  exact (foldl_insertMulti _ _ (by exact .nil)).2.2.1

theorem inner_props_sorted (l : List PProp) (comps : List Other) : BMap.Sorted (innerOfProps l comps).props := by
  unfold innerOfProps
  rw [(foldl_insertMulti_rest _ _).1]
  exact BMap.sorted_ofList _

theorem inner_comps (l : List PProp) (comps : List Other) : (innerOfProps l comps).comps = comps := by
  unfold innerOfProps
  exact (foldl_insertMulti_rest _ _).2

/-- The converted properties of a component depend on the counting lines only. -/
theorem inner_counting {l l' : List Item} (h : ∀ k, counting k l = counting k l') (comps : List Other) :
    innerOfProps (itemsProps l) comps = innerOfProps (itemsProps l') comps := by
  have e1 := BMap.ext (inner_props_sorted (itemsProps l) comps) (inner_props_sorted (itemsProps l') comps)
    (fun k => by rw [inner_props_counting, inner_props_counting, h])
  have e2 := BMap.ext (inner_multi_sorted (itemsProps l) comps) (inner_multi_sorted (itemsProps l') comps)
    (fun k => by rw [inner_multi_counting, inner_multi_counting, h])
  have e3 := (inner_comps (itemsProps l) comps).trans (inner_comps (itemsProps l') comps).symm
  generalize innerOfProps (itemsProps l) comps = x at *
  generalize innerOfProps (itemsProps l') comps = y at *
  obtain ⟨x1, x2, x3⟩ := x
  obtain ⟨y1, y2, y3⟩ := y
  simp_all

mutual
theorem sameLines_name : {i i' : Item} → SameLines i i' → ∃ b e b' e' n l l', i = .comp b e n l ∧ i' = .comp b' e' n l' ∧
    (PComp.mk n (itemsProps l) (itemsComps l)).toOther = (PComp.mk n (itemsProps l') (itemsComps l')).toOther
  | _, _, .comp (b := b) (e := e) (b' := b') (e' := e') (n := n) (l := l) (l' := l') own subs => by
    refine ⟨b, e, b', e', n, l, l', rfl, rfl, ?_⟩
    unfold PComp.toOther
    rw [sameSubs_others subs, inner_counting own]
theorem sameSubs_others : {l l' : List Item} → SameSubs l l' → toOthers (itemsComps l) = toOthers (itemsComps l')
  | _, _, .nil => rfl
  | _, _, .left h => by
    rw [itemsComps]
    exact sameSubs_others h
  | _, _, .right h => by
    rw [itemsComps]
    exact sameSubs_others h
  | _, _, .comp h h' => by
    obtain ⟨b, e, b', e', n, l, l', rfl, rfl, h1⟩ := sameLines_name h
    rw [itemsComps, itemsComps, toOthers, toOthers, h1, sameSubs_others h']
end

theorem sameSubs_comps {l l' : List Item} (h : SameSubs l l') :
    (itemsComps l).map PComp.toCalComp = (itemsComps l').map PComp.toCalComp := by
  have key : ∀ l l' : List PComp, toOthers l = toOthers l' → l.map PComp.toCalComp = l'.map PComp.toCalComp := by
    intro l
    induction l with
    | nil =>
      intro l' h
      cases l' with
      | nil => rfl
      | cons c l' => rw [toOthers, toOthers] at h; cases h
    | cons c l ih =>
      intro l' h
      cases l' with
      | nil => rw [toOthers, toOthers] at h; cases h
      | cons c' l' =>
        rw [toOthers, toOthers, List.cons.injEq] at h
        rw [List.map_cons, List.map_cons, ih l' h.2]
        have h1 : c.toInner = c'.toInner := by rw [toOther_inner, toOther_inner, h.1]
        have h2 : c.name = c'.name := by rw [← toOther_name, ← toOther_name, h.1]
        unfold PComp.toCalComp
        rw [h1, h2]
  exact key _ _ (sameSubs_others h)

mutual
theorem sameLines_refl : (b e n : Str) → (l : List Item) → SameLines (.comp b e n l) (.comp b e n l)
  | _, _, _, l => .comp (fun _ => rfl) (sameSubs_refl l)
theorem sameSubs_refl : (l : List Item) → SameSubs l l
  | [] => .nil
  | .prop _ _ _ :: l => .left (.right (sameSubs_refl l))
  | .comp b e n l :: l' => .comp (sameLines_refl b e n l) (sameSubs_refl l')
end

theorem sameSubs_append (pre : List Item) {l l' : List Item} (h : SameSubs l l') : SameSubs (pre ++ l) (pre ++ l') := by
  induction pre with
  | nil => exact h
  | cons i pre ih =>
    cases i with
    | prop k ps v => exact .left (.right ih)
    | comp b e n items => exact .comp (sameLines_refl b e n items) ih

variable [Uni]

/-! ### C103 -/

/-- **C103.** Two files that present calendars whose own lines are the same in the same order, and whose components are
the same up to the order of lines of different names (and up to overridden lines), are read as the same calendar. -/
theorem line_order_irrelevant {br br' : Break} {b e b' e' : Str} {l l' : List Item}
    (h : (Item.comp b e c!"VCALENDAR" l).Ok br) (h' : (Item.comp b' e' c!"VCALENDAR" l').Ok br')
    (own : ownLines l = ownLines l') (subs : SameSubs l l') {file file' : Str}
    (hf : Presents br (.comp b e c!"VCALENDAR" l) file) (hf' : Presents br' (.comp b' e' c!"VCALENDAR" l') file') :
    ∃ c, Calendar.fromStr file = some c ∧ Calendar.fromStr file' = some c := by
  have props : ∀ l : List Item, itemsProps l = (ownLines l).map (fun x => meaningProp x.1 x.2.1 x.2.2) := by
    intro l
    induction l with
    | nil => rfl
    | cons i l ih =>
      cases i with
      | prop k ps v => rw [itemsProps, ownLines, List.map_cons, ih]
      | comp b e n items => rw [itemsProps, ownLines, ih]
  unfold Calendar.fromStr readCalendar
  rw [components_ok (presents_read h hf), components_ok (presents_read h' hf')]
  refine ⟨_, rfl, ?_⟩
  simp only [finish, PComp.name, PCal.toCalendar, PComp.props, PComp.comps]
  simp [PCal.toCalendar, props, own, sameSubs_comps subs]

/-- **C103.** Two files that present single components which are the same up to the order of lines of different names
are read as the same component. -/
theorem line_order_component {br br' : Break} {i i' : Item} (h : i.Ok br) (h' : i'.Ok br') (hs : SameLines i i')
    {file file' : Str} (hf : Presents br i file) (hf' : Presents br' i' file') :
    ∃ c, CalComp.fromStr file = some c ∧ CalComp.fromStr file' = some c := by
  have := sameSubs_comps (.comp hs .nil)
  cases hs with
  | comp own subs =>
    unfold CalComp.fromStr readComponent
    rw [presents_read h hf, presents_read h' hf']
    simp only [itemsComps, List.map_cons, List.map_nil, List.cons.injEq, and_true] at this
    exact ⟨_, rfl, by simp [finish, this]⟩

omit [Uni] in
/-- **C103.** In particular two neighbouring lines of different names can be swapped, and a line and a sub-component. -/
theorem swap_lines {b e n : Str} (pre post : List Item) {k ps v : _} (x : Item)
    (hx : ∀ k' ps' v', x = .prop k' ps' v' → k' ≠ k) :
    SameLines (.comp b e n (pre ++ .prop k ps v :: x :: post)) (.comp b e n (pre ++ x :: .prop k ps v :: post)) := by
  have lines : ∀ k', linesNamed k' (pre ++ .prop k ps v :: x :: post) = linesNamed k' (pre ++ x :: .prop k ps v :: post) := by
    intro k'
    rw [linesNamed_append, linesNamed_append]
    congr 1
    cases x with
    | comp b e n items => simp only [linesNamed]
    | prop key ps' v' =>
      have := hx key ps' v' rfl
      simp only [linesNamed]
      by_cases h1 : k = k'
      · rw [if_pos h1, if_pos h1, if_neg (fun h => this (h.trans h1.symm)), if_neg (fun h => this (h.trans h1.symm))]
      · rw [if_neg h1, if_neg h1]
  refine .comp (fun k' => by unfold counting; rw [lines]) (sameSubs_append pre ?_)
  cases x with
  | prop _ _ _ => exact .left (.left (.right (.right (sameSubs_refl post))))
  | comp b e n items => exact .left (.comp (sameLines_refl b e n items) (.right (sameSubs_refl post)))

end Ical

/-! ### Examples -/

namespace Ical

open Spec

local instance asciiUniLineOrder : Uni := Uni.ascii

/-- An event with its alarm first and its lines in another order, one of them overridden; and in LF instead of CRLF. -/
example : SameLines
    (.comp c!"BEGIN:" c!"END:" c!"VEVENT" [.prop c!"UID" [] c!"1", .prop c!"SUMMARY" [] c!"x", .prop c!"COMMENT" [] c!"a",
      .prop c!"COMMENT" [] c!"b", .comp c!"BEGIN:" c!"END:" c!"VALARM" [.prop c!"ACTION" [] c!"AUDIO"]])
    (.comp c!"BEGIN:" c!"END:" c!"VEVENT" [.comp c!"BEGIN:" c!"END:" c!"VALARM" [.prop c!"ACTION" [] c!"AUDIO"],
      .prop c!"COMMENT" [] c!"a", .prop c!"SUMMARY" [] c!"old", .prop c!"SUMMARY" [] c!"x", .prop c!"COMMENT" [] c!"b",
      .prop c!"UID" [] c!"1"]) := by
  refine .comp (fun k => ?_) ?_
  · by_cases h1 : k = c!"UID"
    · subst h1; rfl
    · by_cases h2 : k = c!"SUMMARY"
      · subst h2; rfl
      · by_cases h3 : k = c!"COMMENT"
        · subst h3; rfl
        · have e : ∀ k', k ≠ k' → ¬ k' = k := fun k' h h' => h h'.symm
          unfold counting
          simp only [linesNamed, if_neg (e _ h1), if_neg (e _ h2), if_neg (e _ h3)]
  · exact .left (.left (.left (.left (.comp (sameLines_refl _ _ _ _) (.right (.right (.right (.right (.right .nil)))))))))

/-- The texts of these two are read as the same component: it is written in the same way. -/
example : let w : World := ⟨fun _ => ⟨⟨⟨2026, 1, 1⟩, 0, 0, 0, 0⟩⟩, fun _ => c!"0-f", fun _ l => l⟩
    (CalComp.fromStr c!"BEGIN:VEVENT\r\nUID:1\r\nSUMMARY:x\r\nCOMMENT:a\r\nCOMMENT:b\r\nBEGIN:VALARM\r\nACTION:AUDIO\r\nEND:VALARM\r\nEND:VEVENT\r\n").map
      (fun c => c.fmtWrite w) =
    (CalComp.fromStr c!"BEGIN:VEVENT\nBEGIN:VALARM\nACTION:AUDIO\nEND:VALARM\nCOMMENT:a\nSUMMARY:old\nSUMMARY:x\nCOMMENT:b\nUID:1\nEND:VEVENT\n").map
      (fun c => c.fmtWrite w) ∧
    (CalComp.fromStr c!"BEGIN:VEVENT\nUID:1\nEND:VEVENT\n").isSome := by
  decide +kernel

/-- The order of lines of the same name counts: the last SUMMARY is kept. -/
example : (CalComp.fromStr c!"BEGIN:VEVENT\r\nSUMMARY:a\r\nSUMMARY:b\r\nEND:VEVENT\r\n").map
      (fun c => (c.toOther.inner.props.get c!"SUMMARY").map Property.val) = some (some c!"b") ∧
    (CalComp.fromStr c!"BEGIN:VEVENT\r\nSUMMARY:b\r\nSUMMARY:a\r\nEND:VEVENT\r\n").map
      (fun c => (c.toOther.inner.props.get c!"SUMMARY").map Property.val) = some (some c!"a") := by
  decide +kernel

end Ical
