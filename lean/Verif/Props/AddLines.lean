import Verif.Spec.AddLines
import Verif.Props.FileBlocks
import Verif.Props.WriteWork

/-!
# Adding a line to the components of a name

C151: a program that adds a line behind the lines that begin components of a name, or before those that end them, adds the
property of this line to these components.
-/

namespace Ical

open Nom Spec

/-! ### lines -/

variable {atEnd : Bool} {name line : Str}

theorem addLine_nil : addLine atEnd name line [] = [] := rfl

theorem addLine_ended {s : Str} (h : LineEnded s) (t : Str) :
    addLine atEnd name line (s ++ t) = addLine atEnd name line s ++ addLine atEnd name line t := by
  unfold addLine
  rw [h, List.map_append, List.flatten_append]

theorem addLine_flat {s : Str} (h : Flat s) : addLine atEnd name line s = s := by
  unfold addLine
  rw [List.map_congr_left (g := id), List.map_id, cutLines_flatten]
  intro x hx
  rw [h.2 x hx, if_neg (by simp)]
  rfl

theorem addLine_pass {s : Str} (h : Flat s) (t : Str) : addLine atEnd name line (s ++ t) = s ++ addLine atEnd name line t := by
  rw [addLine_ended h.1, addLine_flat h]

/-- what is added behind the line that begins a component -/
def behind (atEnd : Bool) (name line n : Str) : Str := if n = name then (if atEnd then [] else line) else []

/-- what is added before the line that ends a component -/
def before (atEnd : Bool) (name line n : Str) : Str := if n = name then (if atEnd then line else []) else []

theorem addLine_begin {x n : Str} {br : Break} (hx : NoLf x) (h : bracketOf (x ++ br.text) = some (true, n)) (t : Str) :
    addLine atEnd name line (x ++ br.text ++ t) =
      x ++ br.text ++ (behind atEnd name line n ++ addLine atEnd name line t) := by
  unfold addLine
  rw [cutLines_break hx, List.map_cons, List.flatten_cons, h]
  unfold behind
  cases atEnd <;> by_cases hn : n = name <;> simp [hn]

theorem addLine_end {x n : Str} {br : Break} (hx : NoLf x) (h : bracketOf (x ++ br.text) = some (false, n)) (t : Str) :
    addLine atEnd name line (x ++ br.text ++ t) =
      before atEnd name line n ++ (x ++ br.text ++ addLine atEnd name line t) := by
  unfold addLine
  rw [cutLines_break hx, List.map_cons, List.flatten_cons, h]
  unfold before
  cases atEnd <;> by_cases hn : n = name <;> simp [hn]

theorem addLine_last {x n : Str} (hx : NoLf x) (hne : x ≠ []) (h : bracketOf x = some (false, n)) :
    addLine atEnd name line x = before atEnd name line n ++ x := by
  unfold addLine
  rw [cutLines_last hx, if_neg hne, List.map_singleton, h]
  unfold before
  cases atEnd <;> by_cases hn : n = name <;> simp [hn]

/-! ### documents -/

section
variable [Uni]

omit [Uni] in
theorem spacedAll_snoc {br : Break} {i : Item} {x : Str} (hi : Spaced br i x) : (l : List Item) → {s : Str} → SpacedAll br l s →
    SpacedAll br (l ++ [i]) (s ++ x)
  | [], s, h => by
    simp only [SpacedAll] at h
    subst h
    simp only [List.nil_append, SpacedAll]
    exact ⟨x, [], hi, rfl, by simp⟩
  | j :: l, s, h => by
    simp only [SpacedAll] at h
    obtain ⟨s1, s2, h1, h2, rfl⟩ := h
    simp only [List.cons_append, SpacedAll]
    exact ⟨s1, s2 ++ x, h1, spacedAll_snoc hi l h2, by simp⟩

omit [Uni] in
/-- the elements within a component, and what has been added -/
theorem spaced_put {br : Break} {key : Str} {params : List DParam} {val : Str} (n : Str) {l : List Item} {bl s : Str} (hb : Blank bl)
    (h : SpacedAll br l s) : ∃ bl' s', Blank bl' ∧
      SpacedAll br (if n = name then put atEnd (.prop key params val) l else l) s' ∧
      bl' ++ s' = behind atEnd name ((Item.prop key params val).text br) n ++ (bl ++ (s ++ before atEnd name ((Item.prop key params val).text br) n)) := by
  have hi : Spaced br (.prop key params val) ((Item.prop key params val).text br ++ []) := by
    simp only [Spaced]; exact ⟨[], blank_nil, rfl⟩
  unfold behind before put
  by_cases hn : n = name
  · simp only [if_pos hn]
    cases atEnd
    · refine ⟨[], (Item.prop key params val).text br ++ bl ++ s, blank_nil, ?_, by simp⟩
      simp only [SpacedAll, Spaced, Bool.false_eq_true, if_false]
      exact ⟨_, s, ⟨bl, hb, rfl⟩, h, rfl⟩
    · have := spacedAll_snoc hi l h
      exact ⟨bl, _, hb, this, by simp⟩
  · simp only [if_neg hn]
    exact ⟨bl, s, hb, h, by simp⟩

theorem put_ok {br : Break} {i : Item} (hi : i.Ok br) {l : List Item} (h : ItemsOk br l) : ItemsOk br (put atEnd i l) := by
  unfold put
  split
  · rw [itemsOk_append]; simp only [ItemsOk, and_true]; exact ⟨h, hi⟩
  · simp only [ItemsOk]; exact ⟨hi, h⟩

omit [Uni] in
theorem put_unbroken {i : Item} (hi : i.Unbroken) {l : List Item} (h : ItemsUnbroken l) : ItemsUnbroken (put atEnd i l) := by
  unfold put
  split
  · rw [itemsUnbroken_append]; simp only [ItemsUnbroken, and_true]; exact ⟨h, hi⟩
  · simp only [ItemsUnbroken]; exact ⟨hi, h⟩

theorem withAdded_ok {br : Break} {i : Item} (hi : i.Ok br) : (l : List Item) → ItemsOk br l → ItemsOk br (withAdded atEnd name i l)
  | [], _ => by simp [withAdded, ItemsOk]
  | .prop key params val :: l, h => by
    rw [ItemsOk] at h
    rw [withAdded, ItemsOk]
    exact ⟨h.1, withAdded_ok hi l h.2⟩
  | .comp b e n items :: l, h => by
    simp only [ItemsOk, Item.Ok] at h
    simp only [withAdded, ItemsOk, Item.Ok]
    refine ⟨⟨h.1.1, h.1.2.1, h.1.2.2.1, ?_⟩, withAdded_ok hi l h.2⟩
    split
    · exact put_ok hi (withAdded_ok hi items h.1.2.2.2)
    · exact withAdded_ok hi items h.1.2.2.2

omit [Uni] in
theorem withAdded_unbroken {i : Item} (hi : i.Unbroken) : (l : List Item) → ItemsUnbroken l → ItemsUnbroken (withAdded atEnd name i l)
  | [], _ => by simp [withAdded, ItemsUnbroken]
  | .prop key params val :: l, h => by
    rw [ItemsUnbroken] at h
    rw [withAdded, ItemsUnbroken]
    exact ⟨h.1, withAdded_unbroken hi l h.2⟩
  | .comp b e n items :: l, h => by
    simp only [ItemsUnbroken, Item.Unbroken] at h
    simp only [withAdded, ItemsUnbroken, Item.Unbroken]
    refine ⟨?_, withAdded_unbroken hi l h.2⟩
    split
    · exact put_unbroken hi (withAdded_unbroken hi items h.1)
    · exact withAdded_unbroken hi items h.1

/-- adding a line to the text of elements -/
theorem spaced_added {br : Break} {key : Str} {params : List DParam} {val : Str} : (l : List Item) → ItemsOk br l → ItemsUnbroken l →
    {s : Str} → SpacedAll br l s →
    ∃ s', SpacedAll br (withAdded atEnd name (.prop key params val) l) s' ∧
      ∀ t, addLine atEnd name ((Item.prop key params val).text br) (s ++ t) =
        s' ++ addLine atEnd name ((Item.prop key params val).text br) t
  | [], _, _, s, hs => by
    simp only [SpacedAll] at hs
    subst hs
    exact ⟨[], by simp [withAdded, SpacedAll], fun t => rfl⟩
  | .prop k ps v :: l, h, hu, s, hs => by
    simp only [SpacedAll, Spaced] at hs
    obtain ⟨s1, s2, ⟨bl, hb, rfl⟩, h2, rfl⟩ := hs
    rw [ItemsOk, Item.Ok] at h
    rw [ItemsUnbroken] at hu
    obtain ⟨s', i1, i2⟩ := spaced_added (key := key) (params := params) (val := val) l h.2 hu.2 h2
    obtain ⟨p1, -⟩ := prop_line (br := br) h.1.1 hu.1
    refine ⟨(Item.prop k ps v).text br ++ bl ++ s', ?_, fun t => ?_⟩
    · rw [withAdded]
      simp only [SpacedAll, Spaced]
      exact ⟨_, s', ⟨bl, hb, rfl⟩, i1, rfl⟩
    · rw [List.append_assoc, addLine_pass (flat_append p1 (flat_blank hb)), i2]
      simp only [List.append_assoc]
  | .comp b e n items :: l, h, hu, s, hs => by
    simp only [SpacedAll, Spaced] at hs
    obtain ⟨s1, s2, ⟨bl, body, bl', hb, hb', hbody, rfl⟩, h2, rfl⟩ := hs
    simp only [ItemsOk, Item.Ok] at h
    simp only [ItemsUnbroken, Item.Unbroken] at hu
    obtain ⟨s', i1, i2⟩ := spaced_added (key := key) (params := params) (val := val) l h.2 hu.2 h2
    obtain ⟨b', j1, j2⟩ := spaced_added (key := key) (params := params) (val := val) items h.1.2.2.2 hu.1 hbody
    obtain ⟨n1, -, n3⟩ := (bracket_line (br := br) h.1.2.2.1).1 h.1.1
    obtain ⟨m1, -, m3⟩ := (bracket_line (br := br) h.1.2.2.1).2 h.1.2.1
    obtain ⟨blp, sp, q1, q2, q3⟩ := spaced_put (atEnd := atEnd) (name := name) (key := key) (params := params) (val := val) n hb j1
    refine ⟨b ++ (n ++ (br.text ++ blp ++ (sp ++ (e ++ (n ++ (br.text ++ bl')))))) ++ s', ?_, fun t => ?_⟩
    · rw [withAdded]
      simp only [SpacedAll, Spaced]
      exact ⟨_, s', ⟨blp, sp, bl', q1, hb', q2, rfl⟩, i1, rfl⟩
    · have e1 : b ++ (n ++ (br.text ++ bl ++ (body ++ (e ++ (n ++ (br.text ++ bl')))))) ++ s2 ++ t =
          b ++ n ++ br.text ++ (bl ++ (body ++ (e ++ n ++ br.text ++ (bl' ++ (s2 ++ t))))) := by
        simp only [List.append_assoc]
      have e2 : b ++ (n ++ (br.text ++ blp ++ (sp ++ (e ++ (n ++ (br.text ++ bl')))))) ++ s' =
          b ++ n ++ br.text ++ (blp ++ sp ++ (e ++ n ++ br.text ++ (bl' ++ s'))) := by
        simp only [List.append_assoc]
      rw [e1, e2, q3, addLine_begin n1 n3, addLine_pass (flat_blank hb), j2, addLine_end m1 m3, addLine_pass (flat_blank hb'), i2]
      simp only [List.append_assoc]

omit [Uni] in
theorem addLine_mem {c : Char} {s : Str} (h : c ∈ addLine atEnd name line s) : c ∈ s ∨ c ∈ line := by
  unfold addLine at h
  obtain ⟨y, hy, hc⟩ := List.mem_flatten.1 h
  obtain ⟨x, hx, rfl⟩ := List.mem_map.1 hy
  have hs : c ∈ x → c ∈ s := by
    intro hcx
    rw [← cutLines_flatten s]
    exact List.mem_flatten.2 ⟨x, hx, hcx⟩
  split at hc
  · split at hc
    · exact (List.mem_append.1 hc).elim .inr (fun h => .inl (hs h))
    · exact (List.mem_append.1 hc).elim (fun h => .inl (hs h)) .inr
  · exact .inl (hs hc)

/-- the text with the line added is a document -/
theorem added_text {br : Break} {b e : Str} {l : List Item} (h : (Item.comp b e c!"VCALENDAR" l).Ok br)
    (hu : (Item.comp b e c!"VCALENDAR" l).Unbroken) {file : Str} (hp : Presents br (.comp b e c!"VCALENDAR" l) file)
    {key : Str} {params : List DParam} {val : Str} (hi : (Item.prop key params val).Ok br) (hiu : (Item.prop key params val).Unbroken)
    (atEnd : Bool) (name : Str) :
    (Item.withAdded atEnd name (.prop key params val) (.comp b e c!"VCALENDAR" l)).Ok br ∧
    Presents br (Item.withAdded atEnd name (.prop key params val) (.comp b e c!"VCALENDAR" l))
      (addLine atEnd name ((Item.prop key params val).text br) (unfold file)) ∧
    MarkerFree (addLine atEnd name ((Item.prop key params val).text br) (unfold file)) ∧ NoIndent (unfold file) := by
  have h0 := h
  have hu0 := hu
  simp only [Item.Ok] at h
  simp only [Item.Unbroken] at hu
  simp only [Presents] at hp
  obtain ⟨lead, bl, body, tail, hl, hb, ht, hbody, hr, hfold⟩ := hp
  obtain ⟨b', j1, j2⟩ := spaced_added (atEnd := atEnd) (name := name) (key := key) (params := params) (val := val) l h.2.2.2 hu hbody
  obtain ⟨blp, sp, q1, q2, q3⟩ := spaced_put (atEnd := atEnd) (name := name) (key := key) (params := params) (val := val) c!"VCALENDAR" hb j1
  have hun := foldedForm_unfold hfold
  generalize hline : (Item.prop key params val).text br = line at *
  have hlast : addLine atEnd name line (e ++ (c!"VCALENDAR" ++ tail)) = before atEnd name line c!"VCALENDAR" ++ (e ++ (c!"VCALENDAR" ++ tail)) := by
    obtain ⟨bs, rfl⟩ := ht
    cases bs with
    | nil =>
      obtain ⟨m1, -, -⟩ := (bracket_line (br := br) h.2.2.1).2 h.2.1
      have e2 := bracketOf_end (x := c!"VCALENDAR") h.2.1
      simp only [List.map_nil, List.flatten_nil, List.append_nil]
      exact addLine_last m1 (by simp) e2
    | cons br' bs =>
      obtain ⟨m1, -, m3⟩ := (bracket_line (br := br') h.2.2.1).2 h.2.1
      have e1 : e ++ (c!"VCALENDAR" ++ ((br' :: bs).map Break.text).flatten) =
          e ++ c!"VCALENDAR" ++ br'.text ++ ((bs.map Break.text).flatten ++ []) := by
        simp only [List.map_cons, List.flatten_cons, List.append_assoc, List.append_nil]
      rw [e1, addLine_end m1 m3, addLine_pass (flat_blank ⟨bs, rfl⟩), addLine_nil]
  have hres : addLine atEnd name line (unfold file) =
      lead ++ (b ++ (c!"VCALENDAR" ++ (br.text ++ blp ++ (sp ++ (e ++ (c!"VCALENDAR" ++ tail)))))) := by
    obtain ⟨n1, -, n3⟩ := (bracket_line (br := br) h.2.2.1).1 h.1
    have e1 : lead ++ (b ++ (c!"VCALENDAR" ++ (br.text ++ bl ++ (body ++ (e ++ (c!"VCALENDAR" ++ tail)))))) =
        lead ++ (b ++ c!"VCALENDAR" ++ br.text ++ (bl ++ (body ++ (e ++ (c!"VCALENDAR" ++ tail))))) := by
      simp only [List.append_assoc]
    have e2 : lead ++ (b ++ (c!"VCALENDAR" ++ (br.text ++ blp ++ (sp ++ (e ++ (c!"VCALENDAR" ++ tail)))))) =
        lead ++ (b ++ c!"VCALENDAR" ++ br.text ++ (blp ++ sp ++ (e ++ (c!"VCALENDAR" ++ tail)))) := by
      simp only [List.append_assoc]
    rw [hun, e1, e2, q3, addLine_pass (flat_blank hl), addLine_begin n1 n3, addLine_pass (flat_blank hb), j2, hlast]
    simp only [List.append_assoc]
  have hok : (Item.withAdded atEnd name (.prop key params val) (.comp b e c!"VCALENDAR" l)).Ok br := by
    simp only [Item.withAdded, Item.Ok]
    refine ⟨h.1, h.2.1, h.2.2.1, ?_⟩
    split
    · exact put_ok hi (withAdded_ok hi l h.2.2.2)
    · exact withAdded_ok hi l h.2.2.2
  have hub : (Item.withAdded atEnd name (.prop key params val) (.comp b e c!"VCALENDAR" l)).Unbroken := by
    simp only [Item.withAdded, Item.Unbroken]
    split
    · exact put_unbroken hiu (withAdded_unbroken hiu l hu)
    · exact withAdded_unbroken hiu l hu
  refine ⟨hok, ?_⟩
  rw [Item.withAdded] at hok hub ⊢
  have hplain := presents_plain h0 hu0 hl hb ht hbody hr
  obtain ⟨r1, r2, -⟩ := presents_plain hok hub hl q1 ht q2 (by
    intro hbr hm
    rw [← hres] at hm
    rcases addLine_mem hm with hm | hm
    · rw [hun] at hm
      exact hr hbr hm
    · subst hbr
      rw [← hline, Item.text] at hm
      simp only [Item.Unbroken] at hiu
      rcases List.mem_append.1 hm with hm | hm
      · exact hiu.1 hm
      · simp [Break.text] at hm)
  rw [hres]
  refine ⟨r1, r2, ?_⟩
  rw [hun]
  exact hplain.2.2

/-! ### calendars -/

omit [Uni] in
theorem itemsProps_withAdded (i : Item) : (l : List Item) → itemsProps (withAdded atEnd name i l) = itemsProps l
  | [] => by rw [withAdded]
  | .prop k ps v :: l => by rw [withAdded, itemsProps, itemsProps, itemsProps_withAdded i l]
  | .comp b e n items :: l => by rw [withAdded, itemsProps_comp, itemsProps_comp, itemsProps_withAdded i l]

omit [Uni] in
theorem linesNamed_withAdded (i : Item) (k : Str) : (l : List Item) → linesNamed k (withAdded atEnd name i l) = linesNamed k l
  | [] => by rw [withAdded]
  | .prop key ps v :: l => by rw [withAdded, linesNamed, linesNamed, linesNamed_withAdded i k l]
  | .comp b e n items :: l => by rw [withAdded, linesNamed, linesNamed, linesNamed_withAdded i k l]

omit [Uni] in
theorem props_put (key : Str) (params : List DParam) (val : Str) (l : List Item) :
    (itemsProps (put atEnd (.prop key params val) l)).map PProp.toProperty =
      put atEnd (meaningProp key params val).toProperty ((itemsProps l).map PProp.toProperty) := by
  unfold put
  cases atEnd <;> simp [itemsProps, itemsProps_append]

omit [Uni] in
theorem comps_put (key : Str) (params : List DParam) (val : Str) (l : List Item) :
    itemsComps (put atEnd (.prop key params val) l) = itemsComps l := by
  unfold put
  cases atEnd <;> simp [itemsComps, itemsComps_append]

omit [Uni] in
theorem counting_put (key : Str) (params : List DParam) (val : Str) (l : List Item) (x : Str) :
    counting x (put atEnd (.prop key params val) l) =
      if x = key then
        if x ∈ repeatable then put atEnd (params, val) (counting x l)
        else if atEnd then [(params, val)] else [((counting x l).head?).getD (params, val)]
      else counting x l := by
  unfold counting put
  by_cases hx : x = key
  · subst hx
    cases atEnd <;> by_cases hr : x ∈ repeatable <;> simp [hr, linesNamed, linesNamed_append]
    cases h : linesNamed x l with
    | nil => rfl
    | cons a l' => simp [List.getLast?_cons]
  · have : ¬ key = x := fun e => hx e.symm
    cases atEnd <;> simp [hx, linesNamed, linesNamed_append, this]

omit [Uni] in
theorem read_added (key : Str) (params : List DParam) (val b e n : Str) (l l' : List Item) (hp : itemsProps l' = itemsProps l)
    (hl : ∀ k, linesNamed k l' = linesNamed k l)
    (h : WithAddedAll atEnd name (meaningProp key params val).toProperty (toOthers (itemsComps l)) (toOthers (itemsComps l'))) :
    WithAdded atEnd name (meaningProp key params val).toProperty (readAs (.comp b e n l)).toOther
      (readAs (.comp b e n (if n = name then put atEnd (.prop key params val) l' else l'))).toOther := by
  have hc : ∀ k, counting k l' = counting k l := by
    intro k; unfold counting; rw [hl]
  have hk : (meaningProp key params val).toProperty.key = key := rfl
  rw [toOther_readAs, toOther_readAs]
  by_cases hn : n = name
  · simp only [WithAdded, if_pos hn, comps_put]
    refine ⟨trivial, fun x => ?_, fun x => ?_, h⟩
    · simp only [lookup_eq_get, inner_props_counting, counting_put, hc, hk]
      by_cases hx : x = key
      · subst hx
        by_cases hr : x ∈ repeatable
        · simp [hr]
        · cases atEnd
          · simp only [hn, hr, not_false_iff, and_self, if_true, if_false, Bool.false_eq_true]
            cases counting x l <;> rfl
          · simp [hn, hr]
      · simp [hx]
    · simp only [lookup_eq_get, inner_multi_counting, counting_put, hc, hk]
      by_cases hx : x = key
      · subst hx
        by_cases hr : x ∈ repeatable
        · simp only [hn, hr, and_self, if_true, true_and]
          rw [if_pos (by unfold put; cases atEnd <;> simp)]
          unfold put
          cases atEnd <;> cases counting x l <;> simp
        · simp [hr]
      · simp [hx]
  · simp only [WithAdded, if_neg hn]
    refine ⟨trivial, fun x => ?_, fun x => ?_, h⟩
    · simp only [lookup_eq_get, hp, hn, false_and, if_false, inner_props_counting]
    · simp only [lookup_eq_get, hp, hn, false_and, if_false, inner_multi_counting]

omit [Uni] in
theorem comps_added (key : Str) (params : List DParam) (val : Str) : (l : List Item) →
    WithAddedAll atEnd name (meaningProp key params val).toProperty (toOthers (itemsComps l))
      (toOthers (itemsComps (withAdded atEnd name (.prop key params val) l)))
  | [] => by simp [withAdded, itemsComps, toOthers, WithAddedAll]
  | .prop k ps v :: l => by
    rw [withAdded, itemsComps, itemsComps]
    exact comps_added key params val l
  | .comp b e n items :: l => by
    rw [withAdded, itemsComps_comp, itemsComps_comp, toOthers, toOthers]
    simp only [WithAddedAll]
    exact ⟨read_added key params val b e n items _ (itemsProps_withAdded _ items) (fun k => linesNamed_withAdded _ k items)
      (comps_added key params val items), comps_added key params val l⟩

omit [Uni] in
theorem kinds_added (key : Str) (params : List DParam) (val : Str) : (l : List Item) →
    CompsWithAdded atEnd name (meaningProp key params val).toProperty ((itemsComps l).map PComp.toCalComp)
      ((itemsComps (withAdded atEnd name (.prop key params val) l)).map PComp.toCalComp)
  | [] => by simp [withAdded, itemsComps, CompsWithAdded]
  | .prop k ps v :: l => by
    rw [withAdded, itemsComps, itemsComps]
    exact kinds_added key params val l
  | .comp b e n items :: l => by
    rw [withAdded, itemsComps_comp, itemsComps_comp, List.map_cons, List.map_cons]
    simp only [CompsWithAdded]
    refine ⟨⟨n, kindFor_toCalComp (readAs (.comp b e n items)), kindFor_toCalComp (readAs (.comp b e n _))⟩, ?_, kinds_added key params val l⟩
    rw [toOther_toCalComp, toOther_toCalComp]
    exact read_added key params val b e n items _ (itemsProps_withAdded _ items) (fun k => linesNamed_withAdded _ k items)
      (comps_added key params val items)

/-- **C151.** A line added to the components of a name of an unfolded file adds its property to these components of the
calendar that is read, at any depth, and changes nothing else. -/
theorem added_file {br : Break} {b e : Str} {l : List Item} (h : (Item.comp b e c!"VCALENDAR" l).Ok br)
    (hu : (Item.comp b e c!"VCALENDAR" l).Unbroken) {file : Str} (hp : Presents br (.comp b e c!"VCALENDAR" l) file)
    {key : Str} {params : List DParam} {val : Str} (hi : (Item.prop key params val).Ok br) (hiu : (Item.prop key params val).Unbroken)
    (atEnd : Bool) (name : Str) :
    ∃ c d, Calendar.fromStr file = some c ∧
      Calendar.fromStr (addLine atEnd name ((Item.prop key params val).text br) (unfold file)) = some d ∧
      CalendarWithAdded atEnd name (meaningProp key params val).toProperty c d := by
  obtain ⟨h', hp', -, -⟩ := added_text h hu hp hi hiu atEnd name
  rw [Item.withAdded] at h' hp'
  refine ⟨_, _, calendar_presented h hp, calendar_presented h' hp', ?_, ?_⟩
  · by_cases hn : name = c!"VCALENDAR"
    · rw [if_pos hn, if_pos hn.symm]
      show _ = put _ _ ((itemsProps l).map PProp.toProperty)
      show (itemsProps _).map PProp.toProperty = _
      rw [props_put, itemsProps_withAdded]
    · rw [if_neg hn, if_neg (fun e => hn e.symm)]
      show (itemsProps _).map PProp.toProperty = (itemsProps l).map PProp.toProperty
      rw [itemsProps_withAdded]
  · show CompsWithAdded _ _ _ ((itemsComps l).map PComp.toCalComp) ((itemsComps _).map PComp.toCalComp)
    split
    · rw [comps_put]; exact kinds_added key params val l
    · exact kinds_added key params val l

/-! ### files that are not unfolded -/

omit [Uni] in
theorem add_logical {x : Str} (hx : NoLf x) (hi : NoIndent (x ++ ['\n'])) {ls us : List Str} (h : Logical ls us) :
    unfoldSpec (ls.map (fun y => if bracketOf y = some (!atEnd, name) then (if atEnd then x ++ ['\n'] ++ y else y ++ (x ++ ['\n'])) else y)).flatten =
      (us.map (fun y => if bracketOf y = some (!atEnd, name) then (if atEnd then x ++ ['\n'] ++ y else y ++ (x ++ ['\n'])) else y)).flatten ∧
    NoIndent (ls.map (fun y => if bracketOf y = some (!atEnd, name) then (if atEnd then x ++ ['\n'] ++ y else y ++ (x ++ ['\n'])) else y)).flatten := by
  have hline : Unfolds (x ++ ['\n']) (x ++ ['\n']) := by
    refine ⟨hi, fun t ht => ?_⟩
    have := unfold_next hx ht
    simpa using this
  have hnone : ∀ {l : List Str}, (∀ y ∈ l, bracketOf y = none) →
      l.map (fun y => if bracketOf y = some (!atEnd, name) then (if atEnd then x ++ ['\n'] ++ y else y ++ (x ++ ['\n'])) else y) = l := by
    intro l hl
    rw [List.map_congr_left (g := id), List.map_id]
    intro y hy
    rw [hl y hy, if_neg (by simp)]
    rfl
  induction h with
  | nil => exact ⟨rfl, noIndent_nil⟩
  | @last y h hy =>
    have hu := noLf_unfold hy
    simp only [List.map_cons, List.map_nil, List.flatten_cons, List.flatten_nil, List.append_nil]
    split
    · split
      · exact ⟨by rw [hline.2 y h, hu], noIndent_append hi h⟩
      · refine ⟨?_, noIndent_append h hi⟩
        have := unfold_next (x := y ++ x) (r := []) (by simp [NoLf] at hx hy ⊢; exact ⟨hy, hx⟩) noIndent_nil
        simpa [unfoldSpec] using this
    · exact ⟨hu, h⟩
  | @lastGroup y u conts h hy hc hu hb hne =>
    rw [hnone (l := y :: conts) (by
      intro z hz
      rcases List.mem_cons.1 hz with rfl | hz
      · exact hy
      · exact hc z hz), hnone (l := [u]) (by simpa using hb)]
    refine ⟨by simpa using hu, ?_⟩
    cases y with
    | nil => exact absurd rfl hne
    | cons c y => simpa [NoIndent] using h
  | @line y ls us h hl ih =>
    simp only [List.map_cons, List.flatten_cons]
    have key : ∀ {a}, Unfolds a a → ∀ {r r'}, unfoldSpec r = r' ∧ NoIndent r → unfoldSpec (a ++ r) = a ++ r' ∧ NoIndent (a ++ r) := by
      rintro a ha r r' ⟨e, hr⟩
      exact ⟨by rw [ha.2 r hr, e], noIndent_append ha.1 hr⟩
    by_cases hb : bracketOf y = some (!atEnd, name)
    · rw [if_pos hb]
      by_cases ha : atEnd = true
      · rw [if_pos ha]
        exact key (unfolds_append hline h) ih
      · rw [if_neg ha]
        exact key (unfolds_append h hline) ih
    · rw [if_neg hb]
      exact key h ih
  | @group y u conts ls us h hy hc hb hl ih =>
    rw [← List.cons_append, List.map_append, hnone (l := y :: conts) (by
      intro z hz
      rcases List.mem_cons.1 hz with rfl | hz
      · exact hy
      · exact hc z hz), List.map_cons, hb, if_neg (by simp), List.flatten_append, List.flatten_cons, List.flatten_cons]
    exact ⟨by rw [h.2 _ ih.2, ih.1], noIndent_append h.1 ih.2⟩

omit [Uni] in
/-- **C151.** If the lines that begin and end components can be recognised without unfolding, then it does not matter
whether the line is added to the file or to the unfolded file. -/
theorem added_unfold (atEnd : Bool) (name : Str) {x s : Str} (hx : NoLf x) (hxi : NoIndent (x ++ ['\n'])) (hi : NoIndent s)
    (hw : BracketsWhole (cutLines s)) :
    unfold (addLine atEnd name (x ++ ['\n']) s) = addLine atEnd name (x ++ ['\n']) (unfold s) := by
  rw [unfold_eq_spec, unfold_eq_spec]
  exact (add_logical hx hxi (logical_lines _ s (Nat.le_refl _) hi hw)).1

/-! ### written calendars -/

omit [Uni] in
theorem unfolds_line {x : Str} (hx : NoLf x) (hi : NoIndent x) : Unfolds (x ++ crlf) (x ++ crlf) := by
  refine ⟨noIndent_append hi (noIndent_cons (by decide) (by decide)), fun t ht => ?_⟩
  have := unfold_next (x := x ++ ['\r']) (r := t) (by simpa [NoLf] using hx) ht
  simpa [crlf] using this

/-- text without brackets, and what it is unfolded to -/
structure FlatTo (s u : Str) : Prop where
  text : Flat s
  to : Flat u
  unfolds : Unfolds s u

omit [Uni] in
theorem flatTo_append {a b u v : Str} (ha : FlatTo a u) (hb : FlatTo b v) : FlatTo (a ++ b) (u ++ v) :=
  ⟨flat_append ha.text hb.text, flat_append ha.to hb.to, unfolds_append ha.unfolds hb.unfolds⟩

omit [Uni] in
theorem flatTo_nil : FlatTo [] [] := ⟨flat_nil, flat_nil, unfolds_nil⟩

theorem flatTo_property {p : Property} (hp : PropOk p) (hu : UnbrokenProp p) {w : World} (hw : World.Ok w) {out : Str}
    (h : p.fmtWrite w = .ok out) : FlatTo out ((propItem p w).text .crlf) := by
  refine ⟨flat_property hp hu hw h, (prop_line hp.key (propItem_unbroken hp hu hw)).1, ?_⟩
  have h3 : ∀ t, NoIndent t → unfoldSpec (out ++ t) = (propItem p w).text .crlf ++ unfoldSpec t := fun t ht =>
    unfold_property hw hp.key.name hp.params hp.value h ht
  refine ⟨?_, h3⟩
  have h4 := h3 [] noIndent_nil
  rw [List.append_nil] at h4
  have := noIndent_of_unfold (t := []) h4 (by
    rw [List.append_assoc]
    exact item_noIndent (item_of_prop_ok hw hp.key hp.params hp.value) _) noIndent_nil
  rwa [List.append_nil] at this

theorem flatTo_props {l : List Property} (hl : ∀ p ∈ l, PropOk p ∧ UnbrokenProp p) {w : World} (hw : World.Ok w) {out : Str}
    (h : fmtProps l w = .ok out) : ∃ u, FlatTo out u := by
  induction l generalizing w out with
  | nil => cases h; exact ⟨[], flatTo_nil⟩
  | cons p l ih =>
    unfold fmtProps at h
    cases ha : p.fmtWrite (w.sub 0) with
    | error e => rw [ha] at h; cases h
    | ok a =>
      rw [ha] at h
      cases hb : fmtProps l (w.sub 1) with
      | error e => rw [hb] at h; cases h
      | ok b =>
        rw [hb] at h
        cases h
        obtain ⟨v, hv⟩ := ih (fun q hq => hl q (by simp [hq])) (worldOk_sub hw 1) hb
        exact ⟨_, flatTo_append (flatTo_property (hl p (by simp)).1 (hl p (by simp)).2 (worldOk_sub hw 0) ha) hv⟩

omit [Uni] in
theorem flatTo_generated {b : Bool} {x : Str} (hn : NoLf x) (hi : NoIndent x) (h : bracketOf (x ++ crlf) = none) :
    ∃ u, FlatTo (if b then [] else x ++ crlf) u := by
  have hf := flat_generated (b := b) hn h
  refine ⟨_, hf, hf, ?_⟩
  split
  · exact unfolds_nil
  · exact unfolds_line hn hi

/-- text with balanced brackets, and what it is unfolded to -/
inductive UnfoldsTo : Str → Str → Prop
  | flat {s u : Str} (h : FlatTo s u) : UnfoldsTo s u
  | append {a b u v : Str} (ha : UnfoldsTo a u) (hb : UnfoldsTo b v) : UnfoldsTo (a ++ b) (u ++ v)
  | block {n body u : Str} (hn : IsName n) (hb : UnfoldsTo body u) : UnfoldsTo (blockText n body) (blockText n u)

theorem addLine_block {n body : Str} (hn : IsName n) (hb : LineEnded body) (line : Str) :
    addLine atEnd name line (blockText n body) = c!"BEGIN:" ++ n ++ crlf ++ (behind atEnd name line n ++
      (addLine atEnd name line body ++ (before atEnd name line n ++ (c!"END:" ++ n ++ crlf)))) := by
  obtain ⟨b1, b2, n1, n2⟩ := bracket_lines hn
  have e1 := addLine_begin (atEnd := atEnd) (name := name) (line := line) (br := .crlf) n1 b1 (body ++ (c!"END:" ++ n ++ crlf))
  have e2 := addLine_end (atEnd := atEnd) (name := name) (line := line) (br := .crlf) n2 b2 []
  unfold blockText
  rw [addLine_ended hb] at e1
  rw [List.append_nil, addLine_nil, List.append_nil] at e2
  exact e1.trans (by rw [show c!"END:" ++ n ++ crlf = c!"END:" ++ n ++ Break.text .crlf from rfl, e2]; rfl)

theorem unfoldsTo_added {line uline : Str} (hl : Unfolds line uline) {s u : Str} (h : UnfoldsTo s u) :
    LineEnded s ∧ LineEnded u ∧ Unfolds s u ∧ Unfolds (addLine atEnd name line s) (addLine atEnd name uline u) := by
  induction h with
  | flat h => exact ⟨h.text.1, h.to.1, h.unfolds, by rw [addLine_flat h.text, addLine_flat h.to]; exact h.unfolds⟩
  | append _ _ ha hb =>
    refine ⟨lineEnded_append ha.1 hb.1, lineEnded_append ha.2.1 hb.2.1, unfolds_append ha.2.2.1 hb.2.2.1, ?_⟩
    rw [addLine_ended ha.1, addLine_ended ha.2.1]
    exact unfolds_append ha.2.2.2 hb.2.2.2
  | @block n body v hn _ hb =>
    obtain ⟨-, -, n1, n2⟩ := bracket_lines hn
    have u1 := unfolds_line n1 (noIndent_cons (by decide) (by decide))
    have u2 := unfolds_line n2 (noIndent_cons (by decide) (by decide))
    have u3 : Unfolds (behind atEnd name line n) (behind atEnd name uline n) := by
      unfold behind
      split
      · split
        · exact unfolds_nil
        · exact hl
      · exact unfolds_nil
    have u4 : Unfolds (before atEnd name line n) (before atEnd name uline n) := by
      unfold before
      split
      · split
        · exact hl
        · exact unfolds_nil
      · exact unfolds_nil
    refine ⟨?_, ?_, ?_, ?_⟩
    · exact lineEnded_append (lineEnded_crlf n1) (lineEnded_append hb.1 (lineEnded_crlf n2))
    · exact lineEnded_append (lineEnded_crlf n1) (lineEnded_append hb.2.1 (lineEnded_crlf n2))
    · exact unfolds_append u1 (unfolds_append hb.2.2.1 u2)
    · rw [addLine_block hn hb.1, addLine_block hn hb.2.1]
      exact unfolds_append u1 (unfolds_append u3 (unfolds_append hb.2.2.2 (unfolds_append u4 u2)))

mutual
theorem unfoldsTo_other (o : Other) (ho : OtherOk o) (hu : UnbrokenOther o) {w : World} (hw : World.Ok w) {out : Str}
    (h : o.fmtWrite w = .ok out) : ∃ u, UnfoldsTo out u := by
  match o, ho, hu with
  | .mk name props multi comps, ho, hu =>
    obtain ⟨hn, hi, hc⟩ := ho
    obtain ⟨hu1, hu2, hu3⟩ := hu
    have hi := innerOk_writable hi
    unfold Other.fmtWrite at h
    cases hps : fmtProps props.values (w.sub 0) with
    | error e => simp only [hps] at h; cases h
    | ok ps =>
      cases hms : fmtProps multi.values.flatten (w.sub 1) with
      | error e => simp only [hps, hms] at h; cases h
      | ok ms =>
        cases hcs : fmtOthers comps (w.sub 2) with
        | error e => simp only [hps, hms, hcs] at h; cases h
        | ok cs =>
          simp only [hps, hms, hcs] at h
          cases h
          obtain ⟨u1, b1⟩ : ∃ u, FlatTo ps u := by
            refine flatTo_props ?_ (worldOk_sub hw 0) hps
            intro p hp
            refine ⟨(values_ok hi).1 p hp, ?_⟩
            obtain ⟨x, hx, rfl⟩ := List.mem_map.1 hp
            exact hu1 x hx
          obtain ⟨u2, b2⟩ : ∃ u, FlatTo ms u := by
            refine flatTo_props ?_ (worldOk_sub hw 1) hms
            intro p hp
            refine ⟨(values_ok hi).2 p hp, ?_⟩
            obtain ⟨g, hg, hpg⟩ := List.mem_flatten.1 hp
            obtain ⟨x, hx, rfl⟩ := List.mem_map.1 hg
            exact hu2 x hx p hpg
          obtain ⟨u3, b3⟩ := unfoldsTo_others comps hc hu3 (worldOk_sub hw 2) hcs
          obtain ⟨u4, b4⟩ := flatTo_generated (b := props.containsKey c!"DTSTAMP") (x := c!"DTSTAMP:" ++ fmtUtc (w.now []))
            (by have := fmtUtc_not_mem (w.now []) (x := '\n') (by decide) (by decide)
                simpa [NoLf] using this)
            (noIndent_cons (by decide) (by decide)) (bracketOf_blank (by decide) (by decide))
          obtain ⟨u5, b5⟩ := flatTo_generated (b := props.containsKey c!"UID") (x := c!"UID:" ++ w.uuid [])
            (by have := uuid_not_mem hw (x := '\n') (by decide) []
                simpa [NoLf] using this)
            (noIndent_cons (by decide) (by decide)) (bracketOf_blank (by decide) (by decide))
          have := UnfoldsTo.block hn (.append (.flat (flatTo_append (flatTo_append (flatTo_append b4 b1) b5) b2)) b3)
          refine ⟨blockText name (u4 ++ u1 ++ u5 ++ u2 ++ u3), ?_⟩
          rw [blockText] at this
          simpa only [List.append_assoc] using this

theorem unfoldsTo_others (l : List Other) (hl : OthersOk l) (hu : UnbrokenOthers l) {w : World} (hw : World.Ok w) {out : Str}
    (h : fmtOthers l w = .ok out) : ∃ u, UnfoldsTo out u := by
  match l, hl, hu with
  | [], _, _ =>
    simp only [fmtOthers] at h
    cases h
    exact ⟨[], .flat flatTo_nil⟩
  | o :: l, hl, hu =>
    obtain ⟨ho, hl⟩ := hl
    obtain ⟨hu1, hu2⟩ := hu
    unfold fmtOthers at h
    cases ha : o.fmtWrite (w.sub 0) with
    | error e => rw [ha] at h; cases h
    | ok a =>
      rw [ha] at h
      cases hb : fmtOthers l (w.sub 1) with
      | error e => rw [hb] at h; cases h
      | ok b =>
        rw [hb] at h
        cases h
        obtain ⟨u, h1⟩ := unfoldsTo_other o ho hu1 (worldOk_sub hw 0) ha
        obtain ⟨v, h2⟩ := unfoldsTo_others l hl hu2 (worldOk_sub hw 1) hb
        exact ⟨_, .append h1 h2⟩
end

theorem comps_writable : (l : List CalComp) → (∀ x ∈ l, CalCompOk x) → (∀ x ∈ l, UnbrokenOther x.toOther) →
    OthersOk (l.map CalComp.toOther) ∧ UnbrokenOthers (l.map CalComp.toOther)
  | [], _, _ => by simp [OthersOk, UnbrokenOthers]
  | x :: l, h, hu => by
    obtain ⟨h1, h2⟩ := comps_writable l (fun y hy => h y (by simp [hy])) (fun y hy => hu y (by simp [hy]))
    have hx : OtherOk x.toOther := by
      have := h x (by simp)
      cases x with
      | event e => exact this
      | todo e => exact this
      | venue e => exact this
      | other o => cases o; exact this.1
    simp only [List.map_cons, OthersOk, UnbrokenOthers]
    exact ⟨⟨hx, h1⟩, hu x (by simp), h2⟩

/-- a written calendar with lines added, unfolded -/
theorem added_written_unfold {c : Calendar} (hc : CalendarOk c) (hu : UnbrokenCal c) {w : World} (hw : World.Ok w) {out : Str}
    (h : c.fmtWrite w = .ok out) {line uline : Str} (hl : Unfolds line uline) :
    unfold (addLine atEnd name line out) = addLine atEnd name uline (unfold out) := by
  obtain ⟨u, hto⟩ : ∃ u, UnfoldsTo out u := by
    unfold Calendar.fmtWrite at h
    cases hps : fmtProps c.props (w.sub 0) with
    | error e => simp only [hps] at h; cases h
    | ok ps =>
      cases hcs : fmtComps c.comps (w.sub 1) with
      | error e => simp only [hps, hcs] at h; cases h
      | ok cs =>
        simp only [hps, hcs] at h
        cases h
        obtain ⟨u1, b1⟩ := flatTo_props (fun p hp => ⟨hc.props p hp, hu.props p hp⟩) (worldOk_sub hw 0) hps
        rw [comps_steps_fmt] at hcs
        obtain ⟨u2, b2⟩ := unfoldsTo_others _ (comps_writable _ hc.comps hu.comps).1 (comps_writable _ hc.comps hu.comps).2 (worldOk_sub hw 1) hcs
        have := UnfoldsTo.block (n := c!"VCALENDAR") (by simp [IsName, NameChar, isAlnum]) (.append (.flat b1) b2)
        refine ⟨blockText c!"VCALENDAR" (u1 ++ u2), ?_⟩
        rw [blockText] at this
        simpa only [List.append_assoc, List.cons_append, List.nil_append] using this
  obtain ⟨-, -, h1, h2⟩ := unfoldsTo_added (atEnd := atEnd) (name := name) hl hto
  rw [unfold_eq_spec, unfold_eq_spec, unfolds_all h2, unfolds_all h1]

/-- **C151.** The line of a property, added to the components of a name of a written calendar, adds the property to these
components of the calendar that is read, at any depth, and changes nothing else. -/
theorem added_written {c : Calendar} (hc : CalendarOk c) (hs : CalendarSafe c) (hst : ∀ x ∈ c.comps, HasStamps x.toOther)
    (hu : UnbrokenCal c) {w : World} (hw : World.Ok w) {out : Str} (h : c.fmtWrite w = .ok out) {p : Property} (hp : PropOk p)
    (hps : ValueSafe p) (hpu : UnbrokenProp p) {w' : World} (hw' : World.Ok w') {line : Str} (hl : p.fmtWrite w' = .ok line)
    (atEnd : Bool) (name : Str) :
    ∃ d, Calendar.fromStr (addLine atEnd name line out) = some d ∧ CalendarWithAdded atEnd name p c d := by
  have hok := calendar_item_ok (calendarOk_writable hc) hw
  have hi := calendar_unbroken hc hu hw
  have hpr := presents_written hc hw h
  unfold Calendar.item at hok hi hpr
  have hpi := item_of_prop_ok hw' hp.key hp.params hp.value
  have hpb := propItem_unbroken hp hpu hw'
  obtain ⟨c', d, e1, e2, e3⟩ := added_file hok hi hpr hpi hpb atEnd name
  obtain ⟨-, -, hm, -⟩ := added_text hok hi hpr hpi hpb atEnd name
  rw [calendar_roundtrip c hc hs hst w hw out h] at e1
  cases e1
  rw [meaning_dparams p hp.params.sorted (hw'.order [] p.params), readBack_eq hps] at e3
  refine ⟨d, ?_, e3⟩
  rw [← e2]
  unfold Calendar.fromStr
  rw [added_written_unfold hc hu hw h (flatTo_property hp hpu hw' hl).unfolds, unfold_eq_spec (addLine _ _ _ (unfold out))]
  rw [unfoldSpec_markerFree _ hm]
  rfl

end

end Ical
