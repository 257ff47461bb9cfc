import Verif.Spec.ThreeWay
import Verif.Props.LineEdits

/-!
C142: merging the changes of two people line by line merges the calendars.
-/

namespace Ical

open Nom Spec

/-- what is found of one name among the elements is merged -/
theorem named_merged {β : Type} {k : Str} (F : List Item → List β) (happ : ∀ a b, F (a ++ b) = F a ++ F b)
    (hcomp : ∀ b e n l r, F (.comp b e n l :: r) = F r)
    (hno : ∀ l, (∀ k' ps v, Item.prop k' ps v ∈ l → k' ≠ k) → F l = []) {owner : Str → Side}
    {l la lb lm : List Item} (h : MergedItems owner l la lb lm) : MergedValue (F l) (F la) (F lb) (F lm) := by
  have hch : ∀ {s : Side} {l : List Item}, ChangedBy s owner l → owner k ≠ s → F l = [] := by
    intro s l hc hs
    exact hno l (fun k' ps v hm e => hs (by rw [← e]; exact hc k' ps v hm))
  have main : ∀ {l la lb lm : List Item}, MergedItems owner l la lb lm →
      (owner k = .left → F lb = F l ∧ F lm = F la) ∧ (owner k = .right → F la = F l ∧ F lm = F lb) ∧
      (owner k = .both → F la = F lb ∧ F lm = F la) := by
    intro l la lb lm h'
    clear h hno
    induction h' with
    | nil => exact ⟨fun _ => ⟨rfl, rfl⟩, fun _ => ⟨rfl, rfl⟩, fun _ => ⟨rfl, rfl⟩⟩
    | keep i h ih =>
      have hi : ∀ r r', F r = F r' → F (i :: r) = F (i :: r') := by
        intro r r' e
        rw [show i :: r = [i] ++ r from rfl, show i :: r' = [i] ++ r' from rfl, happ, happ, e]
      obtain ⟨h1, h2, h3⟩ := ih hch
      exact ⟨fun hk => ⟨hi _ _ (h1 hk).1, hi _ _ (h1 hk).2⟩, fun hk => ⟨hi _ _ (h2 hk).1, hi _ _ (h2 hk).2⟩,
        fun hk => ⟨hi _ _ (h3 hk).1, hi _ _ (h3 hk).2⟩⟩
    | left old new ho hn h ih =>
      obtain ⟨h1, h2, h3⟩ := ih hch
      refine ⟨fun hk => ?_, fun hk => ?_, fun hk => ?_⟩
      · simp only [happ, (h1 hk).1, (h1 hk).2, and_self]
      · have e := hch ho (by rw [hk]; decide)
        have e' := hch hn (by rw [hk]; decide)
        simp only [happ, e, e', (h2 hk).1, (h2 hk).2, and_self]
      · have e := hch ho (by rw [hk]; decide)
        have e' := hch hn (by rw [hk]; decide)
        simp only [happ, e, e', (h3 hk).1, (h3 hk).2, and_self]
    | right old new ho hn h ih =>
      obtain ⟨h1, h2, h3⟩ := ih hch
      refine ⟨fun hk => ?_, fun hk => ?_, fun hk => ?_⟩
      · have e := hch ho (by rw [hk]; decide)
        have e' := hch hn (by rw [hk]; decide)
        simp only [happ, e, e', (h1 hk).1, (h1 hk).2, and_self]
      · simp only [happ, (h2 hk).1, (h2 hk).2, and_self]
      · have e := hch ho (by rw [hk]; decide)
        have e' := hch hn (by rw [hk]; decide)
        simp only [happ, e, e', (h3 hk).1, (h3 hk).2, and_self]
    | both old new ho hn h ih =>
      obtain ⟨h1, h2, h3⟩ := ih hch
      refine ⟨fun hk => ?_, fun hk => ?_, fun hk => ?_⟩
      · have e := hch ho (by rw [hk]; decide)
        have e' := hch hn (by rw [hk]; decide)
        simp only [happ, e, e', (h1 hk).1, (h1 hk).2, and_self]
      · have e := hch ho (by rw [hk]; decide)
        have e' := hch hn (by rw [hk]; decide)
        simp only [happ, e, e', (h2 hk).1, (h2 hk).2, and_self]
      · simp only [happ, (h3 hk).1, (h3 hk).2, and_self]
    | inside owner' hk h ihk ih => simpa only [hcomp] using ih hch
  obtain ⟨h1, h2, h3⟩ := main h
  unfold MergedValue
  cases hk : owner k with
  | left => exact .inr (.inl (h1 hk))
  | right => exact .inl (h2 hk)
  | both => exact .inr (.inr (h3 hk))

theorem Spec.MergedValue.map {α β : Type} {x a b m : α} (f : α → β) (h : MergedValue x a b m) :
    MergedValue (f x) (f a) (f b) (f m) := by
  rcases h with ⟨rfl, rfl⟩ | ⟨rfl, rfl⟩ | ⟨rfl, rfl⟩
  · exact .inl ⟨rfl, rfl⟩
  · exact .inr (.inl ⟨rfl, rfl⟩)
  · exact .inr (.inr ⟨rfl, rfl⟩)

theorem linesNamed_none {k : Str} {l : List Item} (h : ∀ k' ps v, Item.prop k' ps v ∈ l → k' ≠ k) :
    linesNamed k l = [] := by
  induction l with
  | nil => rw [linesNamed]
  | cons i l ih =>
    have h' := ih (fun k' ps v hm => h k' ps v (List.mem_cons_of_mem _ hm))
    cases i with
    | prop k' ps v => rw [linesNamed, if_neg (h k' ps v (List.mem_cons_self ..)), h']
    | comp b e n r => rw [linesNamed, h']

theorem linesNamed_merged {owner : Str → Side} {l la lb lm : List Item} (h : MergedItems owner l la lb lm) (k : Str) :
    MergedValue (linesNamed k l) (linesNamed k la) (linesNamed k lb) (linesNamed k lm) :=
  named_merged (linesNamed k) (fun a b => linesNamed_append ..) (fun _ _ _ _ _ => by rw [linesNamed])
    (fun _ h => linesNamed_none h) h

theorem counting_merged {owner : Str → Side} {l la lb lm : List Item} (h : MergedItems owner l la lb lm) (k : Str) :
    MergedValue (counting k l) (counting k la) (counting k lb) (counting k lm) := by
  unfold counting
  exact (linesNamed_merged h k).map (fun x => if k ∈ repeatable then x else x.getLast?.toList)

theorem propsNamed_merged {owner : Str → Side} {l la lb lm : List Item} (h : MergedItems owner l la lb lm) (k : Str) :
    MergedValue (((itemsProps l).map PProp.toProperty).filter (·.key = k))
      (((itemsProps la).map PProp.toProperty).filter (·.key = k))
      (((itemsProps lb).map PProp.toProperty).filter (·.key = k))
      (((itemsProps lm).map PProp.toProperty).filter (·.key = k)) := by
  refine named_merged (k := k) (fun l => ((itemsProps l).map PProp.toProperty).filter (·.key = k)) ?_ ?_ ?_ h
  · intro a b
    simp only [itemsProps_append, List.map_append, List.filter_append]
  · intro b e n l r
    simp only [itemsProps_comp]
  · intro l hl
    show ((itemsProps l).map PProp.toProperty).filter (·.key = k) = []
    induction l with
    | nil => rw [itemsProps]; rfl
    | cons i l ih =>
      have h' := ih (fun k' ps v hm => hl k' ps v (List.mem_cons_of_mem _ hm))
      cases i with
      | prop k' ps v =>
        have : k' ≠ k := hl k' ps v (List.mem_cons_self ..)
        rw [itemsProps, List.map_cons, List.filter_cons_of_neg, h']
        simpa [show (meaningProp k' ps v).toProperty.key = k' from rfl] using this
      | comp b e n r => rw [itemsProps, h']

theorem props_merged {owner : Str → Side} {l la lb lm : List Item} (h : MergedItems owner l la lb lm) :
    ThreeWay ((itemsProps l).map PProp.toProperty) ((itemsProps la).map PProp.toProperty)
      ((itemsProps lb).map PProp.toProperty) ((itemsProps lm).map PProp.toProperty) := by
  induction h with
  | nil => simp only [itemsProps, List.map_nil]; exact .nil
  | keep i h ih =>
    cases i with
    | prop k ps v => simp only [itemsProps, List.map_cons]; exact .keep _ ih
    | comp b e n r => simp only [itemsProps_comp]; exact ih
  | left old new ho hn h ih => simp only [itemsProps_append, List.map_append]; exact .left _ _ ih
  | right old new ho hn h ih => simp only [itemsProps_append, List.map_append]; exact .right _ _ ih
  | both old new ho hn h ih => simp only [itemsProps_append, List.map_append]; exact .both _ _ ih
  | inside owner' hk h ihk ih => simp only [itemsProps_comp]; exact ih

theorem comps_merged {owner : Str → Side} {l la lb lm : List Item} (h : MergedItems owner l la lb lm) :
    MergedComps (toOthers (itemsComps l)) (toOthers (itemsComps la)) (toOthers (itemsComps lb))
      (toOthers (itemsComps lm)) := by
  induction h with
  | nil => simp only [itemsComps, toOthers]; exact .nil
  | keep i h ih =>
    cases i with
    | prop k ps v => simp only [itemsComps]; exact ih
    | comp b e n r => simp only [itemsComps_comp, toOthers]; exact .keep _ ih
  | left old new ho hn h ih => simp only [itemsComps_append, toOthers_map, List.map_append] at ih ⊢; exact .left _ _ ih
  | right old new ho hn h ih => simp only [itemsComps_append, toOthers_map, List.map_append] at ih ⊢; exact .right _ _ ih
  | both old new ho hn h ih => simp only [itemsComps_append, toOthers_map, List.map_append] at ih ⊢; exact .both _ _ ih
  | inside owner' hk h ihk ih =>
    simp only [itemsComps_comp, toOthers, toOther_readAs]
    refine .inside (fun k => ?_) (fun k => ?_) ihk ih
    · simp only [lookup_eq_get, inner_props_counting]
      exact (counting_merged hk k).map
        (fun x => if k ∈ repeatable then none else (x.map (fun x => (meaningProp k x.1 x.2).toProperty)).head?)
    · simp only [lookup_eq_get, inner_multi_counting]
      exact (counting_merged hk k).map (fun x => if k ∈ repeatable ∧ x ≠ [] then
        some (x.map (fun x => (meaningProp k x.1 x.2).toProperty)) else none)

theorem itemsDocLines_append (a b : List Item) : itemsDocLines (a ++ b) = itemsDocLines a ++ itemsDocLines b := by
  induction a with
  | nil => simp [itemsDocLines]
  | cons i a ih => simp [itemsDocLines, ih]

theorem Spec.ThreeWay.prefix {α : Type} (p : List α) {l la lb lm : List α} (h : ThreeWay l la lb lm) :
    ThreeWay (p ++ l) (p ++ la) (p ++ lb) (p ++ lm) := by
  induction p with
  | nil => exact h
  | cons x p ih => exact .keep x ih

theorem Spec.ThreeWay.append {α : Type} {l la lb lm r ra rb rm : List α} (h : ThreeWay l la lb lm) (h' : ThreeWay r ra rb rm) :
    ThreeWay (l ++ r) (la ++ ra) (lb ++ rb) (lm ++ rm) := by
  induction h with
  | nil => exact h'
  | keep x h ih => exact .keep x ih
  | left old new h ih => simp only [List.append_assoc]; exact .left _ _ ih
  | right old new h ih => simp only [List.append_assoc]; exact .right _ _ ih
  | both old new h ih => simp only [List.append_assoc]; exact .both _ _ ih

/-- **C142.** Such a merge of documents is a merge of their lines: it is found by programs that know nothing of
calendars and work on lines. -/
theorem merged_lines {owner : Str → Side} {l la lb lm : List Item} (h : MergedItems owner l la lb lm) :
    ThreeWay (itemsDocLines l) (itemsDocLines la) (itemsDocLines lb) (itemsDocLines lm) := by
  induction h with
  | nil => simp only [itemsDocLines]; exact .nil
  | keep i h ih => simp only [itemsDocLines]; exact ih.prefix _
  | left old new ho hn h ih => simp only [itemsDocLines_append]; exact .left _ _ ih
  | right old new ho hn h ih => simp only [itemsDocLines_append]; exact .right _ _ ih
  | both old new ho hn h ih => simp only [itemsDocLines_append]; exact .both _ _ ih
  | inside owner' hk h ihk ih =>
    simp only [itemsDocLines, Item.docLines, List.cons_append]
    exact .keep _ ((ihk.append (.keep _ .nil)).append ih)

mutual
theorem docLines_item (br : Break) : ∀ i : Item, (i.docLines.map (· ++ br.text)).flatten = i.text br
  | .prop k ps v => by simp [Item.docLines, Item.text]
  | .comp b e n l => by
    have := docLines_items br l
    simp [Item.docLines, Item.text, ← this]
theorem docLines_items (br : Break) : ∀ l : List Item, ((itemsDocLines l).map (· ++ br.text)).flatten = itemsText br l
  | [] => by simp [itemsDocLines, itemsText]
  | i :: l => by
    have h := docLines_item br i
    have h' := docLines_items br l
    simp only [itemsDocLines, itemsText, List.map_append, List.flatten_append, h, h']
end

/-- **C142.** The lines meant there are the lines of the text, each with its line break. -/
theorem lines_of_text (br : Break) (l : List Item) : ((itemsDocLines l).map (· ++ br.text)).flatten = itemsText br l :=
  docLines_items br l

variable [Uni]

theorem calendar_presented {br : Break} {b e : Str} {l : List Item} (hx : (Item.comp b e c!"VCALENDAR" l).Ok br)
    {file : Str} (hf : Presents br (.comp b e c!"VCALENDAR" l) file) :
    Calendar.fromStr file = some ⟨(itemsProps l).map PProp.toProperty, (itemsComps l).map PComp.toCalComp⟩ := by
  unfold Calendar.fromStr readCalendar
  rw [components_ok (presents_read hx hf)]
  simp [finish, PComp.name, PCal.toCalendar, PComp.props, PComp.comps]

/-- **C142.** The outcome of a merge of three documents is a document. -/
theorem merged_ok {br : Break} {owner : Str → Side} {l la lb lm : List Item} (h : MergedItems owner l la lb lm)
    (ha : ItemsOk br la) (hb : ItemsOk br lb) : ItemsOk br lm := by
  induction h with
  | nil => exact ha
  | keep i h ih =>
    simp only [ItemsOk] at ha hb ⊢
    exact ⟨ha.1, ih ha.2 hb.2⟩
  | left old new ho hn h ih =>
    rw [itemsOk_append] at ha hb ⊢
    exact ⟨ha.1, ih ha.2 hb.2⟩
  | right old new ho hn h ih =>
    rw [itemsOk_append] at ha hb ⊢
    exact ⟨hb.1, ih ha.2 hb.2⟩
  | both old new ho hn h ih =>
    rw [itemsOk_append] at ha hb ⊢
    exact ⟨ha.1, ih ha.2 hb.2⟩
  | inside owner' hk h ihk ih =>
    simp only [ItemsOk, Item.Ok] at ha hb ⊢
    exact ⟨⟨ha.1.1, ha.1.2.1, ha.1.2.2.1, ihk ha.1.2.2.2 hb.1.2.2.2⟩, ih ha.2 hb.2⟩

/-- **C142.** If two people change copies of a calendar file and their changes are merged, then the merged file is
read as the calendar with both changes: every property and every component comes from the one who changed it. The
files can be laid out in any way. -/
theorem calendar_merged {br bra brb brm : Break} {b e : Str} {owner : Str → Side} {l la lb lm : List Item}
    (h : MergedItems owner l la lb lm) (hx : (Item.comp b e c!"VCALENDAR" l).Ok br)
    (ha : (Item.comp b e c!"VCALENDAR" la).Ok bra) (hb : (Item.comp b e c!"VCALENDAR" lb).Ok brb)
    (hm : (Item.comp b e c!"VCALENDAR" lm).Ok brm) {file filea fileb filem : Str}
    (hf : Presents br (.comp b e c!"VCALENDAR" l) file) (hfa : Presents bra (.comp b e c!"VCALENDAR" la) filea)
    (hfb : Presents brb (.comp b e c!"VCALENDAR" lb) fileb) (hfm : Presents brm (.comp b e c!"VCALENDAR" lm) filem) :
    ∃ c ca cb cm, Calendar.fromStr file = some c ∧ Calendar.fromStr filea = some ca ∧
      Calendar.fromStr fileb = some cb ∧ Calendar.fromStr filem = some cm ∧ MergedCalendar c ca cb cm := by
  refine ⟨_, _, _, _, calendar_presented hx hf, calendar_presented ha hfa, calendar_presented hb hfb,
    calendar_presented hm hfm, props_merged h, propsNamed_merged h, ?_⟩
  have key : ∀ l : List PComp, (l.map PComp.toCalComp).map CalComp.toOther = toOthers l := by
    intro l
    rw [toOthers_map, List.map_map]
    exact List.map_congr_left (fun x _ => toOther_toCalComp x)
  simp only [key]
  exact comps_merged h

/-- **C142.** Why the lines of one name have to be changed by one side only: if one adds a line in one place and the
other a line of the same name further down, then programs that work on lines see no conflict and keep both, but what is
read from the merged file is what the second one wrote. -/
theorem merged_same_name {br br' : Break} {b e n k v v' : Str} {ps ps' : List DParam} {pre mid post : List Item}
    (hk : k ∉ repeatable)
    (hm : (Item.comp b e n (pre ++ .prop k ps v :: (mid ++ .prop k ps' v' :: post))).Ok br)
    (hb : (Item.comp b e n (pre ++ (mid ++ .prop k ps' v' :: post))).Ok br') {file file' : Str}
    (hf : Presents br (.comp b e n (pre ++ .prop k ps v :: (mid ++ .prop k ps' v' :: post))) file)
    (hf' : Presents br' (.comp b e n (pre ++ (mid ++ .prop k ps' v' :: post))) file') :
    ThreeWay (itemsDocLines (pre ++ (mid ++ post))) (itemsDocLines (pre ++ .prop k ps v :: (mid ++ post)))
      (itemsDocLines (pre ++ (mid ++ .prop k ps' v' :: post)))
      (itemsDocLines (pre ++ .prop k ps v :: (mid ++ .prop k ps' v' :: post))) ∧
    ∃ c, CalComp.fromStr file = some c ∧ CalComp.fromStr file' = some c := by
  constructor
  · simp only [itemsDocLines_append, itemsDocLines]
    refine Spec.ThreeWay.prefix _ (.left [] _ (Spec.ThreeWay.prefix _ (.right [] _ ?_)))
    have := Spec.ThreeWay.prefix (itemsDocLines post) .nil
    simpa using this
  · refine line_order_component hm hb (.comp (fun k' => ?_) (sameSubs_append _ (.left (sameSubs_refl _)))) hf hf'
    unfold counting
    simp only [linesNamed_append, linesNamed]
    by_cases e : k = k'
    · subst e
      have last : ∀ (x : List (List DParam × Str)) y z, (x ++ y :: z).getLast? = (y :: z).getLast? := by
        intro x y z
        rw [List.getLast?_append, List.getLast?_eq_some_getLast (List.cons_ne_nil y z)]
        rfl
      simp only [if_neg hk, if_true, last]
      rw [← List.cons_append, last, ← List.append_assoc, last]
    · simp [e]

end Ical
