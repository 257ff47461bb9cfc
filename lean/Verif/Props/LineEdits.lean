import Verif.Spec.LineEdits
import Verif.Props.Alone
import Verif.Props.LineOrder

/-!
C131: editing lines of a file changes the properties of these names and nothing else.
-/

namespace Ical

open Nom Spec

theorem lines_no_comps {names : Str → Prop} {l : List Item} (h : ∀ i ∈ l, IsLine names i) : itemsComps l = [] := by
  induction l with
  | nil => rw [itemsComps]
  | cons i l ih =>
    obtain ⟨k, ps, v, rfl, -⟩ := h i (List.mem_cons_self ..)
    rw [itemsComps]
    exact ih (fun i hi => h i (List.mem_cons_of_mem _ hi))

theorem lines_not_named {names : Str → Prop} {l : List Item} (h : ∀ i ∈ l, IsLine names i) {k : Str} (hk : ¬ names k) :
    linesNamed k l = [] := by
  induction l with
  | nil => rw [linesNamed]
  | cons i l ih =>
    obtain ⟨k', ps, v, rfl, hk'⟩ := h i (List.mem_cons_self ..)
    rw [linesNamed, if_neg (fun e => hk (by rw [← e]; exact hk'))]
    exact ih (fun i hi => h i (List.mem_cons_of_mem _ hi))

theorem lines_names {names : Str → Prop} {l : List Item} (h : ∀ i ∈ l, IsLine names i) :
    ∀ p ∈ (itemsProps l).map PProp.toProperty, names p.key := by
  induction l with
  | nil => intro p hp; rw [itemsProps] at hp; cases hp
  | cons i l ih =>
    obtain ⟨k, ps, v, rfl, hk⟩ := h i (List.mem_cons_self ..)
    intro p hp
    rw [itemsProps, List.map_cons, List.mem_cons] at hp
    rcases hp with rfl | hp
    · exact hk
    · exact ih (fun i hi => h i (List.mem_cons_of_mem _ hi)) p hp

/-- the component a component of a document is read as -/
def readAs : Item → PComp
  | .comp _ _ n items => .mk n (itemsProps items) (itemsComps items)
  | .prop _ _ _ => .mk [] [] []

theorem edited_comp {names : Str → Prop} {x y : Item} (h : LinesEdited names x y) :
    ∃ b e n l b' e' l', x = .comp b e n l ∧ y = .comp b' e' n l' := by
  cases h <;> exact ⟨_, _, _, _, _, _, _, rfl, rfl⟩

theorem itemsProps_comp (b e n : Str) (l post : List Item) : itemsProps (.comp b e n l :: post) = itemsProps post := by
  rw [itemsProps]

theorem itemsComps_comp (b e n : Str) (l post : List Item) :
    itemsComps (.comp b e n l :: post) = readAs (.comp b e n l) :: itemsComps post := by
  rw [itemsComps, readAs]

theorem toOther_readAs (b e n : Str) (l : List Item) : (readAs (.comp b e n l)).toOther =
    .mk n (innerOfProps (itemsProps l) (toOthers (itemsComps l))).props
      (innerOfProps (itemsProps l) (toOthers (itemsComps l))).multi (toOthers (itemsComps l)) := by
  rw [readAs, PComp.toOther, Other.ofInner, inner_comps]

theorem innerOfProps_comps (l : List PProp) (c c' : List Other) :
    (innerOfProps l c).props = (innerOfProps l c').props ∧ (innerOfProps l c).multi = (innerOfProps l c').multi := by
  have key : ∀ (l : List PProp) (p : BMap Property) (m : BMap (List Property)),
      (l.foldl (fun (c : Inner) (p : PProp) => c.insertMulti p.toProperty) (⟨p, m, c⟩ : Inner)).multi =
      (l.foldl (fun (c : Inner) (p : PProp) => c.insertMulti p.toProperty) (⟨p, m, c'⟩ : Inner)).multi := by
    intro l
    induction l with
    | nil => exact fun _ _ => rfl
    | cons x l ih => exact fun p m => ih _ _
  unfold innerOfProps
  exact ⟨by rw [(foldl_insertMulti_rest _ _).1, (foldl_insertMulti_rest _ _).1], key _ _ _⟩

theorem edited_read {names : Str → Prop} {x y : Item} (h : LinesEdited names x y) :
    DiffersIn names (readAs x).toOther (readAs y).toOther := by
  induction h with
  | @here b e n pre mid mid' post h h' =>
    have hc : itemsComps (pre ++ (mid ++ post)) = itemsComps (pre ++ (mid' ++ post)) := by
      simp only [itemsComps_append, lines_no_comps h, lines_no_comps h']
    have hn : ∀ k, ¬ names k → counting k (pre ++ (mid ++ post)) = counting k (pre ++ (mid' ++ post)) := by
      intro k hk
      unfold counting
      simp only [linesNamed_append, lines_not_named h hk, lines_not_named h' hk]
    rw [toOther_readAs, toOther_readAs, hc]
    refine .here (fun k hk => ?_) (fun k hk => ?_)
    · rw [lookup_eq_get, lookup_eq_get, inner_props_counting, inner_props_counting, hn k hk]
    · rw [lookup_eq_get, lookup_eq_get, inner_multi_counting, inner_multi_counting, hn k hk]
  | @inside b e n pre x y post h ih =>
    obtain ⟨b1, e1, n1, l, b2, e2, l', rfl, rfl⟩ := edited_comp h
    rw [toOther_readAs, toOther_readAs]
    simp only [itemsProps_append, itemsComps_append, itemsProps_comp, itemsComps_comp, toOthers_map, List.map_append,
      List.map_cons]
    rw [(innerOfProps_comps _ _ []).1, (innerOfProps_comps _ _ []).2]
    conv => arg 3; rw [(innerOfProps_comps _ _ []).1, (innerOfProps_comps _ _ []).2]
    exact .inside ih

variable [Uni]

/-! ### C131 -/

/-- **C131.** Editing lines of some names in a component, or anywhere within it, changes what is read in the
properties of these names of that place and in nothing else. -/
theorem component_edited {names : Str → Prop} {br br' : Break} {x y : Item} (hx : x.Ok br) (hy : y.Ok br')
    (h : LinesEdited names x y) {file file' : Str} (hf : Presents br x file) (hf' : Presents br' y file') :
    ∃ c c' n, CalComp.fromStr file = some c ∧ CalComp.fromStr file' = some c' ∧ KindFor n c ∧ KindFor n c' ∧
      DiffersIn names c.toOther c'.toOther := by
  obtain ⟨b, e, n, l, b', e', l', rfl, rfl⟩ := edited_comp h
  refine ⟨_, _, n, read_alone hx hf, read_alone hy hf', kindFor_toCalComp (.mk n _ _), kindFor_toCalComp (.mk n _ _), ?_⟩
  rw [toOther_toCalComp, toOther_toCalComp]
  exact edited_read h

/-- **C131.** The same for calendars. -/
theorem calendar_edited {names : Str → Prop} {br br' : Break} {b e : Str} {l l' : List Item}
    (hx : (Item.comp b e c!"VCALENDAR" l).Ok br) (hy : (Item.comp b e c!"VCALENDAR" l').Ok br')
    (h : LinesEdited names (.comp b e c!"VCALENDAR" l) (.comp b e c!"VCALENDAR" l')) {file file' : Str}
    (hf : Presents br (.comp b e c!"VCALENDAR" l) file) (hf' : Presents br' (.comp b e c!"VCALENDAR" l') file') :
    ∃ c c', Calendar.fromStr file = some c ∧ Calendar.fromStr file' = some c' ∧ CalendarsDifferIn names c c' := by
  refine ⟨⟨(itemsProps l).map PProp.toProperty, (itemsComps l).map PComp.toCalComp⟩,
    ⟨(itemsProps l').map PProp.toProperty, (itemsComps l').map PComp.toCalComp⟩, ?_, ?_, ?_⟩
  · unfold Calendar.fromStr readCalendar
    rw [components_ok (presents_read hx hf)]
    simp [finish, PComp.name, PCal.toCalendar, PComp.props, PComp.comps]
  · unfold Calendar.fromStr readCalendar
    rw [components_ok (presents_read hy hf')]
    simp [finish, PComp.name, PCal.toCalendar, PComp.props, PComp.comps]
  · cases h with
    | @here _ _ _ pre mid mid' post h h' =>
      simp only [itemsProps_append, itemsComps_append, lines_no_comps h, lines_no_comps h', List.map_append, List.map_nil]
      exact .own (lines_names h) (lines_names h')
    | @inside _ _ _ pre x y post h =>
      obtain ⟨b1, e1, n1, l, b2, e2, l', rfl, rfl⟩ := edited_comp h
      simp only [itemsProps_append, itemsComps_append, itemsProps_comp, itemsComps_comp, List.map_append, List.map_cons]
      refine .inside (n := n1) (kindFor_toCalComp (.mk n1 _ _)) (kindFor_toCalComp (.mk n1 _ _)) ?_
      rw [toOther_toCalComp, toOther_toCalComp]
      exact edited_read h

end Ical
