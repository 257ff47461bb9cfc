import Verif.Spec.Foreign
import Verif.Props.Kinds
import Verif.Props.Parsing
import Verif.Props.Folding
import Verif.Props.Escaping

/-!
C66: documents written by anybody, folded in any way, are read faithfully.
-/

namespace Ical

open Nom Spec

theorem value_meaning (p : DParam) : p.meaning.val.getD [] = p.value := by
  obtain ⟨k, v⟩ := p
  match v with
  | none => rfl
  | some (q, v) =>
    unfold DParam.meaning DParam.value
    simp only
    split
    · rename_i h; rw [h]; rfl
    · rfl

theorem isTextFor_empty (key : Str) (o : Option DParam) :
    IsTextFor key ((o.map DParam.meaning).bind PParam.val) ↔ IsTextFor key (o.map DParam.value) := by
  cases o with
  | none => exact Iff.rfl
  | some p =>
    obtain ⟨k, v⟩ := p
    match v with
    | none =>
      simp only [DParam.meaning, DParam.value, Option.map_some, Option.bind_some, IsTextFor]
      simp [otherTypeNames]
    | some (q, []) =>
      simp only [DParam.meaning, DParam.value, Option.map_some, Option.bind_some, IsTextFor, if_true]
      simp [otherTypeNames]
    | some (q, c :: v) => exact Iff.rfl

/-- the property a line is converted to says what the line says -/
theorem lineMeans (key : Str) (params : List DParam) (raw : Str) :
    LineMeans key params raw (meaningProp key params raw).toProperty := by
  have hkey : (fun p : PParam => p.key == c!"VALUE") ∘ DParam.meaning = fun d : DParam => d.key == c!"VALUE" := by
    funext d
    have : d.meaning.key = d.key := by unfold DParam.meaning; split <;> rfl
    simp only [Function.comp_apply, this]
  have ht : IsTextFor key (((params.map DParam.meaning).find? (fun p => p.key == c!"VALUE")).bind PParam.val) ↔
      IsTextFor key ((params.find? (fun d => d.key == c!"VALUE")).map DParam.value) := by
    rw [List.find?_map, hkey]
    exact isTextFor_empty _ _
  refine ⟨rfl, ?_, ?_, ?_⟩
  · intro h
    show (if _ then _ else _) = _
    rw [if_neg (fun h' => h (ht.1 h'))]
  · intro h hd
    show (if _ then _ else _) = _
    rw [if_pos (ht.2 h)]
    rw [← unescapeText_unescaped]
    exact (unescape_rfc_partial raw).2 hd
  · intro k
    rw [lookup_eq_get]
    show BMap.get k (BMap.ofList _) = _
    rw [BMap.get_ofList]
    simp only [meaningProp, List.map_map, ← List.map_reverse, List.find?_map, Option.map_map]
    have h1 : ((fun x : Str × Str => x.1 == k) ∘ PParam.toPair ∘ DParam.meaning) = fun d : DParam => d.key == k := by
      funext d
      have : d.meaning.key = d.key := by unfold DParam.meaning; split <;> rfl
      simp only [Function.comp_apply, PParam.toPair, this]
    have h2 : (Prod.snd ∘ PParam.toPair ∘ DParam.meaning) = DParam.value := by
      funext d
      exact value_meaning d
    rw [h1, h2]

theorem itemsProps_filter (k : Str) : (items : List Item) →
    (itemsProps items).filter (fun p => p.name == k) =
      (linesNamed k items).map (fun l => meaningProp k l.1 l.2)
  | [] => rfl
  | .prop key params val :: l => by
    unfold itemsProps linesNamed
    have ih := itemsProps_filter k l
    by_cases h : key = k
    · subst h
      rw [if_pos rfl, List.filter_cons_of_pos (by simp [meaningProp]), ih, List.map_cons]
    · rw [if_neg h, List.filter_cons_of_neg (by simpa [meaningProp] using h), ih]
  | .comp _ _ _ _ :: l => by
    unfold itemsProps linesNamed
    exact itemsProps_filter k l

theorem find_reverse_filter {α : Type} (f : α → Bool) (l : List α) :
    l.reverse.find? f = (l.filter f).getLast? := by
  rw [← List.head?_filter, List.filter_reverse, List.head?_reverse]

theorem allMean_map (k : Str) (l : List (List DParam × Str)) :
    AllMean k l (l.map (fun l => (meaningProp k l.1 l.2).toProperty)) := by
  induction l with
  | nil => trivial
  | cons x l ih => exact ⟨lineMeans _ _ _, ih⟩

theorem linesMean_props : (items : List Item) → LinesMean (ownLines items) ((itemsProps items).map PProp.toProperty)
  | [] => trivial
  | .prop _ _ _ :: l => ⟨lineMeans _ _ _, linesMean_props l⟩
  | .comp _ _ _ _ :: l => by
    unfold ownLines itemsProps
    exact linesMean_props l

theorem inner_multi_get (props : List PProp) (comps : List Other) {k : Str} (hk : k ∉ repeatable) :
    (innerOfProps props comps).multi.get k = none := by
  have hm : multis.contains k = false := by rw [List.contains_eq_mem]; exact decide_eq_false hk
  unfold innerOfProps
  have hfold : ∀ (l : List PProp) (i : Inner), l.foldl (fun c p => c.insertMulti p.toProperty) i =
      (l.map PProp.toProperty).foldl Inner.insertMulti i := by
    intro l i
    rw [List.foldl_map]
  have h := (foldl_insertMulti ((props.filter PProp.isMulti).map PProp.toProperty)
    { props := BMap.ofList ((props.filter (fun p => !p.isMulti)).map (fun p => (p.name, p.toProperty)))
      multi := [], comps := comps } .nil).2.2.2 k
  rw [hfold, h, if_pos]
  · rfl
  · rw [List.filter_eq_nil_iff]
    intro q hq
    obtain ⟨p, hp, rfl⟩ := List.mem_map.1 hq
    have h1 := (List.mem_filter.1 hp).2
    unfold PProp.isMulti at h1
    intro he
    have he : p.name = k := by simpa [PProp.toProperty] using he
    rw [he, hm] at h1
    cases h1

theorem inner_props_get (props : List PProp) (comps : List Other) {k : Str} (hk : k ∈ repeatable) :
    (innerOfProps props comps).props.get k = none := by
  have hm : multis.contains k = true := by rw [List.contains_eq_mem]; exact decide_eq_true hk
  unfold innerOfProps
  simp only [(foldl_insertMulti_rest _ _).1]
  rw [BMap.get_ofList, Option.map_eq_none_iff, List.find?_eq_none]
  intro x hx
  rw [List.mem_reverse] at hx
  obtain ⟨p, hp, rfl⟩ := List.mem_map.1 hx
  have h1 := (List.mem_filter.1 hp).2
  unfold PProp.isMulti at h1
  intro he
  have he : p.name = k := by simpa using he
  rw [he, hm] at h1
  cases h1

theorem entryMeans (k : Str) (items : List Item) :
    EntryMeans k items (((itemsProps items).reverse.find? (fun p => p.name == k)).map PProp.toProperty) := by
  rw [find_reverse_filter, itemsProps_filter, List.getLast?_map]
  rcases List.eq_nil_or_concat (linesNamed k items) with h | ⟨l, x, h⟩
  · rw [h]; exact h
  · rw [List.concat_eq_append] at h
    rw [h, List.getLast?_concat]
    exact ⟨l, x.1, x.2, h, lineMeans _ _ _⟩

mutual
theorem contains_toOther : (b e n : Str) → (items : List Item) →
    Contains (.comp b e n items) (PComp.mk n (itemsProps items) (itemsComps items)).toOther
  | b, e, n, items => by
    have hs := fun k hk => repeated_single (PComp.mk n (itemsProps items) (itemsComps items)) k hk
    have hc := containsAll_toOthers items
    unfold PComp.toOther Other.ofInner
    unfold Contains
    refine ⟨rfl, ?_, ?_, ?_⟩
    · intro k hk
      rw [lookup_eq_get, lookup_eq_get]
      refine ⟨?_, inner_multi_get _ _ hk⟩
      have := hs k hk
      rw [toOther_toCalComp] at this
      unfold PComp.toOther Other.ofInner at this
      simp only [Other.inner] at this
      rw [this]
      exact entryMeans k items
    · intro k hk
      rw [lookup_eq_get, lookup_eq_get]
      refine ⟨inner_props_get _ _ hk, ?_⟩
      rw [multi_of_props _ _ hk, itemsProps_filter, List.map_map]
      exact allMean_map k _
    · unfold innerOfProps
      simp only [(foldl_insertMulti_rest _ _).2]
      exact hc
theorem containsAll_toOthers : (items : List Item) → ContainsAll items (toOthers (itemsComps items))
  | [] => by simp [itemsComps, toOthers, ContainsAll]
  | .prop _ _ _ :: l => by
    unfold itemsComps ContainsAll
    exact containsAll_toOthers l
  | .comp b e n items :: l => by
    unfold itemsComps toOthers ContainsAll
    exact ⟨contains_toOther b e n items, containsAll_toOthers l⟩
end

theorem kindFor_toCalComp (c : PComp) : KindFor c.name c.toCalComp := by
  unfold KindFor PComp.toCalComp
  split
  · exact ⟨_, rfl⟩
  · split
    · exact ⟨_, rfl⟩
    · split
      · exact ⟨_, rfl⟩
      · exact ⟨_, rfl⟩

theorem compsContain : (items : List Item) → CompsContain items ((itemsComps items).map PComp.toCalComp)
  | [] => by simp [itemsComps, CompsContain]
  | .prop _ _ _ :: l => by
    unfold itemsComps CompsContain
    exact compsContain l
  | .comp b e n items :: l => by
    unfold itemsComps
    rw [List.map_cons]
    unfold CompsContain
    refine ⟨?_, ?_, compsContain l⟩
    · exact kindFor_toCalComp (.mk n _ _)
    · rw [toOther_toCalComp]
      exact contains_toOther b e n items

variable [Uni]

/-- **C66.** A well-formed calendar document, folded in any way, is read as a calendar with exactly its properties,
in order, and exactly its components, in order and of the right kinds, each containing what its lines say. -/
theorem foreign_document {br : Break} {b e : Str} {items : List Item}
    (h : (Item.comp b e c!"VCALENDAR" items).Ok br)
    (hq : br = .lf → '\r' ∉ (Item.comp b e c!"VCALENDAR" items).text br) (file : Str)
    (hf : FoldedForm ((Item.comp b e c!"VCALENDAR" items).text br) file) :
    ∃ c, Calendar.fromStr file = some c ∧ LinesMean (ownLines items) c.props ∧ CompsContain items c.comps := by
  obtain ⟨p, rest, ht, rfl, h1, h2, h3⟩ := hf
  refine ⟨{ props := (itemsProps items).map PProp.toProperty, comps := (itemsComps items).map PComp.toCalComp }, ?_,
    linesMean_props items, compsContain items⟩
  unfold Calendar.fromStr readCalendar
  rw [unfold_any_folding p rest h1 h2 h3, ← ht, components_ok (component_doc h hq)]
  simp [finish, PComp.name, PCal.toCalendar, PComp.props, PComp.comps]

/-- **C66.** The same for a single component and `CalendarComponent::from_str`. -/
theorem foreign_component {br : Break} {b e n : Str} {items : List Item} (h : (Item.comp b e n items).Ok br)
    (hq : br = .lf → '\r' ∉ (Item.comp b e n items).text br) (file : Str)
    (hf : FoldedForm ((Item.comp b e n items).text br) file) :
    ∃ x, CalComp.fromStr file = some x ∧ KindFor n x ∧ Contains (.comp b e n items) x.toOther := by
  obtain ⟨p, rest, ht, rfl, h1, h2, h3⟩ := hf
  refine ⟨(PComp.mk n (itemsProps items) (itemsComps items)).toCalComp, ?_, kindFor_toCalComp (.mk n _ _), ?_⟩
  · unfold CalComp.fromStr readComponent
    rw [unfold_any_folding p rest h1 h2 h3, ← ht, component_doc h hq]
    rfl
  · rw [toOther_toCalComp]
    exact contains_toOther b e n items

end Ical

namespace Ical

open Nom Spec

/-- A document with lower-case keywords, parameters, an unknown component and a nested alarm, folded in the middle of
names and values with different markers; and what is read. -/
def foreignItems : List Item :=
  [.prop c!"VERSION" [] c!"2.0",
   .comp c!"begin:" c!"END:" c!"VEVENT"
     [.prop c!"SUMMARY" [⟨c!"LANGUAGE", some (false, c!"en")⟩] c!"a\\, b",
      .comp c!"BEGIN:" c!"END:" c!"VALARM" [.prop c!"ACTION" [] c!"AUDIO"],
      .prop c!"ATTENDEE" [⟨c!"CN", some (true, c!"x: y")⟩] c!"mailto:x"],
   .comp c!"BEGIN:" c!"end:" c!"X-FOO" []]

example : (Item.comp c!"BEGIN:" c!"END:" c!"VCALENDAR" foreignItems).text .crlf =
    c!"BEGIN:VCALENDAR\r\nVERSION:2.0\r\nbegin:VEVENT\r\nSUMMARY;LANGUAGE=en:a\\, b\r\nBEGIN:VALARM\r\nACTION:AUDIO\r\nEND:VALARM\r\nATTENDEE;CN=\"x: y\":mailto:x\r\nEND:VEVENT\r\nBEGIN:X-FOO\r\nend:X-FOO\r\nEND:VCALENDAR\r\n" := by
  rfl

theorem foreignSample : @Item.Ok Uni.ascii .crlf (Item.comp c!"BEGIN:" c!"END:" c!"VCALENDAR" foreignItems) ∧
    FoldedForm ((Item.comp c!"BEGIN:" c!"END:" c!"VCALENDAR" foreignItems).text .crlf)
      c!"BEG\r\n IN:VCALENDAR\r\nVERSION:2.0\r\nbegin:VEVENT\r\nSUMMARY;LANG\n\tUAGE=en:a\\, b\r\nBEGIN:VALARM\r\nACTION:AUDIO\r\nEND:VALARM\r\nATTENDEE;CN=\"x: y\":mailto:x\r\nEND:VEVENT\r\nBEGIN:X-FOO\r\nend:X-FOO\r\nEND:VCALENDAR\r\n" := by
  refine ⟨?_, c!"BEG", [(.crlfSp, c!"IN:VCALENDAR\r\nVERSION:2.0\r\nbegin:VEVENT\r\nSUMMARY;LANG"),
    (.lfTab, c!"UAGE=en:a\\, b\r\nBEGIN:VALARM\r\nACTION:AUDIO\r\nEND:VALARM\r\nATTENDEE;CN=\"x: y\":mailto:x\r\nEND:VEVENT\r\nBEGIN:X-FOO\r\nend:X-FOO\r\nEND:VCALENDAR\r\n")],
    rfl, rfl, by decide +kernel, by decide +kernel, ?_⟩
  · simp only [foreignItems, Item.Ok, ItemsOk, ValOk, DParam.Ok, List.mem_singleton, List.not_mem_nil, forall_eq,
      false_implies, implies_true, and_true, true_and]
    decide +kernel
  · exact ⟨by decide, by decide, trivial⟩

end Ical
