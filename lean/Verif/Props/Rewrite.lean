import Verif.Props.Grammar
import Verif.Props.Reread
import Verif.Props.Foreign
import Verif.Props.Folding
import Verif.Spec.Tidy

/-!
C94: what is read from any text can be written and is read again as the same.
-/

namespace Ical

open Nom Spec

/-! ### Maps made of lists -/

theorem mem_ofList {α : Type} {l : List (Str × α)} {x : Str × α} (h : x ∈ BMap.ofList l) : x ∈ l := by
  have hg := BMap.get_of_mem (BMap.sorted_ofList l) h
  rw [BMap.get_ofList, Option.map_eq_some_iff] at hg
  obtain ⟨y, hy, he⟩ := hg
  have h1 := List.find?_some hy
  have h2 := List.mem_of_find?_eq_some hy
  have : y = x := Prod.ext (by simpa using h1) he
  rw [← this]
  exact List.mem_reverse.1 h2

theorem lookup_params {l : List PParam} (hn : (l.map PParam.key).Nodup) (k : Str) :
    (BMap.ofList (l.map PParam.toPair)).lookup k = (l.find? (fun q => q.key == k)).map (fun q => q.val.getD []) := by
  rw [lookup_eq_get, BMap.get_ofList, ← List.map_reverse, List.find?_map, Option.map_map]
  have h1 : ((fun x : Str × Str => x.1 == k) ∘ PParam.toPair) = fun q : PParam => q.key == k := rfl
  have h2 : Prod.snd ∘ PParam.toPair = fun q : PParam => q.val.getD [] := rfl
  rw [h1, h2]
  congr 1
  have hf : (l.filter (fun q => q.key == k)).length ≤ 1 := by
    clear h1 h2
    induction l with
    | nil => simp
    | cons q l ih =>
      rw [List.map_cons, List.nodup_cons] at hn
      have ih := ih hn.2
      rw [List.filter_cons]
      split
      · rename_i hq
        have : l.filter (fun q => q.key == k) = [] := by
          rw [List.filter_eq_nil_iff]
          intro r hr he
          have hq : q.key = k := by simpa using hq
          have he : r.key = k := by simpa using he
          exact hn.1 (List.mem_map.2 ⟨r, hr, he.trans hq.symm⟩)
        rw [this]; simp
      · exact ih
  rw [← List.head?_filter, ← List.head?_filter, List.filter_reverse]
  generalize l.filter (fun q => q.key == k) = m at hf
  match m, hf with
  | [], _ => rfl
  | [q], _ => rfl
  | _ :: _ :: _, hf => simp at hf

variable [Uni]

/-! ### Properties -/

omit [Uni] in
theorem isTextFor_getD (key : Str) (o : Option PParam) (h : ∀ q, o = some q → q.val ≠ some []) :
    IsTextFor key (o.bind PParam.val) ↔ IsTextFor key (o.map (fun q => q.val.getD [])) := by
  cases o with
  | none => exact Iff.rfl
  | some q =>
    obtain ⟨k, v⟩ := q
    cases v with
    | none =>
      simp only [Option.map_some, Option.bind_some, IsTextFor, Option.getD_none]
      simp [otherTypeNames]
    | some v => exact Iff.rfl

theorem paramReads_ok {p : PParam} {t f : Str} (h : ParamReads p t f) (hm : MarkerFree t)
    (hq : ∀ v, p.val = some v → ¬ ['"'] <+: v) :
    IsName p.key ∧ p.val ≠ some [] ∧ Quotable (p.val.getD []) ∧ MarkerFree (p.val.getD []) := by
  obtain ⟨hk, blanks, form, -, rfl, hform⟩ := h
  refine ⟨hk, ?_⟩
  cases hv : p.val with
  | none => exact ⟨by simp, by decide, markerFree_nil⟩
  | some v =>
    rw [hv] at hform
    obtain ⟨hne, hform⟩ := hform
    refine ⟨by simpa using hne, ?_⟩
    have hq := hq v hv
    simp only [Option.getD_some]
    rcases hform with ⟨rfl, hnq⟩ | ⟨rfl, h1, h2, -⟩
    · refine ⟨?_, markerFree_infix hm ⟨';' :: blanks ++ p.key ++ ['=', '"'], ['"'], by simp⟩⟩
      unfold Quotable
      split
      · exact hnq
      · exact hq
    · refine ⟨?_, markerFree_infix hm ⟨';' :: blanks ++ p.key ++ ['='], [], by simp⟩⟩
      unfold Quotable
      rw [if_neg (by simp [h1, h2])]
      exact hq

theorem paramsRead_ok {l : List PParam} {t f : Str} (h : ParamsRead l t f) (hm : MarkerFree t)
    (hq : ∀ q ∈ l, ∀ v, q.val = some v → ¬ ['"'] <+: v) :
    ∀ q ∈ l, IsName q.key ∧ q.val ≠ some [] ∧ Quotable (q.val.getD []) ∧ MarkerFree (q.val.getD []) := by
  induction l generalizing t with
  | nil => simp
  | cons p l ih =>
    obtain ⟨a, b, h1, h2, rfl⟩ := h
    intro q hmem
    rcases List.mem_cons.1 hmem with rfl | hmem
    · exact paramReads_ok h1 (markerFree_infix hm ⟨[], b, by simp⟩) (hq q List.mem_cons_self)
    · exact ih h2 (markerFree_infix hm ⟨a, [], by simp⟩) (fun q hq' => hq q (List.mem_cons_of_mem _ hq')) q hmem

theorem propReads_ok {p : PProp} {t f : Str} (h : PropReads p t f) (hm : MarkerFree t) (ht : TidyProp p) :
    PropOk p.toProperty := by
  obtain ⟨hn, he, hb, h⟩ := h
  suffices h' : ParamsOk p.toProperty.params ∧ ValueOk p.toProperty from
    ⟨⟨hn, he, hb, ht.notEnd, ht.notBegin⟩, h'.1, h'.2⟩
  rcases h with ⟨white, params, raw, br, -, hp, hraw, -, hv, rfl⟩ | ⟨hp, hv, -⟩
  · have hps := paramsRead_ok hp (markerFree_infix hm ⟨white ++ p.name, ':' :: raw ++ br, by simp⟩) ht.quote
    refine ⟨⟨BMap.sorted_ofList _, ?_, ?_⟩, ?_⟩
    · intro x hx
      obtain ⟨q, hq, rfl⟩ := List.mem_map.1 (mem_ofList hx)
      exact (hps q hq).1
    · intro x hx
      obtain ⟨q, hq, rfl⟩ := List.mem_map.1 (mem_ofList hx)
      exact (hps q hq).2.2
    · by_cases htx : IsText p.toProperty
      · exact .inl htx
      · right
        have : ¬ IsTextFor p.name ((p.params.find? (fun q => q.key == c!"VALUE")).bind PParam.val) := by
          intro h'
          refine htx ?_
          show IsTextFor p.name _
          rw [show p.toProperty.params = BMap.ofList (p.params.map PParam.toPair) from rfl, lookup_params ht.once]
          refine (isTextFor_getD _ _ ?_).1 h'
          intro q hq
          exact (hps q (List.mem_of_find?_eq_some hq)).2.1
        rw [show p.toProperty.val = raw from hv.1 this]
        exact ⟨hraw, markerFree_infix hm ⟨white ++ p.name ++ params ++ [':'], br, by simp⟩⟩
  · have hps : p.toProperty.params = [] := by
      show BMap.ofList (p.params.map _) = []
      rw [hp]; rfl
    refine ⟨by rw [hps]; exact ⟨.nil, by simp, by simp⟩, .inr ?_⟩
    rw [show p.toProperty.val = [] from hv]
    exact ⟨by simp, markerFree_nil⟩

/-! ### Components -/

theorem innerOk_props {props : List PProp} (h : ∀ p ∈ props, PropOk p.toProperty) (comps : List Other) :
    InnerOk (innerOfProps props comps).props (innerOfProps props comps).multi := by
  have hfold : ∀ (l : List PProp) (i : Inner), l.foldl (fun c p => c.insertMulti p.toProperty) i =
      (l.map PProp.toProperty).foldl Inner.insertMulti i := by
    intro l i
    rw [List.foldl_map]
  have hf := foldl_insertMulti ((props.filter PProp.isMulti).map PProp.toProperty)
    { props := BMap.ofList ((props.filter (fun p => !p.isMulti)).map (fun p => (p.name, p.toProperty)))
      multi := [], comps := comps } .nil
  have hmulti := hf.2.2.2
  rw [← hfold, show List.foldl _ _ _ = innerOfProps props comps from rfl] at hmulti
  have hsorted : BMap.Sorted (innerOfProps props comps).multi := by
    unfold innerOfProps
    rw [hfold]
    exact hf.2.2.1
  have hprops : (innerOfProps props comps).props =
      BMap.ofList ((props.filter (fun p => !p.isMulti)).map (fun p => (p.name, p.toProperty))) := by
    unfold innerOfProps
    simp only [(foldl_insertMulti_rest _ _).1]
  refine ⟨by rw [hprops]; exact BMap.sorted_ofList _, ?_, hsorted, ?_⟩
  · intro x hx
    rw [hprops] at hx
    obtain ⟨p, hp, rfl⟩ := List.mem_map.1 (mem_ofList hx)
    obtain ⟨hp, hs⟩ := List.mem_filter.1 hp
    refine ⟨rfl, ?_, h p hp⟩
    intro hr
    have : multis.contains p.name = true := by rw [List.contains_eq_mem]; exact decide_eq_true hr
    unfold PProp.isMulti at hs
    rw [this] at hs
    cases hs
  · rintro ⟨k, l⟩ hx
    have hg := BMap.get_of_mem hsorted hx
    rw [hmulti] at hg
    have hk : k ∈ repeatable := by
      by_cases hk : k ∈ repeatable
      · exact hk
      · have := inner_multi_get props comps hk
        rw [BMap.get_of_mem hsorted hx] at this
        cases this
    split at hg
    · cases hg
    · rename_i hne
      have hg : [] ++ List.filter (fun p => p.key == k) ((props.filter PProp.isMulti).map PProp.toProperty) = l := by
        simpa [BMap.get] using hg
      rw [List.nil_append] at hg
      subst hg
      refine ⟨hk, hne, ?_⟩
      intro p hp
      obtain ⟨hp, hpk⟩ := List.mem_filter.1 hp
      obtain ⟨q, hq, rfl⟩ := List.mem_map.1 hp
      exact ⟨by simpa using hpk, h q (List.mem_filter.1 hq).1⟩

mutual
theorem compReads_ok {c : PComp} {t f : Str} : CompReads c t f → MarkerFree t → TidyComp c → OtherOk c.toOther
  | .mk (n := n) (props := props) (comps := comps) (lead := lead) (b := b) (gap := gap) (body := body) (last := last)
      (e := e) (trail := trail) _ _ hn _ _ hb _ _ _, hm, ht => by
    obtain ⟨h1, h2⟩ := bodyReads_ok hb
      (markerFree_infix hm ⟨lead ++ b ++ n ++ gap, last ++ e ++ n ++ trail, by simp⟩) ht.1 ht.2
    rw [PComp.toOther]
    unfold Other.ofInner
    refine ⟨hn, innerOk_props h1 _, ?_⟩
    unfold innerOfProps
    simp only [(foldl_insertMulti_rest _ _).2]
    exact h2
theorem bodyReads_ok {props : List PProp} {comps : List PComp} {t f : Str} : BodyReads props comps t f →
    MarkerFree t → (∀ p ∈ props, TidyProp p) → TidyComps comps →
    (∀ p ∈ props, PropOk p.toProperty) ∧ OthersOk (toOthers comps)
  | .nil, _, _, _ => ⟨by simp, by rw [toOthers]; trivial⟩
  | .prop (lead := lead) (t := t) (trail := trail) (rest := rest) _ hp _ hr, hm, h1, h2 => by
    obtain ⟨h3, h4⟩ := bodyReads_ok hr (markerFree_infix hm ⟨lead ++ t ++ trail, [], by simp⟩)
      (fun p hp => h1 p (List.mem_cons_of_mem _ hp)) h2
    refine ⟨?_, h4⟩
    intro p hmem
    rcases List.mem_cons.1 hmem with rfl | hmem
    · exact propReads_ok hp (markerFree_infix hm ⟨lead, trail ++ rest, by simp⟩) (h1 _ List.mem_cons_self)
    · exact h3 p hmem
  | .comp (lead := lead) (t := t) (trail := trail) (rest := rest) _ hc _ hr, hm, h1, h2 => by
    obtain ⟨h3, h4⟩ := bodyReads_ok hr (markerFree_infix hm ⟨lead ++ t ++ trail, [], by simp⟩) h1 h2.2
    refine ⟨h3, ?_⟩
    rw [toOthers]
    exact ⟨compReads_ok hc (markerFree_infix hm ⟨lead, trail ++ rest, by simp⟩) h2.1, h4⟩
end

theorem calCompOk_of_toOther {c : PComp} (h : OtherOk c.toOther) : CalCompOk c.toCalComp := by
  have h1 := toOther_toCalComp c
  have h2 := toOther_name c
  have h3 : c.name ≠ c!"VEVENT" → c.name ≠ c!"VTODO" → c.name ≠ c!"VVENUE" → c.toCalComp = .other c.toOther := by
    intro a1 a2 a3
    unfold PComp.toCalComp
    rw [if_neg a1, if_neg a2, if_neg a3, toOther_inner, ← h2, ofInner_inner]
  by_cases a1 : c.name = c!"VEVENT"
  · have : c.toCalComp = .event ⟨c.toInner⟩ := by unfold PComp.toCalComp; rw [if_pos a1]
    rw [this] at h1 ⊢
    rw [← h1] at h
    exact h
  · by_cases a2 : c.name = c!"VTODO"
    · have : c.toCalComp = .todo ⟨c.toInner⟩ := by unfold PComp.toCalComp; rw [if_neg a1, if_pos a2]
      rw [this] at h1 ⊢
      rw [← h1] at h
      exact h
    · by_cases a3 : c.name = c!"VVENUE"
      · have : c.toCalComp = .venue ⟨c.toInner⟩ := by unfold PComp.toCalComp; rw [if_neg a1, if_neg a2, if_pos a3]
        rw [this] at h1 ⊢
        rw [← h1] at h
        exact h
      · rw [h3 a1 a2 a3]
        exact ⟨h, by rw [h2]; exact a1, by rw [h2]; exact a2, by rw [h2]; exact a3⟩

theorem othersOk_mem {l : List PComp} (h : OthersOk (toOthers l)) : ∀ c ∈ l, OtherOk c.toOther := by
  induction l with
  | nil => simp
  | cons d l ih =>
    rw [toOthers] at h
    intro c hc
    rcases List.mem_cons.1 hc with rfl | hc
    · exact h.1
    · exact ih h.2 c hc

/-! ### C94 -/

/-- **C94.** A component read from a text, if it has no odd lines and the text no nested fold marker, is well-formed. -/
theorem parsed_component_ok {s : Str} {c : PComp} (h : readComponent (unfold s) = some c)
    (hm : MarkerFree (unfold s)) (ht : TidyComp c) : CalCompOk c.toCalComp := by
  obtain ⟨t, rest, he, hr⟩ := read_component_sound h
  exact calCompOk_of_toOther (compReads_ok hr (markerFree_infix hm ⟨[], rest, by simpa using he.symm⟩) ht)

/-- **C94.** A calendar read from a text, if it has no odd lines and the text no nested fold marker, is well-formed. -/
theorem parsed_calendar_ok {s : Str} {c : PCal} (h : readCalendar (unfold s) = some c)
    (hm : MarkerFree (unfold s)) (ht : TidyCal c) : CalendarOk c.toCalendar := by
  by_cases hne : c.props = [] ∧ c.comps = []
  · refine ⟨?_, ?_⟩
    · show ∀ p ∈ c.props.map _, _
      rw [hne.1]; simp
    · show ∀ p ∈ c.comps.map _, _
      rw [hne.2]; simp
  · rcases read_calendar_sound h hne with hr | ⟨d, -, h1, h2, hr⟩
    · generalize unfold s = u at hm hr
      generalize hc' : PComp.mk c!"VCALENDAR" c.props c.comps = d at hr
      cases hr with
      | mk _ _ hn _ _ hb _ _ _ =>
        rename_i lead b gap body last e trail _ _ _ _ _ _ _
        cases hc'
        have hm' : MarkerFree body := markerFree_infix hm ⟨lead ++ b ++ c!"VCALENDAR" ++ gap,
          last ++ e ++ c!"VCALENDAR" ++ trail, by simp⟩
        obtain ⟨h3, h4⟩ := bodyReads_ok hb hm' ht.props ht.comps
        refine ⟨?_, ?_⟩
        · intro p hp
          obtain ⟨q, hq, rfl⟩ := List.mem_map.1 hp
          exact h3 q hq
        · intro x hx
          obtain ⟨q, hq, rfl⟩ := List.mem_map.1 hx
          exact calCompOk_of_toOther (othersOk_mem h4 q hq)
    · have ht := ht.comps
      rw [h2] at ht
      refine ⟨?_, ?_⟩
      · show ∀ p ∈ c.props.map _, _
        rw [h1]; simp
      · intro x hx
        obtain ⟨q, hq, rfl⟩ := List.mem_map.1 hx
        rw [h2, List.mem_singleton] at hq
        subst hq
        exact calCompOk_of_toOther (compReads_ok hr hm ht.1)

/-- **C94.** What is read from a text, if it has no odd lines and the text no nested fold marker, can be written and
read again: it is the same calendar, except that texts change as in C83 and DTSTAMP and UID are generated where they
are missing. -/
theorem rewrite_partial (s : Str) (c : Calendar) (h : Calendar.fromStr s = some c) (hm : MarkerFree (unfold s))
    (ht : ∀ c0, readCalendar (unfold s) = some c0 → TidyCal c0) (w : World) (hw : World.Ok w) (out : Str)
    (ho : c.fmtWrite w = .ok out) : ∃ c', Calendar.fromStr out = some c' ∧ CalStamped (rereadCal c) c' := by
  obtain ⟨c0, h0, rfl⟩ := Option.map_eq_some_iff.1 h
  exact calendar_reread _ (parsed_calendar_ok h0 hm (ht c0 h0)) w hw out ho

/-- **C94.** If moreover all its components have DTSTAMP and UID, then it is read again exactly as it was if and only
if its texts survive. -/
theorem rewrite_same_iff (s : Str) (c : Calendar) (h : Calendar.fromStr s = some c) (hm : MarkerFree (unfold s))
    (ht : ∀ c0, readCalendar (unfold s) = some c0 → TidyCal c0) (hst : ∀ x ∈ c.comps, HasStamps x.toOther)
    (w : World) (hw : World.Ok w) (out : Str) (ho : c.fmtWrite w = .ok out) :
    Calendar.fromStr out = some c ↔ CalendarSafe c := by
  obtain ⟨c0, h0, rfl⟩ := Option.map_eq_some_iff.1 h
  exact calendar_survives_iff _ (parsed_calendar_ok h0 hm (ht c0 h0)) hst w hw out ho

/-- A text is read as a calendar that, when it is written, is not read as the same calendar again. -/
def Spec.LostByRewriting (s : Str) : Prop :=
  ∃ c w out, Calendar.fromStr s = some c ∧ World.Ok w ∧ c.fmtWrite w = .ok out ∧
    ∀ c', Calendar.fromStr out = some c' → ¬ CalStamped (rereadCal c) c'

end Ical

namespace Ical

open Nom Spec

section
local instance asciiUni : Uni := Uni.ascii

def rewriteWorld : World := ⟨fun _ => ⟨⟨⟨2026, 1, 1⟩, 0, 0, 0, 0⟩⟩, fun _ => c!"0-f", fun _ l => l⟩

theorem rewriteWorld_ok : World.Ok rewriteWorld := by
  refine ⟨fun _ l => List.Perm.refl l, ?_, ?_⟩ <;> intro _ <;> dsimp only [rewriteWorld] <;> decide

theorem lost_unreadable {s out : Str} (h : ((Calendar.fromStr s).map (fun c => c.fmtWrite rewriteWorld)) = some (.ok out))
    (h2 : (Calendar.fromStr out).isNone) : LostByRewriting s := by
  obtain ⟨c, hc, hw⟩ := Option.map_eq_some_iff.1 h
  refine ⟨c, _, out, hc, rewriteWorld_ok, hw, ?_⟩
  intro c' hc'
  rw [hc'] at h2
  cases h2

theorem lost_props {s out : Str} (h : ((Calendar.fromStr s).map (fun c => c.fmtWrite rewriteWorld)) = some (.ok out))
    (h2 : (Calendar.fromStr out).map (fun c => c.props) ≠ (Calendar.fromStr s).map (fun c => (rereadCal c).props)) :
    LostByRewriting s := by
  obtain ⟨c, hc, hw⟩ := Option.map_eq_some_iff.1 h
  refine ⟨c, _, out, hc, rewriteWorld_ok, hw, ?_⟩
  intro c' hc' hs
  rw [hc, hc'] at h2
  exact h2 (congrArg some hs.props)

/-- **C94, what is missing.** Each condition is needed: a parameter value with only one double quote, a line called
`end` after a lone carriage return, a VALUE parameter given twice, and a fold marker around a fold marker. -/
theorem rewrite_violated :
    LostByRewriting c!"BEGIN:VEVENT\nX-C:say \"hi\"\nX-B;CN=\"abc:x\nEND:VEVENT\n" ∧
    LostByRewriting c!"BEGIN:VCALENDAR\r\n\rend:B\r\nEND:VCALENDAR\r\n" ∧
    LostByRewriting c!"BEGIN:VCALENDAR\nSUMMARY;VALUE=TEXT;VALUE=URI:a\\n b\nEND:VCALENDAR\n" ∧
    LostByRewriting c!"BEGIN:VCALENDAR\r\nX-A:a\n\n  b\r\nEND:VCALENDAR\r\n" := by
  refine ⟨lost_unreadable (out := c!"BEGIN:VCALENDAR\r\nBEGIN:VEVENT\r\nDTSTAMP:20260101T000000Z\r\nX-B;CN=\"abc:x\r\nX-C:say \"hi\"\r\nUID:0-f\r\nEND:VEVENT\r\nEND:VCALENDAR\r\n")
      (by decide +kernel) (by decide +kernel),
    lost_unreadable (out := c!"BEGIN:VCALENDAR\r\nend:B\r\nEND:VCALENDAR\r\n") (by decide +kernel) (by decide +kernel),
    lost_props (out := c!"BEGIN:VCALENDAR\r\nSUMMARY;VALUE=URI:a\n b\r\nEND:VCALENDAR\r\n") (by decide +kernel)
      (by decide +kernel),
    lost_props (out := c!"BEGIN:VCALENDAR\r\nX-A:a\n b\r\nEND:VCALENDAR\r\n") (by decide +kernel) (by decide +kernel)⟩

/-- a document with odd but harmless parts (no VCALENDAR, blank lines, lines without value, a repeated line, line feeds
only) fulfils the conditions -/
example : let s := c!"\nBEGIN:VTODO\n\nX-A;B;C=\"d:e\":f\\,g\nX-A:2\nSUMMARY\nATTENDEE:1\nATTENDEE:2\nBEGIN:V\nEND:V\nEND:VTODO"
    MarkerFree (unfold s) ∧ ∃ c0, readCalendar (unfold s) = some c0 ∧ c0.comps.length = 1 ∧ TidyCal c0 := by
  refine ⟨by decide +kernel, ⟨[], [.mk c!"VTODO" [⟨c!"X-A", c!"f\\,g", [⟨c!"B", none⟩, ⟨c!"C", some c!"d:e"⟩]⟩,
    ⟨c!"X-A", c!"2", []⟩, ⟨c!"SUMMARY", [], []⟩, ⟨c!"ATTENDEE", c!"1", []⟩, ⟨c!"ATTENDEE", c!"2", []⟩]
    [.mk c!"V" [] []]]⟩, ?_, rfl, ⟨by simp, ⟨⟨by decide +kernel, ⟨⟨by simp, trivial⟩, trivial⟩⟩, trivial⟩⟩⟩
  (rfl)

end

end Ical
