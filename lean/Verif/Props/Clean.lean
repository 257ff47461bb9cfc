import Verif.Spec.Clean
import Verif.Props.Rewrite
import Verif.Props.Reread

/-!
C119: exactly which calendars survive being written and read; C94 for all clean calendars. The argument: whatever is read has
names for names, quotes only where they can be written and everything in its place, so a calendar that comes back has them.
-/

namespace Ical

open Nom Spec

/-! ### Stamps -/

theorem added_has {k : Str} {p : Property} {m m' : BMap Property} (h : AddedIfMissing k p m m') :
    (∃ x ∈ m', x.1 = k) ∧ ∀ j, (∃ x ∈ m, x.1 = j) → ∃ x ∈ m', x.1 = j := by
  obtain ⟨-, h⟩ := h
  split at h
  · rename_i hk
    rw [h]
    exact ⟨hk, fun _ h => h⟩
  · exact ⟨⟨(k, p), (h _).2 (.inl rfl), rfl⟩, fun j ⟨x, hx, hj⟩ => ⟨x, (h _).2 (.inr hx), hj⟩⟩

mutual
theorem stamped_has {o o' : Other} : Stamped o o' → HasStamps o'
  | .mk _ _ h1 h2 h3 => by
    obtain ⟨a1, a2⟩ := added_has h1
    obtain ⟨b1, b2⟩ := added_has h2
    exact ⟨b2 _ a1, b1, stampedAll_have h3⟩
theorem stampedAll_have {l l' : List Other} : StampedAll l l' → HaveStamps l'
  | .nil => trivial
  | .cons h1 h2 => ⟨stamped_has h1, stampedAll_have h2⟩
end

variable [Uni]

/-- what is true of every property that was read -/
structure WasRead (p : Property) : Prop where
  name : IsName p.key
  notEnd : ¬ c!"END" <+: p.key
  notBegin : ¬ c!"BEGIN" <+: p.key
  sorted : BMap.Sorted p.params
  params : ∀ x ∈ p.params, IsName x.1 ∧ (':' ∈ x.2 ∨ ';' ∈ x.2 → '"' ∉ x.2)

theorem paramsRead_was {l : List PParam} {t f : Str} (h : ParamsRead l t f) :
    ∀ q ∈ l, IsName q.key ∧ (':' ∈ q.val.getD [] ∨ ';' ∈ q.val.getD [] → '"' ∉ q.val.getD []) := by
  induction l generalizing t with
  | nil => simp
  | cons p l ih =>
    obtain ⟨a, b, ⟨hk, blanks, form, -, rfl, hm⟩, h2, rfl⟩ := h
    intro q hq
    rcases List.mem_cons.1 hq with rfl | hq
    · refine ⟨hk, ?_⟩
      cases hv : q.val with
      | none => simp
      | some v =>
        rw [hv] at hm
        rcases hm.2 with ⟨-, hn⟩ | ⟨-, h1, h2, -⟩
        · exact fun _ => hn
        · rintro (h | h)
          · exact absurd h h1
          · exact absurd h h2
    · exact ih h2 q hq

theorem propReads_was {p : PProp} {t f : Str} (h : PropReads p t f) : WasRead p.toProperty := by
  obtain ⟨hn, he, hb, h⟩ := h
  refine ⟨hn, he, hb, BMap.sorted_ofList _, ?_⟩
  intro x hx
  obtain ⟨q, hq, rfl⟩ := List.mem_map.1 (mem_ofList hx)
  rcases h with ⟨white, params, raw, br, -, hp, -⟩ | ⟨hp, -⟩
  · exact paramsRead_was hp q hq
  · rw [hp] at hq; simp at hq

theorem propOk_of_read {p : Property} (h : WasRead p) (hp : CleanProp p) : PropOk p := by
  refine ⟨⟨h.name, h.notEnd, h.notBegin, hp.notEnd, hp.notBegin⟩, ⟨h.sorted, fun x hx => (h.params x hx).1, ?_⟩, hp.value⟩
  intro x hx
  refine ⟨?_, (hp.params x hx).2⟩
  unfold Quotable
  split
  · rename_i hc; exact (h.params x hx).2 hc
  · exact (hp.params x hx).1

theorem cleanProp_of_ok {p : Property} (h : PropOk p) (hq : ∀ x ∈ p.params, ¬ ['"'] <+: x.2) : CleanProp p :=
  ⟨h.key.notEndAnyCase, h.key.notBeginAnyCase, fun x hx => ⟨hq x hx, (h.params.value x hx).2⟩, h.value⟩

/-! ### Components -/

omit [Uni] in
theorem inner_was (P : Property → Prop) {props : List PProp} (h : ∀ p ∈ props, P p.toProperty) (comps : List Other) :
    InOrder (innerOfProps props comps).props ∧
    (∀ x ∈ (innerOfProps props comps).props, x.2.key = x.1 ∧ x.1 ∉ repeatable ∧ P x.2) ∧
    InOrder (innerOfProps props comps).multi ∧
    ∀ x ∈ (innerOfProps props comps).multi, x.1 ∈ repeatable ∧ x.2 ≠ [] ∧ ∀ p ∈ x.2, p.key = x.1 ∧ P p := by
  have hfold : ∀ (l : List PProp) (i : Inner), l.foldl (fun c p => c.insertMulti p.toProperty) i =
      (l.map PProp.toProperty).foldl Inner.insertMulti i := by
    intro l i
    rw [List.foldl_map]
  have hf := foldl_insertMulti ((props.filter PProp.isMulti).map PProp.toProperty)
    { props := BMap.ofList ((props.filter (fun p => !p.isMulti)).map (fun p => (p.name, p.toProperty)))
      multi := [], comps := comps } .nil
  have hmulti := hf.2.2.2
  rw [← hfold, show List.foldl _ _ _ = innerOfProps props comps from rfl] at hmulti
  have hsorted : BMap.Sorted (innerOfProps props comps).multi := by
    unfold innerOfProps
    rw [hfold]
    exact hf.2.2.1
  have hprops : (innerOfProps props comps).props =
      BMap.ofList ((props.filter (fun p => !p.isMulti)).map (fun p => (p.name, p.toProperty))) := by
    unfold innerOfProps
    simp only [(foldl_insertMulti_rest _ _).1]
  refine ⟨by rw [hprops]; exact BMap.sorted_ofList _, ?_, hsorted, ?_⟩
  · intro x hx
    rw [hprops] at hx
    obtain ⟨p, hp, rfl⟩ := List.mem_map.1 (mem_ofList hx)
    obtain ⟨hp, hs⟩ := List.mem_filter.1 hp
    refine ⟨rfl, ?_, h p hp⟩
    intro hr
    have : multis.contains p.name = true := by rw [List.contains_eq_mem]; exact decide_eq_true hr
    unfold PProp.isMulti at hs
    rw [this] at hs
    cases hs
  · rintro ⟨k, l⟩ hx
    have hg := BMap.get_of_mem hsorted hx
    rw [hmulti] at hg
    have hk : k ∈ repeatable := by
      by_cases hk : k ∈ repeatable
      · exact hk
      · have := inner_multi_get props comps hk
        rw [BMap.get_of_mem hsorted hx] at this
        cases this
    split at hg
    · cases hg
    · rename_i hne
      have hg : [] ++ List.filter (fun p => p.key == k) ((props.filter PProp.isMulti).map PProp.toProperty) = l := by
        simpa [BMap.get] using hg
      rw [List.nil_append] at hg
      subst hg
      refine ⟨hk, hne, ?_⟩
      intro p hp
      obtain ⟨hp, hpk⟩ := List.mem_filter.1 hp
      obtain ⟨q, hq, rfl⟩ := List.mem_map.1 hp
      exact ⟨by simpa using hpk, h q (List.mem_filter.1 hq).1⟩

mutual
theorem compReads_clean {c : PComp} {t f : Str} : CompReads c t f → CleanOther c.toOther → OtherOk c.toOther
  | .mk (n := n) (props := props) (comps := comps) _ _ hn _ _ hb _ _ _, ht => by
    obtain ⟨h1, h2⟩ := bodyReads_clean hb
    have hc : (innerOfProps props (toOthers comps)).comps = toOthers comps := by
      unfold innerOfProps
      simp only [(foldl_insertMulti_rest _ _).2]
    rw [PComp.toOther] at ht ⊢
    unfold Other.ofInner at ht ⊢
    rw [hc] at ht ⊢
    obtain ⟨t1, t2, t3⟩ := ht
    obtain ⟨a1, a2, a3, a4⟩ := inner_was WasRead h1 (toOthers comps)
    exact ⟨hn, ⟨a1, fun x hx => ⟨(a2 x hx).1, (a2 x hx).2.1, propOk_of_read (a2 x hx).2.2 (t1 x hx)⟩, a3,
      fun x hx => ⟨(a4 x hx).1, (a4 x hx).2.1, fun p hp =>
        ⟨((a4 x hx).2.2 p hp).1, propOk_of_read ((a4 x hx).2.2 p hp).2 (t2 x hx p hp)⟩⟩⟩, h2 t3⟩
theorem bodyReads_clean {props : List PProp} {comps : List PComp} {t f : Str} : BodyReads props comps t f →
    (∀ p ∈ props, WasRead p.toProperty) ∧ (CleanOthers (toOthers comps) → OthersOk (toOthers comps))
  | .nil => ⟨by simp, fun _ => by rw [toOthers]; trivial⟩
  | .prop _ hp _ hr => by
    obtain ⟨h3, h4⟩ := bodyReads_clean hr
    refine ⟨?_, h4⟩
    intro p hmem
    rcases List.mem_cons.1 hmem with rfl | hmem
    · exact propReads_was hp
    · exact h3 p hmem
  | .comp _ hc _ hr => by
    obtain ⟨h3, h4⟩ := bodyReads_clean hr
    refine ⟨h3, ?_⟩
    rw [toOthers]
    exact fun ht => ⟨compReads_clean hc ht.1, h4 ht.2⟩
end

omit [Uni] in
theorem cleanOthers_mem {l : List PComp} (h : ∀ c ∈ l, CleanOther c.toOther) : CleanOthers (toOthers l) := by
  induction l with
  | nil => rw [toOthers]; trivial
  | cons c l ih =>
    rw [toOthers]
    exact ⟨h c (by simp), ih (fun d hd => h d (by simp [hd]))⟩

/-- **C119, C94.** Whatever text a calendar was read from: if it is clean it is well-formed. -/
theorem clean_read_ok (s : Str) (c : Calendar) (h : Calendar.fromStr s = some c) (hp : CleanCal c) : CalendarOk c := by
  obtain ⟨c0, h0, rfl⟩ := Option.map_eq_some_iff.1 h
  by_cases hne : c0.props = [] ∧ c0.comps = []
  · refine ⟨?_, ?_⟩
    · show ∀ p ∈ c0.props.map _, _
      rw [hne.1]; simp
    · show ∀ p ∈ c0.comps.map _, _
      rw [hne.2]; simp
  · have hcomps : ∀ d ∈ c0.comps, CleanOther d.toOther := by
      intro d hd
      have := hp.comps d.toCalComp (List.mem_map.2 ⟨d, hd, rfl⟩)
      rwa [toOther_toCalComp] at this
    rcases read_calendar_sound h0 hne with hr | ⟨d, -, h1, h2, hr⟩
    · generalize unfold s = u at hr
      generalize hc' : PComp.mk c!"VCALENDAR" c0.props c0.comps = d at hr
      cases hr with
      | mk _ _ hn _ _ hb _ _ _ =>
        cases hc'
        obtain ⟨h3, h4⟩ := bodyReads_clean hb
        refine ⟨?_, ?_⟩
        · intro p hp'
          have := hp.props p hp'
          obtain ⟨q, hq, rfl⟩ := List.mem_map.1 hp'
          exact propOk_of_read (h3 q hq) this
        · intro x hx
          obtain ⟨q, hq, rfl⟩ := List.mem_map.1 hx
          exact calCompOk_of_toOther (othersOk_mem (h4 (cleanOthers_mem hcomps)) q hq)
    · refine ⟨?_, ?_⟩
      · show ∀ p ∈ c0.props.map _, _
        rw [h1]; simp
      · intro x hx
        obtain ⟨q, hq, rfl⟩ := List.mem_map.1 hx
        have hq' := hcomps q hq
        rw [h2, List.mem_singleton] at hq
        subst hq
        exact calCompOk_of_toOther (compReads_clean hr hq')

/-- **C94.** Whatever text a calendar was read from: if it is clean, it can be written and read again. It is the same
calendar, except that texts change as in C83 and DTSTAMP and UID are generated where they are missing. -/
theorem rewrite_clean_partial (s : Str) (c : Calendar) (h : Calendar.fromStr s = some c) (hp : CleanCal c) (w : World)
    (hw : World.Ok w) (out : Str) (ho : c.fmtWrite w = .ok out) :
    ∃ c', Calendar.fromStr out = some c' ∧ CalStamped (rereadCal c) c' :=
  calendar_reread c (clean_read_ok s c h hp) w hw out ho

/-! ### C119 -/

/-- **C119.** A clean calendar is read back as it was if and only if it is well-formed, its texts survive and all its
components have DTSTAMP and UID. -/
theorem clean_survives_iff (c : Calendar) (hc : CleanCal c) (w : World) (hw : World.Ok w) (out : Str)
    (h : c.fmtWrite w = .ok out) :
    Calendar.fromStr out = some c ↔ CalendarOk c ∧ CalendarSafe c ∧ ∀ x ∈ c.comps, HasStamps x.toOther := by
  refine ⟨fun hr => ?_, fun ⟨h1, h2, h3⟩ => (calendar_survives_iff c h1 h3 w hw out h).2 h2⟩
  have hok := clean_read_ok out c hr hc
  have hst : ∀ x ∈ c.comps, HasStamps x.toOther := by
    obtain ⟨c', h1, h2⟩ := calendar_reread c hok w hw out h
    rw [hr, Option.some.injEq] at h1
    subst h1
    intro x hx
    obtain ⟨i, hi, rfl⟩ := List.getElem_of_mem hx
    have hi' : i < (rereadCal c).comps.length := by rw [← h2.length]; exact hi
    exact stamped_has (h2.comps i _ _ (List.getElem?_eq_getElem hi') (List.getElem?_eq_getElem hi)).2
  exact ⟨hok, (calendar_survives_iff c hok hst w hw out h).1 hr, hst⟩

end Ical

namespace Ical

open Nom Spec

/-- a clean event with both stamps, a parameter with quotes and a nested alarm -/
def cleanEvent : Other :=
  .mk c!"VEVENT" [(c!"DTSTAMP", ⟨c!"DTSTAMP", c!"20260101T000000Z", []⟩),
      (c!"SUMMARY", ⟨c!"SUMMARY", c!"a\\b;\n", [(c!"ALTREP", c!"http://x"), (c!"X", c!"a\"b")]⟩), (c!"UID", ⟨c!"UID", c!"u", []⟩)]
    [(c!"COMMENT", [⟨c!"COMMENT", c!"x", []⟩])]
    [.mk c!"VALARM" [(c!"DTSTAMP", ⟨c!"DTSTAMP", c!"20260101T000000Z", []⟩), (c!"UID", ⟨c!"UID", c!"v", []⟩)] [] []]

/-- a clean calendar -/
def cleanCalendar : Calendar := ⟨[⟨c!"VERSION", c!"2.0", []⟩], [.event ⟨cleanEvent.inner⟩]⟩

/-- the hypothesis of the theorem is satisfied by calendars that survive, -/
example : CleanCal cleanCalendar ∧ @CalendarOk Uni.ascii cleanCalendar ∧ CalendarSafe cleanCalendar ∧
    ∀ x ∈ cleanCalendar.comps, HasStamps x.toOther := by
  refine ⟨⟨by decide +kernel, ?_⟩, @CalendarOk.mk Uni.ascii _ (by decide +kernel) ?_, ⟨by decide +kernel, ?_⟩, ?_⟩ <;>
    (intro x hx; obtain rfl : x = .event ⟨cleanEvent.inner⟩ := by simpa [cleanCalendar] using hx)
  · exact ⟨by decide +kernel, by decide +kernel, ⟨by decide +kernel, by decide +kernel, trivial⟩, trivial⟩
  · exact ⟨by decide +kernel,
      @InnerOk.mk Uni.ascii _ _ (by decide +kernel) (by decide +kernel) (by decide +kernel) (by decide +kernel),
      ⟨by decide +kernel,
        @InnerOk.mk Uni.ascii _ _ (by decide +kernel) (by decide +kernel) (by decide +kernel) (by decide +kernel), trivial⟩, trivial⟩
  · exact ⟨by decide +kernel, by decide +kernel, ⟨by decide +kernel, by decide +kernel, trivial⟩, trivial⟩
  · exact ⟨by decide +kernel, by decide +kernel, ⟨by decide +kernel, by decide +kernel, trivial⟩, trivial⟩

/-- and by ones that do not, because a repeatable property is stored as a single one, a name is none, a quoted value
has a quote or a stamp is missing -/
example : (∀ p ∈ [(⟨c!"COMMENT", c!"x", []⟩ : Property), ⟨c!"A B", c!"x", []⟩, ⟨c!"A", c!"x", [(c!"B", c!"x\":y")]⟩],
    CleanProp p) ∧ c!"COMMENT" ∈ repeatable ∧ ¬ @IsName Uni.ascii c!"A B" ∧
    ¬ @PropOk Uni.ascii ⟨c!"A", c!"x", [(c!"B", c!"x\":y")]⟩ := by
  decide +kernel

end Ical
