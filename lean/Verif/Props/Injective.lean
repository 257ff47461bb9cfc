import Verif.Props.Reread
import Verif.Props.Print

/-!
Different calendars have different texts.
-/

namespace Ical

open Nom Spec

variable [Uni]

/-! ### C92 -/

omit [Uni] in
/-- the first line break ends the line -/
theorem line_cancel {a b r s : Str} (ha : '\n' ∉ a) (hb : '\n' ∉ b)
    (h : a ++ (['\r', '\n'] ++ r) = b ++ (['\r', '\n'] ++ s)) : a = b ∧ r = s := by
  induction a generalizing b with
  | nil =>
    cases b with
    | nil => simpa using h
    | cons d b =>
      exfalso
      simp only [List.nil_append, List.cons_append, List.cons.injEq] at h
      cases b with
      | nil => simp at h
      | cons e b =>
        simp only [List.cons_append, List.cons.injEq] at h
        exact hb (by simp [← h.2.1])
  | cons c a ih =>
    cases b with
    | nil =>
      exfalso
      simp only [List.nil_append, List.cons_append, List.cons.injEq] at h
      cases a with
      | nil => simp at h
      | cons e a =>
        simp only [List.cons_append, List.cons.injEq] at h
        exact ha (by simp [h.2.1])
    | cons d b =>
      simp only [List.cons_append, List.cons.injEq] at h
      simp only [List.mem_cons, not_or] at ha hb
      obtain ⟨h1, h2⟩ := ih ha.2 hb.2 h.2
      exact ⟨by rw [h.1, h1], h2⟩

omit [Uni] in
theorem rereadProp_parts {p q : Property} (h : rereadProp p = rereadProp q) :
    p.key = q.key ∧ p.params = q.params ∧ (IsText p ↔ IsText q) ∧ (¬ IsText p → p = q) := by
  obtain ⟨k, v, l⟩ := p
  obtain ⟨k', v', l'⟩ := q
  simp only [rereadProp, Property.mk.injEq] at h
  obtain ⟨rfl, hv, rfl⟩ := h
  refine ⟨rfl, rfl, Iff.rfl, ?_⟩
  intro ht
  have ht' : ¬ IsText ⟨k, v', l⟩ := ht
  rw [if_neg ht, if_neg ht'] at hv
  rw [hv]

omit [Uni] in
/-- parameters take the same room in every order -/
theorem params_length {l l' : List (Str × Str)} (h : l.Perm l') :
    (((l.map dparam).map DParam.text).flatten).length = (((l'.map dparam).map DParam.text).flatten).length := by
  simp only [List.length_flatten]
  exact (((h.map dparam).map DParam.text).map List.length).sum_nat

/-- properties of equal shape with equal lines are equal -/
theorem prop_walk {p q : Property} (h : rereadProp p = rereadProp q) {w v : World} (hw : World.Ok w)
    (hv : World.Ok v) {r s : Str} (e : (propItem p w).text .crlf ++ r = (propItem q v).text .crlf ++ s) :
    p = q ∧ r = s := by
  obtain ⟨hk, hp, ht, hn⟩ := rereadProp_parts h
  simp only [propItem, Item.text, Break.text, List.append_assoc] at e
  obtain ⟨-, e⟩ := List.append_inj e (by rw [hk])
  obtain ⟨-, e⟩ := List.append_inj e (by
    rw [params_length (hw.order [] p.params), params_length (hv.order [] q.params), hp])
  obtain ⟨-, e⟩ := List.append_inj e rfl
  by_cases hx : IsText p
  · rw [valueText_of_text ((isText_iff p).1 hx), valueText_of_text ((isText_iff q).1 (ht.1 hx))] at e
    obtain ⟨e1, e2⟩ := line_cancel (escape_inert _).2 (escape_inert _).2 e
    refine ⟨?_, e2⟩
    obtain ⟨k, v, l⟩ := p
    obtain ⟨k', v', l'⟩ := q
    simp only at hk hp e1
    rw [hk, hp, escape_injective _ _ e1]
  · have := hn hx
    subst this
    exact ⟨rfl, by simpa using e⟩

/-- the same for lists -/
theorem props_walk {l m : List Property} (h : l.map rereadProp = m.map rereadProp) {w v : World} (hw : World.Ok w)
    (hv : World.Ok v) {r s : Str}
    (e : itemsText .crlf (propItems l w) ++ r = itemsText .crlf (propItems m v) ++ s) : l = m ∧ r = s := by
  induction l generalizing m w v with
  | nil =>
    cases m with
    | nil => exact ⟨rfl, by simpa [propItems, itemsText] using e⟩
    | cons q m => simp at h
  | cons p l ih =>
    cases m with
    | nil => simp at h
    | cons q m =>
      simp only [List.map_cons, List.cons.injEq] at h
      simp only [propItems, itemsText, List.append_assoc] at e
      obtain ⟨e1, e⟩ := prop_walk h.1 (worldOk_sub hw 0) (worldOk_sub hv 0) e
      obtain ⟨e2, e⟩ := ih h.2 (worldOk_sub hw 1) (worldOk_sub hv 1) e
      exact ⟨by rw [e1, e2], e⟩

omit [Uni] in
theorem bmap_of_values {m n : BMap Property} (h : m.map (fun x => (x.1, rereadProp x.2)) = n.map (fun x => (x.1, rereadProp x.2)))
    (hv : m.values = n.values) : m = n := by
  induction m generalizing n with
  | nil => cases n <;> simp_all
  | cons x m ih =>
    cases n with
    | nil => simp at h
    | cons y n =>
      simp only [List.map_cons, List.cons.injEq, Prod.mk.injEq] at h
      simp only [BMap.values, List.map_cons, List.cons.injEq] at hv
      rw [ih h.2 hv.2, Prod.ext h.1.1 hv.1]

omit [Uni] in
theorem bmap_of_flatten {m n : BMap (List Property)}
    (h : m.map (fun x => (x.1, x.2.map rereadProp)) = n.map (fun x => (x.1, x.2.map rereadProp)))
    (hv : m.values.flatten = n.values.flatten) : m = n := by
  induction m generalizing n with
  | nil => cases n <;> simp_all
  | cons x m ih =>
    cases n with
    | nil => simp at h
    | cons y n =>
      simp only [List.map_cons, List.cons.injEq, Prod.mk.injEq] at h
      simp only [BMap.values, List.map_cons, List.flatten_cons] at hv
      obtain ⟨h1, h2⟩ := List.append_inj hv (by simpa using congrArg List.length h.1.2)
      rw [ih h.2 h2, Prod.ext h.1.1 h1]

omit [Uni] in
theorem values_shape {m n : BMap Property} (h : m.map (fun x => (x.1, rereadProp x.2)) = n.map (fun x => (x.1, rereadProp x.2))) :
    m.values.map rereadProp = n.values.map rereadProp := by
  have := congrArg (List.map Prod.snd) h
  simpa [BMap.values, Function.comp_def] using this

omit [Uni] in
theorem flatten_shape {m n : BMap (List Property)}
    (h : m.map (fun x => (x.1, x.2.map rereadProp)) = n.map (fun x => (x.1, x.2.map rereadProp))) :
    m.values.flatten.map rereadProp = n.values.flatten.map rereadProp := by
  have := congrArg (fun l => (l.map Prod.snd).flatten) h
  simpa [BMap.values, Function.comp_def, List.map_flatten] using this

omit [Uni] in
theorem missing_stamped {props : BMap Property} {k v : Str} (h : ∃ x ∈ props, x.1 = k) : missing props k v = [] := by
  unfold missing
  rw [if_pos (containsKey_iff.2 h)]

mutual
/-- components of equal shape with equal texts are equal -/
theorem other_walk : (o u : Other) → rereadOther o = rereadOther u → HasStamps o → HasStamps u → (w v : World) →
    World.Ok w → World.Ok v → (r s : Str) →
    (o.item w).text .crlf ++ r = (u.item v).text .crlf ++ s → o = u ∧ r = s
  | .mk name props multi comps, .mk name' props' multi' comps', h, ho, hu, w, v, hw, hv, r, s, e => by
    simp only [rereadOther, Other.mk.injEq] at h
    obtain ⟨rfl, h1, h2, h3⟩ := h
    simp only [Other.item, Item.text, itemsText_append, missing_stamped ho.1, missing_stamped ho.2.1,
      missing_stamped hu.1, missing_stamped hu.2.1, List.nil_append, List.append_nil, List.append_assoc] at e
    obtain ⟨-, e⟩ := List.append_inj e rfl
    obtain ⟨-, e⟩ := List.append_inj e rfl
    obtain ⟨-, e⟩ := List.append_inj e rfl
    obtain ⟨e1, e⟩ := props_walk (values_shape h1) (worldOk_sub hw 0) (worldOk_sub hv 0) e
    obtain ⟨e2, e⟩ := props_walk (flatten_shape h2) (worldOk_sub hw 1) (worldOk_sub hv 1) e
    obtain ⟨e3, e⟩ := others_walk comps comps' h3 ho.2.2 hu.2.2 _ _ (worldOk_sub hw 2) (worldOk_sub hv 2) _ _ e
    refine ⟨?_, by simpa using e⟩
    rw [bmap_of_values h1 e1, bmap_of_flatten h2 e2, e3]
theorem others_walk : (l m : List Other) → rereadOthers l = rereadOthers m → HaveStamps l → HaveStamps m →
    (w v : World) → World.Ok w → World.Ok v → (r s : Str) →
    itemsText .crlf (otherItems l w) ++ r = itemsText .crlf (otherItems m v) ++ s → l = m ∧ r = s
  | [], [], _, _, _, _, _, _, _, _, _, e => ⟨rfl, by simpa [otherItems, itemsText] using e⟩
  | [], _ :: _, h, _, _, _, _, _, _, _, _, _ => by simp [rereadOthers] at h
  | _ :: _, [], h, _, _, _, _, _, _, _, _, _ => by simp [rereadOthers] at h
  | o :: l, u :: m, h, hl, hm, w, v, hw, hv, r, s, e => by
    simp only [rereadOthers, List.cons.injEq] at h
    simp only [otherItems, itemsText, List.append_assoc] at e
    obtain ⟨e1, e⟩ := other_walk o u h.1 hl.1 hm.1 _ _ (worldOk_sub hw 0) (worldOk_sub hv 0) _ _ e
    obtain ⟨e2, e⟩ := others_walk l m h.2 hl.2 hm.2 _ _ (worldOk_sub hw 1) (worldOk_sub hv 1) _ _ e
    exact ⟨by rw [e1, e2], e⟩
end

omit [Uni] in
theorem calComp_of_other {x y : CalComp} (h : rereadComp x = rereadComp y) (e : x.toOther = y.toOther) : x = y := by
  cases x <;> cases y <;> simp only [rereadComp, reduceCtorEq] at h
  case todo.todo t u =>
    obtain ⟨⟨a, b, c⟩⟩ := t
    obtain ⟨⟨a', b', c'⟩⟩ := u
    have e : Other.mk c!"VTODO" a b c = Other.mk c!"VTODO" a' b' c' := e
    cases e; rfl
  case event.event t u =>
    obtain ⟨⟨a, b, c⟩⟩ := t
    obtain ⟨⟨a', b', c'⟩⟩ := u
    have e : Other.mk c!"VEVENT" a b c = Other.mk c!"VEVENT" a' b' c' := e
    cases e; rfl
  case venue.venue t u =>
    obtain ⟨⟨a, b, c⟩⟩ := t
    obtain ⟨⟨a', b', c'⟩⟩ := u
    have e : Other.mk c!"VVENUE" a b c = Other.mk c!"VVENUE" a' b' c' := e
    cases e; rfl
  case other.other t u =>
    obtain ⟨n, a, b, c⟩ := t
    obtain ⟨n', a', b', c'⟩ := u
    have e : Other.mk n a b c = Other.mk n' a' b' c' := e
    cases e; rfl

theorem comps_walk {l m : List CalComp} (h : l.map rereadComp = m.map rereadComp)
    (hl : ∀ x ∈ l, HasStamps x.toOther) (hm : ∀ x ∈ m, HasStamps x.toOther) {w v : World} (hw : World.Ok w)
    (hv : World.Ok v) {r s : Str}
    (e : itemsText .crlf (compItems l w) ++ r = itemsText .crlf (compItems m v) ++ s) : l = m ∧ r = s := by
  induction l generalizing m w v with
  | nil =>
    cases m with
    | nil => exact ⟨rfl, by simpa [compItems, itemsText] using e⟩
    | cons q m => simp at h
  | cons x l ih =>
    cases m with
    | nil => simp at h
    | cons y m =>
      simp only [List.map_cons, List.cons.injEq] at h
      simp only [compItems, itemsText, List.append_assoc] at e
      obtain ⟨e1, e⟩ := other_walk _ _ (by rw [← rereadComp_toOther, h.1, rereadComp_toOther]) (hl x (by simp))
        (hm y (by simp)) _ _ (worldOk_sub hw 0) (worldOk_sub hv 0) _ _ e
      obtain ⟨e2, e⟩ := ih h.2 (fun z hz => hl z (by simp [hz])) (fun z hz => hm z (by simp [hz])) (worldOk_sub hw 1)
        (worldOk_sub hv 1) e
      exact ⟨by rw [calComp_of_other h.1 e1, e2], e⟩

/-- **C92.** Two well-formed calendars whose components have DTSTAMP and UID never have the same text unless they are
the same calendar, whatever the order of hash maps, the clocks and the UUIDs were for either of them. -/
theorem write_injective (c d : Calendar) (hc : CalendarOk c) (hd : CalendarOk d)
    (hcs : ∀ x ∈ c.comps, HasStamps x.toOther) (hds : ∀ x ∈ d.comps, HasStamps x.toOther)
    (w v : World) (hw : World.Ok w) (hv : World.Ok v) (out : Str)
    (h : c.fmtWrite w = .ok out) (h' : d.fmtWrite v = .ok out) : c = d := by
  have hr := (calendar_read hc hw h).symm.trans (calendar_read hd hv h')
  rw [trip_readAll hcs, trip_readAll hds, readCal_reread, readCal_reread, Option.some.injEq] at hr
  simp only [rereadCal, Calendar.mk.injEq] at hr
  have e := (unfold_calendar (calendarOk_writable hc) hw h).symm.trans (unfold_calendar (calendarOk_writable hd) hv h')
  simp only [Calendar.item, Item.text, itemsText_append, List.append_assoc] at e
  obtain ⟨-, e⟩ := List.append_inj e rfl
  obtain ⟨-, e⟩ := List.append_inj e rfl
  obtain ⟨-, e⟩ := List.append_inj e rfl
  obtain ⟨e1, e⟩ := props_walk hr.1 (worldOk_sub hw 0) (worldOk_sub hv 0) e
  obtain ⟨e2, e⟩ := comps_walk hr.2 hcs hds (worldOk_sub hw 1) (worldOk_sub hv 1) e
  obtain ⟨ps, cs⟩ := c
  obtain ⟨ps', cs'⟩ := d
  simp only at e1 e2
  rw [e1, e2]

/-- **C92.** The same for single components: the text also tells their kind. -/
theorem write_component_injective (x y : CalComp) (hx : CalCompOk x) (hy : CalCompOk y)
    (hxs : HasStamps x.toOther) (hys : HasStamps y.toOther)
    (w v : World) (hw : World.Ok w) (hv : World.Ok v) (out : Str)
    (h : x.fmtWrite w = .ok out) (h' : y.fmtWrite v = .ok out) : x = y := by
  have h0 : lineEnding (unfold []) = .error := by decide +kernel
  have hr := (calComp_read hx hw h noIndent_nil h0).symm.trans (calComp_read hy hv h' noIndent_nil h0)
  rw [trip_stamped _ hxs, trip_stamped _ hys, readComp_reread, readComp_reread, Option.some.injEq] at hr
  have e := (unfold_calComp (otherOk_writable _ (calCompOk_other hx)) hw h noIndent_nil).symm.trans
    (unfold_calComp (otherOk_writable _ (calCompOk_other hy)) hv h' noIndent_nil)
  obtain ⟨e1, -⟩ := other_walk _ _ (by rw [← rereadComp_toOther, hr, rereadComp_toOther]) hxs hys _ _ hw hv _ _ e
  exact calComp_of_other hr e1

/-- **C92.** The same for properties. -/
theorem write_property_injective (p q : Property) (hp : PropOk p) (hq : PropOk q)
    (w v : World) (hw : World.Ok w) (hv : World.Ok v) (out : Str)
    (h : p.fmtWrite w = .ok out) (h' : q.fmtWrite v = .ok out) : p = q := by
  obtain ⟨a, ha, ha'⟩ := property_write hw hp.key.1 hp.key.notEnd hp.key.notBegin hp.params hp.value h
  obtain ⟨b, hb, hb'⟩ := property_write hv hq.key.1 hq.key.notEnd hq.key.notBegin hq.params hq.value h'
  rw [ha] at hb
  cases hb
  rw [ha', readBack_reread, readBack_reread] at hb'
  have e := (unfold_property hw hp.key.1 hp.params hp.value h noIndent_nil).symm.trans
    (unfold_property hv hq.key.1 hq.params hq.value h' noIndent_nil)
  exact (prop_walk hb' hw hv e).1

omit [Uni] in
/-- Three summaries that are all read back as a colon (C83) have three different texts; all three properties can be
written. -/
example : let w : World := ⟨fun _ => ⟨⟨⟨2026, 1, 1⟩, 0, 0, 0, 0⟩⟩, fun _ => c!"0-f", fun _ l => l⟩
    let p : Str → Property := fun v => ⟨c!"SUMMARY", v, [(c!"LANGUAGE", c!"en")]⟩
    (∀ v ∈ [c!":", c!"\\:", c!"\\\\:"], @PropOk Uni.ascii (p v)) ∧
    @Property.fmtWrite Uni.ascii (p c!":") w = .ok c!"SUMMARY;LANGUAGE=en::\r\n" ∧
    @Property.fmtWrite Uni.ascii (p c!"\\:") w = .ok c!"SUMMARY;LANGUAGE=en:\\\\:\r\n" ∧
    @Property.fmtWrite Uni.ascii (p c!"\\\\:") w = .ok c!"SUMMARY;LANGUAGE=en:\\\\\\\\:\r\n" := by
  refine ⟨?_, by decide +kernel⟩
  show ∀ v ∈ [c!":", c!"\\:", c!"\\\\:"], @PropOk Uni.ascii ⟨c!"SUMMARY", v, [(c!"LANGUAGE", c!"en")]⟩
  intro v _
  exact @PropOk.mk Uni.ascii _ (show @KeyOk Uni.ascii c!"SUMMARY" by decide +kernel)
    (show @ParamsOk Uni.ascii [(c!"LANGUAGE", c!"en")] by decide +kernel) (.inl (show c!"SUMMARY" ∈ textNames by decide))

/-- without stamps two calendars may have the same text: the second one has the UID that is generated for the first -/
example : let w : World := ⟨fun _ => ⟨⟨⟨2026, 1, 1⟩, 0, 0, 0, 0⟩⟩, fun _ => c!"0-f", fun _ l => l⟩
    let t : Str × Property := (c!"DTSTAMP", ⟨c!"DTSTAMP", c!"20260101T000000Z", []⟩)
    @Calendar.fmtWrite Uni.ascii ⟨[], [.event ⟨⟨[t], [], []⟩⟩]⟩ w =
      @Calendar.fmtWrite Uni.ascii ⟨[], [.event ⟨⟨[t, (c!"UID", ⟨c!"UID", c!"0-f", []⟩)], [], []⟩⟩]⟩ w := by
  decide +kernel

end Ical
