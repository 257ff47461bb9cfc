import Verif.Proofs.Realigned

/-!
C119: exactly which calendars survive being written and read.
-/

namespace Ical

open Nom Spec

mutual
theorem allProps_and {P Q : Property → Prop} (o : Other) (h : EachProp P o) (h' : EachProp Q o) : EachProp (fun p => P p ∧ Q p) o := by
  match o with
  | .mk _ _ _ comps =>
    exact ⟨fun x hx => ⟨h.1 x hx, h'.1 x hx⟩, fun x hx p hp => ⟨h.2.1 x hx p hp, h'.2.1 x hx p hp⟩, allsProps_and comps h.2.2 h'.2.2⟩
theorem allsProps_and {P Q : Property → Prop} (l : List Other) (h : EachProps P l) (h' : EachProps Q l) :
    EachProps (fun p => P p ∧ Q p) l := by
  match l with
  | [] => trivial
  | o :: l => exact ⟨allProps_and o h.1 h'.1, allsProps_and l h.2 h'.2⟩
end

mutual
theorem allProps_imp {P Q : Property → Prop} (hPQ : ∀ p, P p → Q p) (o : Other) (h : EachProp P o) : EachProp Q o := by
  match o with
  | .mk _ _ _ comps =>
    exact ⟨fun x hx => hPQ _ (h.1 x hx), fun x hx p hp => hPQ _ (h.2.1 x hx p hp), allsProps_imp hPQ comps h.2.2⟩
theorem allsProps_imp {P Q : Property → Prop} (hPQ : ∀ p, P p → Q p) (l : List Other) (h : EachProps P l) : EachProps Q l := by
  match l with
  | [] => trivial
  | o :: l => exact ⟨allProps_imp hPQ o h.1, allsProps_imp hPQ l h.2⟩
end

variable [Uni]

/-! ### Sufficiency -/

theorem told_are {l : List (Str × Str)} {rest : Str} (hn : ∀ x ∈ l, IsName x.1) (ht : ParamsTold l (':' :: rest)) :
    ParamsAre (l.map readParam) (paramsText l) (':' :: rest) := by
  induction l with
  | nil => exact ⟨rfl, fun c hc => by cases hc; decide⟩
  | cons x l ih =>
    obtain ⟨k, v⟩ := x
    obtain ⟨h1, h2⟩ := ht
    have hk : IsName k := hn (k, v) (by simp)
    have hn' : ∀ x ∈ l, IsName x.1 := fun y hy => hn y (by simp [hy])
    refine ⟨[';'] ++ k ++ ['='] ++ quoteIfContainsColon v, paramsText l, ?_, ih hn' h2, rfl⟩
    refine ⟨hk, [], '=' :: quoteIfContainsColon v, by simp, by simp [readParam], ?_, ?_, ?_⟩
    · intro c hc
      cases k with
      | nil => cases hc; decide
      | cons d k =>
        cases hc
        have := hk c (by simp)
        exact ⟨fun h => nameChar_stops (c := ' ') (by simp) (h ▸ this),
          fun h => nameChar_stops (c := '\t') (by simp) (h ▸ this)⟩
    · intro c hc
      cases hc
      exact nameChar_stops (by simp)
    · have hf : First (fun c => c = ':' ∨ c = ';') (paramsText l ++ ':' :: rest) := by
        intro c hc
        rcases paramsText_head l rest with ⟨r, hr⟩ | ⟨r, hr⟩ <;> rw [hr] at hc <;> cases hc <;> simp
      by_cases hv : v = []
      · subst hv
        exact .inr ⟨rfl, hf⟩
      · simp only [readParam, hv, if_false]
        refine ⟨by simpa using hv, ?_⟩
        rw [quote_eq]
        by_cases hs : ':' ∈ v ∨ ';' ∈ v
        · rw [if_pos hs] at h1 ⊢
          exact .inl ⟨by simp, h1⟩
        · rw [if_neg hs] at h1 ⊢
          rw [not_or] at hs
          refine .inr ⟨rfl, hs.1, hs.2, hf, ?_⟩
          rintro w hw1 hw2 ⟨r, hr⟩
          cases v with
          | nil => exact hv rfl
          | cons a v =>
            simp only [List.cons_append, List.append_assoc, List.cons.injEq] at hr
            obtain ⟨rfl, hr⟩ := hr
            rcases h1 with h1 | h1 | ⟨forms, h1, h3⟩
            · exact h1 ⟨v, rfl⟩
            · obtain ⟨r', hr'⟩ := h1
              simp only [List.cons_append, List.nil_append, List.cons.injEq, true_and] at hr'
              subst hr'
              cases w with
              | nil => exact hw1 rfl
              | cons b w =>
                simp only [List.cons_append, List.cons.injEq] at hr
                exact hw2 (by simp [hr.1])
            · refine h3 ?_
              rw [forms_unique h1, List.tail_cons, List.append_assoc, ← hr]
              simp

omit [Uni] in
theorem shrunkParams_refl (l : List (Str × Str)) : ShrunkParams l l := by
  induction l with
  | nil => trivial
  | cons x l ih => exact ⟨rfl, shrunk_refl _, ih⟩

/-- lines that are told are read -/
theorem told_lines {ps : List Property} {a f : Str} (h : LinesTold ps a f) : ∀ {comps : List PComp} {b F : Str},
    f = b ++ F → (∀ p ∈ ps, OwnProp p ∧ NotKeyword p) → BodyIs [] comps b F → NoBreak (b ++ F) →
    ∃ qs, BodyIs qs comps (a ++ b) F ∧ qs.map PProp.toProperty = ps ∧ NoBreak (a ++ (b ++ F)) := by
  induction h with
  | nil => exact fun _ _ hb hn => ⟨[], hb, rfl, hn⟩
  | @cons p ps l forms t f h1 h2 h3 h4 ih =>
    intro comps b F he hp hb hn
    subst he
    obtain ⟨qs, i1, i2, i3⟩ := ih rfl (fun p hp' => hp p (by simp [hp'])) hb hn
    obtain ⟨⟨ho, hs⟩, hk⟩ := hp p (by simp)
    have hpn : ∀ x ∈ l, IsName x.1 := fun x hx => ho.paramName x (h1.mem_iff.1 hx)
    have hr := forms_unique h2
    have hpa := told_are (l := l) (rest := rawText p ++ ['\r', '\n'] ++ t ++ (b ++ F)) hpn (by simpa using h3)
    obtain ⟨k1, k2⟩ := line_notKeyword ho.name hk h1 (shrunkParams_refl l) (rawText p ++ ['\r', '\n'] ++ t ++ (b ++ F))
    have hkw := notKeyword_line ho.name ho.notEnd ho.notBegin (paramsText_head l (rawText p ++ ['\r', '\n'] ++ t ++ (b ++ F)))
    have hv := ho.value
    unfold ValueTold at hv
    have e : p.key ++ forms.flatten ++ ':' :: rawText p ++ ['\r', '\n'] ++ ([] ++ (t ++ b ++ F)) =
        p.key ++ (paramsText l ++ ':' :: (rawText p ++ ['\r', '\n'] ++ t ++ (b ++ F))) := by
      rw [hr]; simp
    have hq : PropIs ⟨p.key, p.val, l.map readParam⟩ (p.key ++ forms.flatten ++ ':' :: rawText p ++ ['\r', '\n'])
        ([] ++ (t ++ b ++ F)) := by
      refine ⟨ho.name, by rw [e]; exact hkw, .inl ⟨[], paramsText l, rawText p, ['\r', '\n'], by simp, by simpa using hpa, ?_, ?_, ?_⟩⟩
      · refine .inl ⟨rfl, ?_⟩
        unfold rawText
        by_cases ht : IsText p
        · rw [if_pos ht]
          exact fun hc => escaped_noLf p.val (hc.mem (by simp))
        · rw [if_neg ht]
          rw [if_neg ht] at hv
          exact hv
      · have := isText_read p hs h1
        simp only [this]
        by_cases ht : IsText p
        · rw [if_pos ht]
          rw [if_pos ht] at hv
          exact ((raw_read ht).2 hv).symm
        · unfold rawText
          rw [if_neg ht, if_neg ht]
      · rw [hr]; simp
    refine ⟨⟨p.key, p.val, l.map readParam⟩ :: qs, ?_, ?_, ?_⟩
    · have := BodyIs.prop (by rw [e]; exact k1) (by rw [e]; exact k2) hq (by simp) blank_nil (by simpa using i3) i1
      simpa using this
    · rw [List.map_cons, i2]
      congr 1
      unfold PProp.toProperty
      simp only [List.map_map]
      have : (PParam.toPair ∘ readParam) = id := funext readParam_pair
      rw [this, List.map_id, BMap.ofList_perm hs h1]
    · have := line_noBreak ho.name l (rawText p ++ ['\r', '\n'] ++ t ++ (b ++ F))
      rw [← e] at this
      simpa using this

omit [Uni] in
/-- properties that were read in the order of the maps -/
theorem inner_back {props : BMap Property} {multi : BMap (List Property)} (h1 : InOrder props)
    (h2 : ∀ x ∈ props, x.2.key = x.1 ∧ x.1 ∉ repeatable) (h3 : InOrder multi)
    (h4 : ∀ x ∈ multi, x.1 ∈ repeatable ∧ x.2 ≠ [] ∧ ∀ p ∈ x.2, p.key = x.1) {qs : List PProp}
    (h : qs.map PProp.toProperty = props.map Prod.snd ++ multi.flatMap Prod.snd) (comps : List Other) :
    innerOfProps qs comps = ⟨props, multi, comps⟩ := by
  obtain ⟨q1, q2, rfl, n1, n2⟩ := List.map_eq_append_iff.1 h
  have m1 : ∀ q ∈ q1, q.isMulti = false := by
    intro q hq
    have : q.toProperty ∈ props.map Prod.snd := by rw [← n1]; exact List.mem_map_of_mem hq
    obtain ⟨x, hx, he⟩ := List.mem_map.1 this
    cases hqm : q.isMulti with
    | false => rfl
    | true =>
      have := (isMulti_iff q).1 hqm
      rw [show q.name = q.toProperty.key from rfl, ← he, (h2 x hx).1] at this
      exact absurd this (h2 x hx).2
  have m2 : ∀ q ∈ q2, q.isMulti = true := by
    intro q hq
    have : q.toProperty ∈ multi.flatMap Prod.snd := by rw [← n2]; exact List.mem_map_of_mem hq
    obtain ⟨x, hx, hp⟩ := List.mem_flatMap.1 this
    rw [isMulti_iff, show q.name = q.toProperty.key from rfl, (h4 x hx).2.2 _ hp]
    exact (h4 x hx).1
  have f1 : (q1 ++ q2).filter (fun p => !p.isMulti) = q1 := by
    rw [List.filter_append, List.filter_eq_self.2 (fun q hq => by simp [m1 q hq]),
      List.filter_eq_nil_iff.2 (fun q hq => by simp [m2 q hq]), List.append_nil]
  have f2 : (q1 ++ q2).filter (fun p => p.isMulti) = q2 := by
    have e1 : q1.filter (fun p => p.isMulti) = [] := List.filter_eq_nil_iff.2 (fun q hq => by simp [m1 q hq])
    have e2 : q2.filter (fun p => p.isMulti) = q2 := List.filter_eq_self.2 (fun q hq => m2 q hq)
    rw [List.filter_append, e1, e2, List.nil_append]
  have e1 : q1.map (fun p => (p.name, p.toProperty)) = props := by
    have : q1.map (fun p => (p.name, p.toProperty)) = (q1.map PProp.toProperty).map (fun p => (p.key, p)) := by
      rw [List.map_map]; rfl
    rw [this, n1, List.map_map]
    refine (List.map_congr_left ?_).trans (List.map_id _)
    intro x hx
    exact Prod.ext (h2 x hx).1 rfl
  unfold innerOfProps
  rw [f1, f2, e1, BMap.ofList_sorted h1]
  have : ∀ i : Inner, q2.foldl (fun c p => c.insertMulti p.toProperty) i = (q2.map PProp.toProperty).foldl Inner.insertMulti i := by
    intro i; rw [List.foldl_map]
  rw [this, n2]
  have e : multi.flatMap Prod.snd = multi.values.flatten := by
    unfold BMap.values
    rw [List.flatMap_def]
  rw [e]
  exact foldl_groups h3 (fun x hx => ⟨(h4 x hx).2.1, (h4 x hx).2.2⟩) props comps

omit [Uni] in
theorem begin_noBreak (s : Str) : NoBreak (c!"BEGIN:" ++ s) := noBreak_letter (by decide)

omit [Uni] in
theorem end_noBreak (s : Str) : NoBreak (c!"END:" ++ s) := noBreak_letter (by decide)

theorem cr_first (s : Str) : First (fun c => ¬ NameChar c) (['\r', '\n'] ++ s) := by
  intro c hc
  cases hc
  exact nameChar_stops (by simp)

mutual
/-- components that are told are read -/
theorem told_comp {o : Other} {t f : Str} : CompTold o t f → Placed o → EachProp (fun p => OwnProp p ∧ NotKeyword p) o →
    NoBreak f → ∃ d, CompIs d t f ∧ d.toOther = o
  | .mk (name := name) (props := props) (multi := multi) (a := a) (b := b) hl hc, hp, ha, hf => by
    obtain ⟨h1, h2, h3, h4, h5, h6⟩ := hp
    obtain ⟨a1, a2, a3⟩ := ha
    have hb' : (c!"END:" ++ name ++ ['\r', '\n']) ++ f = c!"END:" ++ (name ++ (['\r', '\n'] ++ f)) := by simp
    obtain ⟨ds, i1, i2, i3⟩ := told_comps hc h6 a3 (by rw [hb']; exact end_noBreak _)
    obtain ⟨qs, q1, q2, q3⟩ := told_lines hl (b := b) (F := (c!"END:" ++ name ++ ['\r', '\n']) ++ f) (by simp)
      (by
        intro p hp
        rcases List.mem_append.1 hp with hp | hp
        · obtain ⟨x, hx, rfl⟩ := List.mem_map.1 hp
          exact a1 x hx
        · obtain ⟨x, hx, hp⟩ := List.mem_flatMap.1 hp
          exact a2 x hx p hp) i1 i3
    refine ⟨.mk name qs ds, ?_, ?_⟩
    · have := CompIs.mk (body := a ++ b) (b := c!"BEGIN:") (gap := ['\r', '\n']) (e := c!"END:") (trail := ['\r', '\n']) (by decide) h1 (cr_first _)
        blank_crlf (by simpa using q3) (by rw [hb'] at q1; exact q1) (by decide) blank_crlf hf
      simpa using this
    · rw [PComp.toOther, inner_back h2 h3 h4 h5 q2, i2]
      rfl
/-- see `told_comp` -/
theorem told_comps {l : List Other} {t f : Str} : CompsTold l t f → PlacedAll l →
    EachProps (fun p => OwnProp p ∧ NotKeyword p) l → NoBreak f →
    ∃ ds, BodyIs [] ds t f ∧ toOthers ds = l ∧ NoBreak (t ++ f)
  | .nil, _, _, hf => ⟨[], .nil, by rw [toOthers], hf⟩
  | .cons h1 h2, hp, ha, hf => by
    obtain ⟨ds, i1, i2, i3⟩ := told_comps h2 hp.2 ha.2 hf
    obtain ⟨d, j1, j2⟩ := told_comp h1 hp.1 ha.1 i3
    refine ⟨d :: ds, .comp j1 i1, by rw [toOthers, j2, i2], ?_⟩
    cases h1 with
    | mk _ _ =>
      simp only [List.append_assoc]
      exact begin_noBreak _
end

/-! ### Kinds of components -/

theorem placedIn_of_toOther {c : PComp} (h : Placed c.toOther) : PlacedIn c.toCalComp := by
  refine ⟨by rw [toOther_toCalComp]; exact h, ?_⟩
  intro o ho
  have hn : o.name = c.name ∧ c.name ≠ c!"VEVENT" ∧ c.name ≠ c!"VTODO" ∧ c.name ≠ c!"VVENUE" := by
    unfold PComp.toCalComp at ho
    split at ho
    · cases ho
    · split at ho
      · cases ho
      · split at ho
        · cases ho
        · cases ho
          rename_i a1 a2 a3
          exact ⟨rfl, a1, a2, a3⟩
  rw [hn.1]
  exact hn.2

theorem toCalComp_of_toOther {d : PComp} {x : CalComp} (h : d.toOther = x.toOther) (hx : PlacedIn x) : d.toCalComp = x := by
  have hn : d.name = x.toOther.name := by rw [← h, toOther_name]
  have hi : d.toInner = x.toOther.inner := by rw [← h, toOther_inner]
  unfold PComp.toCalComp
  cases x with
  | event e =>
    have hn : d.name = c!"VEVENT" := hn
    rw [if_pos hn, hi]; rfl
  | todo e =>
    have hn : d.name = c!"VTODO" := hn
    rw [if_neg (by rw [hn]; decide), if_pos hn, hi]; rfl
  | venue e =>
    have hn : d.name = c!"VVENUE" := hn
    rw [if_neg (by rw [hn]; decide), if_neg (by rw [hn]; decide), if_pos hn, hi]; rfl
  | other o =>
    obtain ⟨h1, h2, h3⟩ := hx.2 o rfl
    have e : (CalComp.other o).toOther = o := by
      show Other.ofInner o.name o.inner = o
      exact ofInner_inner o
    rw [e] at hn hi
    rw [if_neg (by rw [hn]; exact h1), if_neg (by rw [hn]; exact h2), if_neg (by rw [hn]; exact h3), hn, hi, ofInner_inner]

/-! ### Calendars -/

omit [Uni] in
theorem allsProps_mem {P : Property → Prop} {l : List CalComp} : EachProps P (l.map CalComp.toOther) ↔ ∀ x ∈ l, EachProp P x.toOther := by
  induction l with
  | nil => simp [EachProps]
  | cons x l ih => simp only [List.map_cons, EachProps, ih, List.mem_cons, forall_eq_or_imp]

theorem placedAll_mem {l : List CalComp} : PlacedAll (l.map CalComp.toOther) ↔ ∀ x ∈ l, Placed x.toOther := by
  induction l with
  | nil => simp [PlacedAll]
  | cons x l ih => simp only [List.map_cons, PlacedAll, ih, List.mem_cons, forall_eq_or_imp]

omit [Uni] in
theorem haveStamps_mem {l : List CalComp} : HaveStamps (l.map CalComp.toOther) ↔ ∀ x ∈ l, HasStamps x.toOther := by
  induction l with
  | nil => simp [HaveStamps]
  | cons x l ih => simp only [List.map_cons, HaveStamps, ih, List.mem_cons, forall_eq_or_imp]

omit [Uni] in
theorem toOthers_calComps (l : List PComp) : toOthers l = (l.map PComp.toCalComp).map CalComp.toOther := by
  induction l with
  | nil => rw [toOthers]; rfl
  | cons c l ih => rw [toOthers, ih, List.map_cons, List.map_cons, toOther_toCalComp]

/-- told calendars are read as they were -/
theorem told_calendar {c : Calendar} (hk : CalProps NotKeyword c) (ho : CalProps OwnProp c) (hp : ∀ x ∈ c.comps, PlacedIn x)
    {out : Str} (h : CalTold c (unfoldSpec out)) : Calendar.fromStr out = some c := by
  obtain ⟨a, b, hu, h1, h2⟩ := h
  obtain ⟨ds, i1, i2, i3⟩ := told_comps h2 (placedAll_mem.2 (fun x hx => (hp x hx).1))
    (allsProps_mem.2 (fun x hx => allProps_and _ (ho.comps x hx) (hk.comps x hx))) (end_noBreak c!"VCALENDAR\r\n")
  obtain ⟨qs, q1, q2, q3⟩ := told_lines h1 rfl (fun p hp => ⟨ho.props p hp, hk.props p hp⟩) i1 i3
  have hc : CompIs (.mk c!"VCALENDAR" qs ds) (unfoldSpec out) [] := by
    have := CompIs.mk (n := c!"VCALENDAR") (f := []) (b := c!"BEGIN:") (gap := ['\r', '\n']) (e := c!"END:") (trail := ['\r', '\n'])
      (by decide) (rfcName_isName (by decide)) (cr_first _)
      blank_crlf (by simpa using q3) q1 (by decide) blank_crlf ⟨by simp, by simp⟩
    rw [hu]
    simpa using this
  have hr : readCalendar (unfold out) = some ⟨qs, ds⟩ := by
    rw [unfold_eq_spec]
    exact calendar_read_iff.2 (.inl ⟨[], _, rfl, blank_nil, hc⟩)
  unfold Calendar.fromStr
  rw [hr, Option.map_some]
  unfold PCal.toCalendar
  simp only [q2]
  have hds : ds.map PComp.toCalComp = c.comps := by
    have key : ∀ (l : List CalComp) (ds : List PComp), (∀ x ∈ l, PlacedIn x) → toOthers ds = l.map CalComp.toOther →
        ds.map PComp.toCalComp = l := by
      intro l
      induction l with
      | nil =>
        intro ds _ h
        cases ds with
        | nil => rfl
        | cons => simp [toOthers] at h
      | cons x l ih =>
        intro ds hx h
        cases ds with
        | nil => simp [toOthers] at h
        | cons d ds =>
          rw [toOthers, List.map_cons, List.cons.injEq] at h
          rw [List.map_cons, toCalComp_of_toOther h.1 (hx x (by simp)), ih ds (fun y hy => hx y (by simp [hy])) h.2]
    exact key _ _ hp i2
  rw [hds]

/-! ### Necessity -/

omit [Uni] in
theorem begins_lead {lead t rest : Str} (hl : Blank lead) (he : c!"BEGIN:" ++ rest = lead ++ t) : lead = [] :=
  blank_head hl he.symm (by simp [Space])

omit [Uni] in
theorem calendarPlace {props : List PProp} (h : ∀ q ∈ props, (q.params.map PParam.toPair).Perm q.toProperty.params) :
    SamePlace props (props.map PProp.toProperty) := by
  intro qs1 q qs2 ps1 p ps2 h1 h2 h3 _ _ _
  have hq := h q (by rw [h1]; simp)
  rw [h1, List.map_append, List.map_cons] at h2
  have hlen : (qs1.map PProp.toProperty).length = ps1.length := by
    have := congrArg List.length h3
    simpa using this
  have := (List.append_inj h2 hlen).2
  simp only [List.cons.injEq] at this
  rw [← this.1]
  exact hq

/-- what is read as it was is told -/
theorem read_calendar {c : Calendar} (hk : CalProps NotKeyword c) {w : World} (hw : World.Ok w) {out : Str}
    (h : c.fmtWrite w = .ok out) (hr : Calendar.fromStr out = some c) :
    (∀ x ∈ c.comps, PlacedIn x) ∧ CalProps OwnProp c ∧ (∀ x ∈ c.comps, HasStamps x.toOther) ∧ CalTold c (unfoldSpec out) := by
  obtain ⟨c0, h0, rfl⟩ := Option.map_eq_some_iff.1 hr
  rw [unfold_eq_spec] at h0
  have hprops : c0.toCalendar.props = c0.props.map PProp.toProperty := rfl
  have hcomps : c0.toCalendar.comps.map CalComp.toOther = toOthers c0.comps := (toOthers_calComps c0.comps).symm
  -- everything that was read is in its place
  have facts : (∀ q ∈ c0.props, ∃ t f, PropIs q t f) ∧ AllsQ (fun q => ∃ t f, PropIs q t f) c0.comps ∧ PlacedAll (toOthers c0.comps) := by
    rcases calendar_read_iff.1 h0 with ⟨lead, t, -, -, hc⟩ | ⟨lead, t, d, -, -, hc, -, h1, h2⟩ | ⟨h1, h2, -⟩
    · have := compIs_allRead hc
      simp only [AllQ] at this
      cases hc with
      | mk _ _ _ _ _ hb _ _ _ => exact ⟨this.1, this.2, bodyIs_placed hb⟩
    · rw [h1, h2]
      refine ⟨by simp, ?_, ?_⟩
      · simp only [AllsQ]
        exact ⟨compIs_allRead hc, trivial⟩
      · simp only [toOthers]
        exact ⟨compIs_placed hc, trivial⟩
    · rw [h1, h2]
      exact ⟨by simp, by simp only [AllsQ], by rw [toOthers]; trivial⟩
  obtain ⟨f1, f2, f3⟩ := facts
  have readable : ∀ q : PProp, (∃ t f, PropIs q t f) → Readable q.toProperty := fun q ⟨_, _, hq⟩ => propIs_readable hq
  have fr := toOthers_allsProps readable _ f2
  have fn := allsProps_imp (fun p (hp : Readable p) => hp.named) _ fr
  rw [← hcomps] at f3 fr fn
  have named : ∀ p ∈ c0.toCalendar.props, Named p := by
    intro p hp
    obtain ⟨q, hq, rfl⟩ := List.mem_map.1 hp
    exact (readable q (f1 q hq)).named
  obtain ⟨us, vs, s1, s2, s3⟩ := shrunk_calendar named
    (fun x hx => ⟨placedAll_mem.1 f3 x hx, allsProps_mem.1 fn x hx⟩) hw h
  have hplaced : ∀ x ∈ c0.toCalendar.comps, PlacedIn x := by
    intro x hx
    obtain ⟨d, hd, rfl⟩ := List.mem_map.1 hx
    refine placedIn_of_toOther ?_
    rw [← toOther_toCalComp]
    exact placedAll_mem.1 f3 _ hx
  refine ⟨hplaced, ?_⟩
  rcases calendar_read_iff.1 h0 with ⟨lead, t, he, hl, hc⟩ | ⟨lead, t, d, he, hl, hc, hd, -⟩ | ⟨h1, h2, -⟩
  · -- a calendar
    rw [s3] at he
    have := begins_lead hl he
    subst this
    rw [List.nil_append] at he
    generalize hD : PComp.mk c!"VCALENDAR" c0.props c0.comps = D at hc
    generalize hnil : ([] : Str) = f at hc
    cases hc with
    | @mk n props comps b' gap body e trail f hb hn hf hgap hnb hbody hend htrail hnf =>
      subst hnil
      simp only [PComp.mk.injEq] at hD
      obtain ⟨rfl, hD1, hD2⟩ := hD
      subst hD1 hD2
      have he1 : b' ++ (c!"VCALENDAR" ++ (gap ++ (body ++ (e ++ (c!"VCALENDAR" ++ (trail ++ [])))))) =
          c!"BEGIN:" ++ (c!"VCALENDAR" ++ (['\r', '\n'] ++ (us ++ (vs ++ (c!"END:" ++ (c!"VCALENDAR" ++ (['\r', '\n'] ++ []))))))) := by
        rw [List.append_nil, ← he]; simp
      -- the semicolons
      have count1 : (us ++ vs).count ';' = lineSemis c0.toCalendar.props + othersSemis (toOthers c0.comps) := by
        rw [List.count_append, shrunkLines_semis s1 (fun p hp => (named p hp).1), shrunkOthers_semis s2 f3 fn, hcomps]
      have count2 : body.count ';' ≤ (us ++ vs).count ';' := by
        have := congrArg (List.count ';') he1
        simp only [List.count_append] at this
        have h1 : (c!"BEGIN:").count ';' = 0 := rfl
        have h2 : (c!"VCALENDAR").count ';' = 0 := rfl
        have h3 : (c!"END:").count ';' = 0 := rfl
        have h4 : (['\r', '\n'] : Str).count ';' = 0 := rfl
        have h5 : ([] : Str).count ';' = 0 := rfl
        rw [List.count_append]
        omega
      have count3 := bodyIs_semis hbody
      obtain ⟨count4, count5⟩ := toOthers_semis c0.comps
      obtain ⟨count6, count7⟩ := sum_le (f := fun q => semis q.toProperty) (g := readSemis) (fun q => (semis_toProperty q).1) c0.props
      have e1 : lineSemis c0.toCalendar.props = (c0.props.map (fun q => semis q.toProperty)).sum := by
        rw [hprops]
        unfold lineSemis
        rw [List.map_map]
        rfl
      have kept := count5 (by omega)
      have same := count7 (by omega)
      have perm : ∀ q ∈ c0.props, (q.params.map PParam.toPair).Perm q.toProperty.params :=
        fun q hq => (semis_toProperty q).2 (same q hq)
      -- the properties
      have pp : ∀ p ∈ c0.toCalendar.props, Proper p := by
        intro p hp
        have hk := hk.props p hp
        obtain ⟨q, hq, rfl⟩ := List.mem_map.1 hp
        obtain ⟨_, _, hq'⟩ := f1 q hq
        exact ⟨propIs_readable hq', propIs_inLine hq' (perm q hq), hk⟩
      have pc : EachProps Proper (c0.toCalendar.comps.map CalComp.toOther) := by
        have a1 : EachProps InLine (toOthers c0.comps) := by
          refine toOthers_allsProps ?_ _ (allsRead_and _ f2 (keptAll_allsRead _ kept))
          rintro q ⟨⟨_, _, h1⟩, h2⟩
          exact propIs_inLine h1 h2
        rw [← hcomps] at a1
        have a2 := allsProps_mem.2 hk.comps
        exact allsProps_imp (fun p hp => ⟨hp.1.1, hp.1.2, hp.2⟩) _ (allsProps_and _ (allsProps_and _ fr a1) a2)
      obtain ⟨rfl, he2⟩ := List.append_inj he1 (by
        have := congrArg List.length hb
        rw [List.length_map] at this
        exact this)
      have he3 := List.append_cancel_left he2
      have hn2 : NoBreak (vs ++ (c!"END:" ++ (c!"VCALENDAR" ++ (['\r', '\n'] ++ [])))) := others_noBreak s2 (end_noBreak _)
      obtain ⟨rfl, he4⟩ := blank_unique hgap blank_crlf hnb
        (lines_noBreak s1 (fun p hp => (named p hp).1) hn2) he3
      obtain ⟨qs, props', body', r0, r1, r2, r3, r4⟩ := lines_read s1 (fun p hp => (pp p hp).fine) (calendarPlace perm) hbody
        ⟨e, _, rfl, hend⟩ hn2 he4
      obtain ⟨rfl, rfl, e3, e4, e5, e6⟩ := comps_read s2 r2 hcomps.symm kept pc ⟨e, _, rfl, hend⟩ ⟨_, rfl⟩ r3
      rw [List.append_nil] at r0
      obtain ⟨t1, t2⟩ := lines_told r1 (by rw [← r0]; rfl) (fun p hp => ⟨(pp p hp).readable, (pp p hp).inLine⟩)
      refine ⟨⟨t2, allsProps_mem.1 e6⟩, haveStamps_mem.1 e4, us, body', ?_, by simpa using t1, by simpa using e5⟩
      rw [s3]
      simp
  · -- the name of the component
    exfalso
    rw [s3] at he
    have := begins_lead hl he
    subst this
    rw [List.nil_append] at he
    cases hc with
    | @mk n props comps b' gap body e trail f hb hn hf hgap hnb hbody hend htrail hnf =>
      obtain ⟨rfl, he2⟩ := List.append_inj (s₁ := c!"BEGIN:") (show c!"BEGIN:" ++ (c!"VCALENDAR" ++ (['\r', '\n'] ++ (us ++ (vs ++ c!"END:VCALENDAR\r\n")))) =
          b' ++ (n ++ (gap ++ (body ++ (e ++ (n ++ trail))))) by rw [← he]; simp) (by
        have := congrArg List.length hb
        rw [List.length_map] at this
        exact this.symm)
      refine hd ?_
      refine (span_unique (P := NameChar) he2 (rfcName_isName (by decide)) hn (cr_first _) ?_).symm
      simpa [First] using hf
  · have hp0 : c0.toCalendar.props = [] := by rw [hprops, h1]; rfl
    have hc0 : c0.toCalendar.comps = [] := by
      show c0.comps.map _ = []
      rw [h2]; rfl
    rw [hp0] at s1
    rw [hc0] at s2
    cases s1
    cases s2
    refine ⟨⟨by rw [hp0]; simp, by rw [hc0]; simp⟩, by rw [hc0]; simp, [], [], ?_, ?_, ?_⟩
    · rw [s3]; rfl
    · rw [hp0]; exact .nil
    · rw [hc0]; exact .nil

/-- **C119 (exactly).** A calendar without properties that are called begin or end and have no parameters is read back as
it was if and only if everything in it is in its place, all properties have names that can be read and values that can
be told from their text, all components have DTSTAMP and UID, and what was written is, without the line breaks of
folding, the lines of the calendar with parameter values that are told. -/
theorem calendar_survives_exactly (c : Calendar) (hk : CalProps NotKeyword c) (w : World) (hw : World.Ok w) (out : Str)
    (h : c.fmtWrite w = .ok out) :
    Calendar.fromStr out = some c ↔
      (∀ x ∈ c.comps, PlacedIn x) ∧ CalProps OwnProp c ∧ (∀ x ∈ c.comps, HasStamps x.toOther) ∧ CalTold c (unfoldSpec out) :=
  ⟨read_calendar hk hw h, fun ⟨h1, h2, _, h4⟩ => told_calendar hk h2 h1 h4⟩

/-! ### Components -/

/-- **C119 (exactly, for components).** The same for the text of a single component. -/
theorem component_survives_exactly (x : CalComp) (hk : EachProp NotKeyword x.toOther) (w : World) (hw : World.Ok w) (out : Str)
    (h : x.fmtWrite w = .ok out) :
    CalComp.fromStr out = some x ↔
      PlacedIn x ∧ EachProp OwnProp x.toOther ∧ HasStamps x.toOther ∧ CompTold x.toOther (unfoldSpec out) [] := by
  rw [calComp_fmtWrite] at h
  unfold CalComp.fromStr
  rw [unfold_eq_spec]
  constructor
  · intro hr
    obtain ⟨d, hd, rfl⟩ := Option.map_eq_some_iff.1 hr
    rw [toOther_toCalComp] at h hk ⊢
    obtain ⟨lead, t, f, he, hl, hc⟩ := component_read_iff.1 hd
    have hp := compIs_placed hc
    have fq := compIs_allRead hc
    have fr : EachProp Readable d.toOther := toOther_allProps (fun q ⟨_, _, hq⟩ => propIs_readable hq) _ fq
    have fn := allProps_imp (fun p (hp : Readable p) => hp.named) _ fr
    obtain ⟨u, s1, s2, -⟩ := shrunk_other d.toOther hp fn hw h (t := []) noIndent_nil
    rw [List.append_nil] at s2
    have s2 : unfoldSpec out = u := by simpa [unfoldSpec] using s2
    rw [s2] at he ⊢
    have hlead : lead = [] := by
      generalize hO : d.toOther = O at s1
      cases s1 with
      | mk => exact begins_lead hl he
    subst hlead
    rw [List.nil_append] at he
    have hkept : Kept d := by
      have h1 := shrunkOther_semis s1 hp fn
      have h2 := compIs_semis hc
      obtain ⟨h3, h4⟩ := toOther_semis d
      rw [he, List.count_append] at h1
      exact h4 (by omega)
    have hone : EachProp InLine d.toOther :=
      toOther_allProps (fun q ⟨⟨_, _, h1⟩, h2⟩ => propIs_inLine h1 h2) _ (allRead_and _ fq (kept_allRead _ hkept))
    have hproper := allProps_imp (fun p hp => (⟨hp.1.1, hp.1.2, hp.2⟩ : Proper p)) _ (allProps_and _ (allProps_and _ fr hone) hk)
    obtain ⟨-, -, e1, e2, e3⟩ := comp_read s1 hc rfl hkept hproper (y := []) ⟨by simp, by simp⟩ (by rw [List.append_nil, he])
    exact ⟨placedIn_of_toOther hp, e3, e1, e2⟩
  · rintro ⟨h1, h2, -, h4⟩
    obtain ⟨d, hd, he⟩ := told_comp h4 h1.1 (allProps_and _ h2 hk) ⟨by simp, by simp⟩
    rw [component_read_iff.2 ⟨[], _, [], by simp, blank_nil, hd⟩, Option.map_some, toCalComp_of_toOther he h1]

end Ical

namespace Ical

open Nom Spec

/-- a calendar with a parameter value that starts with a quote -/
def quoteCalendar : Calendar := ⟨[⟨c!"X-A", c!"v", [(c!"P", c!"\"a")]⟩, ⟨c!"X-B", c!"w", [(c!"P", c!"b")]⟩], []⟩

/-- The conditions of the theorem are met by it, though it is not clean: no second quote follows. -/
example : ¬ CleanCal quoteCalendar ∧ CalProps NotKeyword quoteCalendar ∧ CalProps (@OwnProp Uni.ascii) quoteCalendar ∧
    CalTold quoteCalendar c!"BEGIN:VCALENDAR\r\nX-A;P=\"a:v\r\nX-B;P=b:w\r\nEND:VCALENDAR\r\n" := by
  refine ⟨?_, ⟨?_, by simp [quoteCalendar]⟩, ⟨?_, by simp [quoteCalendar]⟩, ?_⟩
  · intro h
    exact absurd (h.props ⟨c!"X-A", c!"v", [(c!"P", c!"\"a")]⟩ (by simp [quoteCalendar])) (by decide +kernel)
  · intro p hp
    simp only [quoteCalendar, List.mem_cons, List.not_mem_nil, or_false] at hp
    rcases hp with rfl | rfl <;> exact fun h => by cases h
  · intro p hp
    simp only [quoteCalendar, List.mem_cons, List.not_mem_nil, or_false] at hp
    rcases hp with rfl | rfl <;>
      exact ⟨@OwnLine.mk Uni.ascii _ (by decide +kernel) (by decide +kernel) (by decide +kernel) (by decide +kernel)
        (by unfold ValueTold; decide +kernel), by decide +kernel⟩
  · refine ⟨c!"X-A;P=\"a:v\r\nX-B;P=b:w\r\n", [], rfl, ?_, .nil⟩
    refine LinesTold.cons (p := ⟨c!"X-A", c!"v", [(c!"P", c!"\"a")]⟩) (l := [(c!"P", c!"\"a")]) (forms := [c!";P=\"a"])
      (t := c!"X-B;P=b:w\r\n") (.refl _) ⟨by unfold ParamForm; decide +kernel, trivial⟩ ⟨?_, trivial⟩ ?_
    · rw [if_neg (by decide)]
      exact .inr (.inr ⟨[], trivial, by decide +kernel⟩)
    · exact LinesTold.cons (p := ⟨c!"X-B", c!"w", [(c!"P", c!"b")]⟩) (l := [(c!"P", c!"b")]) (forms := [c!";P=b"])
        (t := []) (.refl _) ⟨by unfold ParamForm; decide +kernel, trivial⟩ ⟨by rw [if_neg (by decide)]; exact .inl (by decide), trivial⟩ .nil

/-- The calendar is read as it was; with a second quote, in another parameter or in a value, it is not. -/
example : (@Calendar.fromStr Uni.ascii c!"BEGIN:VCALENDAR\r\nX-A;P=\"a:v\r\nX-B;P=b:w\r\nEND:VCALENDAR\r\n").map (·.props) =
      some quoteCalendar.props ∧
    (@Calendar.fromStr Uni.ascii c!"BEGIN:VCALENDAR\r\nX-A;P=\"a:v\r\nX-B;P=\"b:w\r\nEND:VCALENDAR\r\n").map (·.props) = some [] ∧
    (@Calendar.fromStr Uni.ascii c!"BEGIN:VCALENDAR\r\nX-A;P=\"a:v\r\nX-B:w\"\r\nEND:VCALENDAR\r\n").map (·.props) = some [] := by
  decide +kernel

/-- The one hypothesis is there for calendars like this one: the line of a property that is called begin is read as the
property only because no component can be read from it. -/
example : (@Calendar.fromStr Uni.ascii c!"BEGIN:VCALENDAR\r\nbegin:a b\r\nEND:VCALENDAR\r\n").map (·.props) =
      some [⟨c!"begin", c!"a b", []⟩] ∧
    (@Calendar.fromStr Uni.ascii c!"BEGIN:VCALENDAR\r\nbegin:a\r\nEND:VCALENDAR\r\n").map (·.props) = none := by
  decide +kernel

end Ical

namespace Ical

open Nom Spec

/-- an event with a nested alarm, whose parameter value starts with a quote -/
def quoteEvent : CalComp := .event ⟨⟨[(c!"DTSTAMP", ⟨c!"DTSTAMP", c!"x", []⟩), (c!"UID", ⟨c!"UID", c!"u", []⟩)], [],
  [.mk c!"VALARM" [(c!"DTSTAMP", ⟨c!"DTSTAMP", c!"x", []⟩), (c!"UID", ⟨c!"UID", c!"v", [(c!"P", c!"\"")]⟩)] [] []]⟩⟩

/-- It meets the conditions of the theorem and is read from its text. -/
example : @PlacedIn Uni.ascii quoteEvent ∧ HasStamps quoteEvent.toOther ∧
    (@CalComp.fromStr Uni.ascii c!"BEGIN:VEVENT\r\nDTSTAMP:x\r\nUID:u\r\nBEGIN:VALARM\r\nDTSTAMP:x\r\nUID;P=\":v\r\nEND:VALARM\r\nEND:VEVENT\r\n")
      = some quoteEvent := by
  refine ⟨⟨⟨by decide +kernel, by decide +kernel, by decide +kernel, by decide +kernel, by decide +kernel,
    ⟨by decide +kernel, by decide +kernel, by decide +kernel, by decide +kernel, by decide +kernel, trivial⟩, trivial⟩, ?_⟩,
    ⟨by decide +kernel, by decide +kernel, ⟨by decide +kernel, by decide +kernel, trivial⟩, trivial⟩, ?_⟩
  · intro o h; cases h
  · rfl

end Ical
