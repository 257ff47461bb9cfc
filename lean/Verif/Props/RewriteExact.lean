import Verif.Props.Survives
import Verif.Proofs.Restamped

/-!
C94: exactly which calendars are, when written and read again, what was read.
-/

namespace Ical

open Nom Spec

variable [Uni]

/-! ### Sufficiency -/

/-- what is true of every property, when it can be written and read -/
def Rereadable (p : Property) : Prop := Readable p ∧ InLine p ∧ NotKeyword p

omit [Uni] in
theorem raw_reread {p : Property} (h : IsText p) : unescaped (rawText p) = (rereadProp p).val := by
  have e : rawText p = escapeText p.val := by
    unfold rawText
    rw [if_pos h, escapeText_eq]
    exact congrArg (fun f => p.val.flatMap f) (funext escaped_eq)
  rw [e, ← unescapeText_unescaped, text_reread]
  unfold rereadProp
  simp only
  rw [if_pos h]

/-- lines that are told are read, with TEXT values as they are read -/
theorem reread_lines {ps : List Property} {a f : Str} (h : LinesTold ps a f) : ∀ {comps : List PComp} {b F : Str},
    f = b ++ F → (∀ p ∈ ps, Rereadable p) → BodyIs [] comps b F → NoBreak (b ++ F) →
    ∃ qs, BodyIs qs comps (a ++ b) F ∧ qs.map PProp.toProperty = ps.map rereadProp ∧ NoBreak (a ++ (b ++ F)) := by
  induction h with
  | nil => exact fun _ _ hb hn => ⟨[], hb, rfl, hn⟩
  | @cons p ps l forms t f h1 h2 h3 h4 ih =>
    intro comps b F he hp hb hn
    subst he
    obtain ⟨qs, i1, i2, i3⟩ := ih rfl (fun p hp' => hp p (by simp [hp'])) hb hn
    obtain ⟨ho, hv, hk⟩ := hp p (by simp)
    have hs := ho.sorted
    have hpn : ∀ x ∈ l, IsName x.1 := fun x hx => ho.named.2 x (h1.mem_iff.1 hx)
    have hr := forms_unique h2
    have hpa := told_are (l := l) (rest := rawText p ++ ['\r', '\n'] ++ t ++ (b ++ F)) hpn (by simpa using h3)
    obtain ⟨k1, k2⟩ := line_notKeyword ho.named.1 hk h1 (shrunkParams_refl l) (rawText p ++ ['\r', '\n'] ++ t ++ (b ++ F))
    have hkw := notKeyword_line ho.named.1 ho.notEnd ho.notBegin (paramsText_head l (rawText p ++ ['\r', '\n'] ++ t ++ (b ++ F)))
    have e : p.key ++ forms.flatten ++ ':' :: rawText p ++ ['\r', '\n'] ++ ([] ++ (t ++ b ++ F)) =
        p.key ++ (paramsText l ++ ':' :: (rawText p ++ ['\r', '\n'] ++ t ++ (b ++ F))) := by
      rw [hr]; simp
    have hq : PropIs ⟨p.key, (rereadProp p).val, l.map readParam⟩ (p.key ++ forms.flatten ++ ':' :: rawText p ++ ['\r', '\n'])
        ([] ++ (t ++ b ++ F)) := by
      refine ⟨ho.named.1, by rw [e]; exact hkw, .inl ⟨[], paramsText l, rawText p, ['\r', '\n'], by simp, by simpa using hpa, ?_, ?_, ?_⟩⟩
      · refine .inl ⟨rfl, ?_⟩
        unfold rawText
        by_cases ht : IsText p
        · rw [if_pos ht]
          exact fun hc => escaped_noLf p.val (hc.mem (by simp))
        · rw [if_neg ht]
          exact hv ht
      · have := isText_read p hs h1
        simp only [this]
        by_cases ht : IsText p
        · rw [if_pos ht]
          exact (raw_reread ht).symm
        · unfold rawText rereadProp
          rw [if_neg ht, if_neg ht]
          simp only
          rw [if_neg ht]
      · rw [hr]; simp
    refine ⟨⟨p.key, (rereadProp p).val, l.map readParam⟩ :: qs, ?_, ?_, ?_⟩
    · have := BodyIs.prop (by rw [e]; exact k1) (by rw [e]; exact k2) hq (by simp) blank_nil (by simpa using i3) i1
      simpa using this
    · rw [List.map_cons, i2, List.map_cons]
      congr 1
      unfold PProp.toProperty rereadProp
      simp only [List.map_map]
      have : (PParam.toPair ∘ readParam) = id := funext readParam_pair
      rw [this, List.map_id, BMap.ofList_perm hs h1]
    · have := line_noBreak ho.named.1 l (rawText p ++ ['\r', '\n'] ++ t ++ (b ++ F))
      rw [← e] at this
      simpa using this

omit [Uni] in
/-- properties that were read in any order -/
theorem inner_perm {A B : List Property} {props : BMap Property} {multi : BMap (List Property)} (h1 : InOrder props)
    (hA : (A.map (fun p => (p.key, p))).Perm props) (h2 : ∀ p ∈ A, p.key ∉ repeatable) (h3 : InOrder multi)
    (h4 : ∀ x ∈ multi, x.1 ∈ repeatable ∧ x.2 ≠ [] ∧ ∀ p ∈ x.2, p.key = x.1) (hB : B = multi.values.flatten) {qs : List PProp}
    (h : qs.map PProp.toProperty = A ++ B) (comps : List Other) :
    innerOfProps qs comps = ⟨props, multi, comps⟩ := by
  obtain ⟨q1, q2, rfl, n1, n2⟩ := List.map_eq_append_iff.1 h
  have m1 : ∀ q ∈ q1, q.isMulti = false := by
    intro q hq
    have : q.toProperty ∈ A := by rw [← n1]; exact List.mem_map_of_mem hq
    cases hqm : q.isMulti with
    | false => rfl
    | true => exact absurd ((isMulti_iff q).1 hqm) (h2 _ this)
  have m2 : ∀ q ∈ q2, q.isMulti = true := by
    intro q hq
    have : q.toProperty ∈ multi.values.flatten := by rw [← hB, ← n2]; exact List.mem_map_of_mem hq
    obtain ⟨y, hy, hp⟩ := List.mem_flatten.1 this
    obtain ⟨x, hx, rfl⟩ := List.mem_map.1 hy
    rw [isMulti_iff, show q.name = q.toProperty.key from rfl, (h4 x hx).2.2 _ hp]
    exact (h4 x hx).1
  have f1 : (q1 ++ q2).filter (fun p => !p.isMulti) = q1 := by
    rw [List.filter_append, List.filter_eq_self.2 (fun q hq => by simp [m1 q hq]),
      List.filter_eq_nil_iff.2 (fun q hq => by simp [m2 q hq]), List.append_nil]
  have f2 : (q1 ++ q2).filter (fun p => p.isMulti) = q2 := by
    have e1 : q1.filter (fun p => p.isMulti) = [] := List.filter_eq_nil_iff.2 (fun q hq => by simp [m1 q hq])
    have e2 : q2.filter (fun p => p.isMulti) = q2 := List.filter_eq_self.2 (fun q hq => m2 q hq)
    rw [List.filter_append, e1, e2, List.nil_append]
  have e1 : (q1.map (fun p => (p.name, p.toProperty))).Perm props := by
    have : q1.map (fun p => (p.name, p.toProperty)) = (q1.map PProp.toProperty).map (fun p => (p.key, p)) := by
      rw [List.map_map]; rfl
    rw [this, n1]
    exact hA
  unfold innerOfProps
  rw [f1, f2, BMap.ofList_perm h1 e1]
  have : ∀ i : Inner, q2.foldl (fun c p => c.insertMulti p.toProperty) i = (q2.map PProp.toProperty).foldl Inner.insertMulti i := by
    intro i; rw [List.foldl_map]
  rw [this, n2, hB]
  exact foldl_groups h3 (fun x hx => ⟨(h4 x hx).2.1, (h4 x hx).2.2⟩) props comps

omit [Uni] in
theorem supplied_inv {k : Str} {Ok : Str → Prop} {props : BMap Property} {d : List Property} (h : Supplied k Ok props d) (v0 : Str) (h0 : Ok v0) :
    ∃ v, Ok v ∧ d = genProps props k v := by
  unfold Supplied at h
  unfold genProps
  split at h
  · rename_i hc
    refine ⟨v0, h0, ?_⟩
    rw [h, if_pos (containsKey_iff.2 hc)]
  · rename_i hc
    obtain ⟨v, hv, rfl⟩ := h
    exact ⟨v, hv, by rw [if_neg (fun h => hc (containsKey_iff.1 h))]⟩

omit [Uni] in
theorem rereadProp_plain (k : Str) {v : Str} (h : '\\' ∉ v) : rereadProp ⟨k, v, []⟩ = ⟨k, v, []⟩ := by
  unfold rereadProp
  simp only
  split
  · rw [(rereadText_iff v).2 ⟨fun hc => h (hc.mem (by simp)), fun hc => h (hc.mem (by simp)), fun hc => h (hc.mem (by simp))⟩]
  · rfl

omit [Uni] in
theorem some_now : ∃ now : UtcDateTime, now.naive.Valid := ⟨⟨⟨⟨1970, 1, 1⟩, 0, 0, 0, 0⟩⟩, by decide⟩

omit [Uni] in
theorem genProps_reread (P : BMap Property) (k : Str) {v : Str} (h : '\\' ∉ v) : (genProps P k v).map rereadProp = genProps P k v := by
  unfold genProps
  split
  · rfl
  · simp [rereadProp_plain k h]

theorem stamped_again {n : Str} {P : BMap Property} {M : BMap (List Property)} {C C' : List Other} {a b : Str} (hP : InOrder P)
    (hs : Stamp a b) (hC : StampedAll (rereadOthers C) C') :
    Stamped (rereadOther (.mk n P M C)) (.mk n (addMissing c!"UID" b (addMissing c!"DTSTAMP" a (readProps P))) (readMulti M) C') := by
  obtain ⟨⟨now, h1, rfl⟩, h2⟩ := hs
  rw [rereadOther, readProps_reread, readMulti_reread]
  exact .mk h1 h2 (addMissing_spec (inOrder_reread hP)) (addMissing_spec (sorted_addMissing (inOrder_reread hP))) hC

mutual
/-- components that are written like that are read -/
theorem reread_comp {o : Other} {t f : Str} : CompWritten o t f → Placed o → EachProp Rereadable o →
    NoBreak f → ∃ d, CompIs d t f ∧ Stamped (rereadOther o) d.toOther
  | .mk (name := name) (props := P) (multi := M) (a := a) (b := b) hd hu hl hc, hp, ha, hf => by
    obtain ⟨h1, h2, h3, h4, h5, h6⟩ := hp
    obtain ⟨a1, a2, a3⟩ := ha
    obtain ⟨now, hnow⟩ := some_now
    obtain ⟨va, hva, rfl⟩ := supplied_inv hd _ ⟨now, hnow, rfl⟩
    obtain ⟨vb, hvb, rfl⟩ := supplied_inv hu [] (by simp)
    have hst : Stamp va vb := ⟨hva, hvb⟩
    have hbs := stamp_not hst (x := '\\') (by decide) (by decide) (by decide)
    have hb' : (c!"END:" ++ name ++ ['\r', '\n']) ++ f = c!"END:" ++ (name ++ (['\r', '\n'] ++ f)) := by simp
    obtain ⟨ds, i1, i2, i3⟩ := reread_comps hc h6 a3 (by rw [hb']; exact end_noBreak _)
    have hgen : ∀ k v : Str, IsName k → (k.map lowerAscii ≠ c!"end" ∧ k.map lowerAscii ≠ c!"begin") → ¬ c!"END" <+: k → ¬ c!"BEGIN" <+: k →
        '\n' ∉ v → ∀ p ∈ genProps P k v, Rereadable p := by
      intro k v k1 k2 k3 k4 k5 p hp
      unfold genProps at hp
      split at hp
      · cases hp
      · rw [List.mem_singleton.1 hp]
        exact ⟨⟨⟨k1, by simp⟩, k3, k4, .nil⟩, fun _ hc => k5 (hc.mem (by simp)), fun _ => k2⟩
    have hlf := stamp_not hst (x := '\n') (by decide) (by decide) (by decide)
    obtain ⟨qs, q1, q2, q3⟩ := reread_lines hl (b := b) (F := (c!"END:" ++ name ++ ['\r', '\n']) ++ f) (by simp)
      (by
        intro p hp
        simp only [List.mem_append] at hp
        rcases hp with ((hp | hp) | hp) | hp
        · exact hgen _ _ isName_dtstamp (by decide) (by decide) (by decide) hlf.1 p hp
        · obtain ⟨x, hx, rfl⟩ := List.mem_map.1 hp
          exact a1 x hx
        · exact hgen _ _ isName_uid (by decide) (by decide) (by decide) hlf.2 p hp
        · obtain ⟨x, hx, hp⟩ := List.mem_flatMap.1 hp
          exact a2 x hx p hp) i1 i3
    refine ⟨.mk name qs ds, ?_, ?_⟩
    · have := CompIs.mk (body := a ++ b) (b := c!"BEGIN:") (gap := ['\r', '\n']) (e := c!"END:") (trail := ['\r', '\n']) (by decide) h1 (cr_first _)
        blank_crlf (by simpa using q3) (by rw [hb'] at q1; exact q1) (by decide) blank_crlf hf
      simpa using this
    · have hin : innerOfProps qs (toOthers ds) =
          ⟨addMissing c!"UID" vb (addMissing c!"DTSTAMP" va (readProps P)), readMulti M, toOthers ds⟩ := by
        refine inner_perm (A := genProps P c!"DTSTAMP" va ++ (P.map Prod.snd).map rereadProp ++ genProps P c!"UID" vb)
          (B := (M.flatMap Prod.snd).map rereadProp) (sorted_addMissing (sorted_addMissing (sorted_readProps h2))) ?_ ?_
          (sorted_readMulti h4) ?_ ?_ ?_ _
        · refine List.Perm.trans (List.Perm.of_eq ?_) (stamped_perm (props := P) (a := va) (b := vb))
          have g : ∀ k v, (genProps P k v).map (fun p => (p.key, p)) = if P.containsKey k then [] else [(k, (⟨k, v, []⟩ : Property))] := by
            intro k v
            unfold genProps
            split <;> rfl
          rw [List.map_append, List.map_append, g, g, readProps_reread, List.map_map, List.map_map]
          congr 2
          refine List.map_congr_left ?_
          intro x hx
          exact Prod.ext (h3 x hx).1 rfl
        · intro p hp
          simp only [List.mem_append] at hp
          have g : ∀ k v, k ∉ repeatable → p ∈ genProps P k v → p.key ∉ repeatable := by
            intro k v hk hp
            unfold genProps at hp
            split at hp
            · cases hp
            · rw [List.mem_singleton.1 hp]; exact hk
          rcases hp with (hp | hp) | hp
          · exact g _ _ (by decide) hp
          · obtain ⟨p', hp', rfl⟩ := List.mem_map.1 hp
            obtain ⟨x, hx, rfl⟩ := List.mem_map.1 hp'
            show x.2.key ∉ repeatable
            rw [(h3 x hx).1]
            exact (h3 x hx).2
          · exact g _ _ (by decide) hp
        · intro y hy
          rw [readMulti_reread] at hy
          obtain ⟨x, hx, rfl⟩ := List.mem_map.1 hy
          refine ⟨(h5 x hx).1, by simpa using (h5 x hx).2.1, ?_⟩
          intro p hp
          obtain ⟨p', hp', rfl⟩ := List.mem_map.1 hp
          exact (h5 x hx).2.2 p' hp'
        · rw [readMulti_values]
          unfold BMap.values
          rw [List.flatMap_def]
        · rw [q2]
          simp only [List.map_append, genProps_reread P _ hbs.1, genProps_reread P _ hbs.2]
      rw [PComp.toOther, hin]
      exact stamped_again h2 hst i2
/-- see `reread_comp` -/
theorem reread_comps {l : List Other} {t f : Str} : CompsWritten l t f → PlacedAll l → EachProps Rereadable l → NoBreak f →
    ∃ ds, BodyIs [] ds t f ∧ StampedAll (rereadOthers l) (toOthers ds) ∧ NoBreak (t ++ f)
  | .nil, _, _, hf => ⟨[], .nil, by rw [toOthers, rereadOthers]; exact .nil, hf⟩
  | .cons h1 h2, hp, ha, hf => by
    obtain ⟨ds, i1, i2, i3⟩ := reread_comps h2 hp.2 ha.2 hf
    obtain ⟨d, j1, j2⟩ := reread_comp h1 hp.1 ha.1 i3
    refine ⟨d :: ds, .comp j1 i1, by rw [toOthers, rereadOthers]; exact .cons j2 i2, ?_⟩
    cases h1 with
    | mk _ _ _ _ =>
      simp only [List.append_assoc]
      exact begin_noBreak _
end

/-! ### Calendars -/

omit [Uni] in
theorem stampedAll_get {l l' : List Other} (h : StampedAll l l') : l'.length = l.length ∧
    ∀ (i : Nat) o o', l[i]? = some o → l'[i]? = some o' → Stamped o o' := by
  induction l generalizing l' with
  | nil => cases h; exact ⟨rfl, by simp⟩
  | cons o l ih =>
    cases h with
    | cons h1 h2 =>
      obtain ⟨i1, i2⟩ := ih h2
      refine ⟨by simp [i1], ?_⟩
      intro i x x' hx hx'
      cases i with
      | zero =>
        simp only [List.getElem?_cons_zero, Option.some.injEq] at hx hx'
        subst hx hx'
        exact h1
      | succ i => exact i2 i x x' (by simpa using hx) (by simpa using hx')

omit [Uni] in
theorem stampedAll_of_get {l l' : List Other} (hl : l'.length = l.length)
    (h : ∀ (i : Nat) o o', l[i]? = some o → l'[i]? = some o' → Stamped o o') : StampedAll l l' := by
  induction l generalizing l' with
  | nil =>
    cases l' with
    | nil => exact .nil
    | cons => simp at hl
  | cons o l ih =>
    cases l' with
    | nil => simp at hl
    | cons o' l' =>
      exact .cons (h 0 o o' rfl rfl) (ih (by simpa using hl) (fun i x x' hx hx' => h (i + 1) x x' (by simpa using hx) (by simpa using hx')))

omit [Uni] in
theorem rereadOthers_map (l : List Other) : rereadOthers l = l.map rereadOther := by
  induction l with
  | nil => rw [rereadOthers]; rfl
  | cons o l ih => rw [rereadOthers, ih]; rfl

theorem rereadCal_others (c : Calendar) : (rereadCal c).comps.map CalComp.toOther = rereadOthers (c.comps.map CalComp.toOther) := by
  rw [rereadOthers_map, List.map_map]
  unfold rereadCal
  rw [List.map_map]
  exact List.map_congr_left (fun x _ => rereadComp_toOther x)

omit [Uni] in
theorem stamped_name {o o' : Other} (h : Stamped o o') : o'.name = o.name := by
  cases h
  rfl

theorem kind_of_name {x : CalComp} {d : PComp} (hx : PlacedIn x) (h : d.name = x.toOther.name) : SameKind x d.toCalComp := by
  unfold PComp.toCalComp
  cases x with
  | event e =>
    have hn : d.name = c!"VEVENT" := h
    rw [if_pos hn]; trivial
  | todo e =>
    have hn : d.name = c!"VTODO" := h
    rw [if_neg (by rw [hn]; decide), if_pos hn]; trivial
  | venue e =>
    have hn : d.name = c!"VVENUE" := h
    rw [if_neg (by rw [hn]; decide), if_neg (by rw [hn]; decide), if_pos hn]; trivial
  | other o =>
    obtain ⟨h1, h2, h3⟩ := hx.2 o rfl
    have hn : d.name = o.name := h
    rw [if_neg (by rw [hn]; exact h1), if_neg (by rw [hn]; exact h2), if_neg (by rw [hn]; exact h3)]; trivial

omit [Uni] in
theorem sameKind_reread (x : CalComp) : SameKind (rereadComp x) x := by cases x <;> trivial

/-- calendars that are written like that are read -/
theorem reread_calendar {c : Calendar} (hr : CalProps Rereadable c) (hp : ∀ x ∈ c.comps, PlacedIn x)
    {out : Str} (h : CalWritten c (unfoldSpec out)) : ∃ c', Calendar.fromStr out = some c' ∧ CalStamped (rereadCal c) c' := by
  obtain ⟨a, b, hu, h1, h2⟩ := h
  obtain ⟨ds, i1, i2, i3⟩ := reread_comps h2 (placedAll_mem.2 (fun x hx => (hp x hx).1))
    (allsProps_mem.2 hr.comps) (end_noBreak c!"VCALENDAR\r\n")
  obtain ⟨qs, q1, q2, q3⟩ := reread_lines h1 rfl hr.props i1 i3
  have hc : CompIs (.mk c!"VCALENDAR" qs ds) (unfoldSpec out) [] := by
    have := CompIs.mk (n := c!"VCALENDAR") (f := []) (b := c!"BEGIN:") (gap := ['\r', '\n']) (e := c!"END:") (trail := ['\r', '\n'])
      (by decide) (rfcName_isName (by decide)) (cr_first _)
      blank_crlf (by simpa using q3) q1 (by decide) blank_crlf ⟨by simp, by simp⟩
    rw [hu]
    simpa using this
  have hr : readCalendar (unfold out) = some ⟨qs, ds⟩ := by
    rw [unfold_eq_spec]
    exact calendar_read_iff.2 (.inl ⟨[], _, rfl, blank_nil, hc⟩)
  refine ⟨PCal.toCalendar ⟨qs, ds⟩, ?_, ?_⟩
  · unfold Calendar.fromStr
    rw [hr, Option.map_some]
  obtain ⟨g1, g2⟩ := stampedAll_get i2
  rw [toOthers_calComps] at g1 g2
  rw [rereadOthers_map, List.map_map] at g1 g2
  refine ⟨q2, ?_, ?_⟩
  · show (ds.map PComp.toCalComp).length = (c.comps.map rereadComp).length
    simpa using g1
  · intro i y y' hy hy'
    simp only [rereadCal, List.getElem?_map, Option.map_eq_some_iff] at hy
    obtain ⟨x, hx, rfl⟩ := hy
    have hy1 : (ds.map PComp.toCalComp)[i]? = some y' := hy'
    rw [List.getElem?_map, Option.map_eq_some_iff] at hy1
    obtain ⟨d, hd, rfl⟩ := hy1
    have hst := g2 i (rereadOther x.toOther) d.toCalComp.toOther (by simp [hx]) (by simp [hd])
    refine ⟨sameKind_trans (sameKind_reread x) (kind_of_name (hp x (List.mem_of_getElem? hx)) ?_), ?_⟩
    · have := stamped_name hst
      rw [toOther_toCalComp, toOther_name] at this
      rw [this]
      generalize x.toOther = o
      cases o
      rw [rereadOther]
      rfl
    · rw [rereadComp_toOther]
      exact hst

/-! ### Necessity -/

mutual
theorem stamped_each {R : Property → Prop} (hR : ∀ p, R (rereadProp p) → R p) (o : Other) (hp : Placed o) {o' : Other}
    (h : Stamped (rereadOther o) o') (hr : EachProp R o') : EachProp R o := by
  match o, hp with
  | .mk n P M C, hp =>
    obtain ⟨-, hP, -, -, -, hC⟩ := hp
    obtain ⟨a, b, C', hs, rfl, hc⟩ := stamped_inv hP h
    obtain ⟨r1, r2, r3⟩ := hr
    refine ⟨?_, ?_, stamped_eachAll hR C hC hc r3⟩
    · intro x hx
      refine hR _ (r1 (x.1, rereadProp x.2) ?_)
      rw [← (stamped_perm (props := P) (a := a) (b := b)).mem_iff, List.mem_append, List.mem_append]
      refine .inl (.inr ?_)
      rw [readProps_reread]
      exact List.mem_map.2 ⟨x, hx, rfl⟩
    · intro x hx p hp
      refine hR _ (r2 (x.1, x.2.map rereadProp) ?_ _ (List.mem_map_of_mem hp))
      rw [readMulti_reread]
      exact List.mem_map.2 ⟨x, hx, rfl⟩
theorem stamped_eachAll {R : Property → Prop} (hR : ∀ p, R (rereadProp p) → R p) (l : List Other) (hp : PlacedAll l) {l' : List Other}
    (h : StampedAll (rereadOthers l) l') (hr : EachProps R l') : EachProps R l := by
  match l, hp with
  | [], _ => trivial
  | o :: l, hp =>
    rw [rereadOthers] at h
    cases h with
    | cons h1 h2 => exact ⟨stamped_each hR o hp.1 h1 hr.1, stamped_eachAll hR l hp.2 h2 hr.2⟩
end

omit [Uni] in
theorem inLine_reread (p : Property) (h : InLine (rereadProp p)) : InLine p := by
  intro ht
  have := h ht
  unfold rereadProp at this
  simp only at this
  rw [if_neg ht] at this
  exact this

/-- what is true of every calendar that was read -/
theorem read_facts {s : Str} {c0 : PCal} (h0 : readCalendar s = some c0) :
    (∀ q ∈ c0.props, ∃ t f, PropIs q t f) ∧ AllsQ (fun q => ∃ t f, PropIs q t f) c0.comps ∧ PlacedAll (toOthers c0.comps) := by
  rcases calendar_read_iff.1 h0 with ⟨lead, t, -, -, hc⟩ | ⟨lead, t, d, -, -, hc, -, h1, h2⟩ | ⟨h1, h2, -⟩
  · have := compIs_allRead hc
    simp only [AllQ] at this
    cases hc with
    | mk _ _ _ _ _ hb _ _ _ => exact ⟨this.1, this.2, bodyIs_placed hb⟩
  · rw [h1, h2]
    refine ⟨by simp, ?_, ?_⟩
    · simp only [AllsQ]
      exact ⟨compIs_allRead hc, trivial⟩
    · simp only [toOthers]
      exact ⟨compIs_placed hc, trivial⟩
  · rw [h1, h2]
    exact ⟨by simp, by simp only [AllsQ], by rw [toOthers]; trivial⟩

theorem read_placed {s : Str} {c : Calendar} (h : Calendar.fromStr s = some c) :
    (∀ x ∈ c.comps, PlacedIn x) ∧ CalProps Readable c := by
  obtain ⟨c0, h0, rfl⟩ := Option.map_eq_some_iff.1 h
  obtain ⟨f1, f2, f3⟩ := read_facts h0
  have readable : ∀ q : PProp, (∃ t f, PropIs q t f) → Readable q.toProperty := fun q ⟨_, _, hq⟩ => propIs_readable hq
  have fr := toOthers_allsProps readable _ f2
  rw [toOthers_calComps] at f3 fr
  refine ⟨?_, ?_, allsProps_mem.1 fr⟩
  · intro x hx
    obtain ⟨d, hd, rfl⟩ := List.mem_map.1 hx
    refine placedIn_of_toOther ?_
    rw [← toOther_toCalComp]
    exact placedAll_mem.1 f3 _ hx
  · intro p hp
    obtain ⟨q, hq, rfl⟩ := List.mem_map.1 hp
    exact readable q (f1 q hq)

omit [Uni] in
theorem rereadPlace {props : List PProp} {ps : List Property} (h : ∀ q ∈ props, (q.params.map PParam.toPair).Perm q.toProperty.params)
    (he : props.map PProp.toProperty = ps.map rereadProp) : SamePlace props ps := by
  intro qs1 q qs2 ps1 p ps2 h1 h2 h3 _ _ _
  have hq := h q (by rw [h1]; simp)
  rw [h1, h2, List.map_append, List.map_cons, List.map_append, List.map_cons] at he
  have hlen : (qs1.map PProp.toProperty).length = (ps1.map rereadProp).length := by
    have := congrArg List.length h3
    simpa using this
  have := (List.append_inj he hlen).2
  simp only [List.cons.injEq] at this
  have e : q.toProperty.params = p.params := by rw [this.1]; rfl
  rw [← e]
  exact hq

/-- what is read as meant is written like that -/
theorem meant_calendar {c c' : Calendar} (hk : CalProps NotKeyword c) (hp : ∀ x ∈ c.comps, PlacedIn x) (hrd : CalProps Readable c)
    {w : World} (hw : World.Ok w) {out : Str} (h : c.fmtWrite w = .ok out) (hr : Calendar.fromStr out = some c')
    (hst : CalStamped (rereadCal c) c') : CalProps InLine c ∧ CalWritten c (unfoldSpec out) := by
  obtain ⟨c0, h0, rfl⟩ := Option.map_eq_some_iff.1 hr
  rw [unfold_eq_spec] at h0
  obtain ⟨f1, f2, -⟩ := read_facts h0
  have hplaced := placedAll_mem.2 (fun x hx => (hp x hx).1)
  have fn := allsProps_mem.2 (fun x hx => allProps_imp (fun p (hp : Readable p) => hp.named) _ (hrd.comps x hx))
  have named : ∀ p ∈ c.props, Named p := fun p hp => (hrd.props p hp).named
  obtain ⟨us, vs, s1, s2, s3⟩ := shrunk_calendar named
    (fun x hx => ⟨(hp x hx).1, allsProps_mem.1 fn x hx⟩) hw h
  have hprops : c0.props.map PProp.toProperty = c.props.map rereadProp := hst.props
  have hcomps : StampedAll (rereadOthers (c.comps.map CalComp.toOther)) (toOthers c0.comps) := by
    rw [toOthers_calComps, ← rereadCal_others]
    refine stampedAll_of_get ?_ ?_
    · have := hst.length
      simp only [List.length_map]
      simpa [PCal.toCalendar] using this
    · intro i o o' ho ho'
      rw [List.getElem?_map, Option.map_eq_some_iff] at ho ho'
      obtain ⟨x, hx, rfl⟩ := ho
      obtain ⟨x', hx', rfl⟩ := ho'
      exact (hst.comps i x x' hx hx').2
  rcases calendar_read_iff.1 h0 with ⟨lead, t, he, hl, hc⟩ | ⟨lead, t, d, he, hl, hc, hd, -⟩ | ⟨h1, h2, -⟩
  · -- a calendar
    rw [s3] at he
    have := begins_lead hl he
    subst this
    rw [List.nil_append] at he
    generalize hD : PComp.mk c!"VCALENDAR" c0.props c0.comps = D at hc
    generalize hnil : ([] : Str) = f at hc
    cases hc with
    | @mk n props comps b' gap body e trail f hb hn hf hgap hnb hbody hend htrail hnf =>
      subst hnil
      simp only [PComp.mk.injEq] at hD
      obtain ⟨rfl, hD1, hD2⟩ := hD
      subst hD1 hD2
      have he1 : b' ++ (c!"VCALENDAR" ++ (gap ++ (body ++ (e ++ (c!"VCALENDAR" ++ (trail ++ [])))))) =
          c!"BEGIN:" ++ (c!"VCALENDAR" ++ (['\r', '\n'] ++ (us ++ (vs ++ (c!"END:" ++ (c!"VCALENDAR" ++ (['\r', '\n'] ++ []))))))) := by
        rw [List.append_nil, ← he]; simp
      -- the semicolons
      have count1 : (us ++ vs).count ';' = lineSemis c.props + othersSemis (c.comps.map CalComp.toOther) := by
        rw [List.count_append, shrunkLines_semis s1 (fun p hp => (named p hp).1), shrunkOthers_semis s2 hplaced fn]
      have count2 : body.count ';' ≤ (us ++ vs).count ';' := by
        have := congrArg (List.count ';') he1
        simp only [List.count_append] at this
        have h1 : (c!"BEGIN:").count ';' = 0 := rfl
        have h2 : (c!"VCALENDAR").count ';' = 0 := rfl
        have h3 : (c!"END:").count ';' = 0 := rfl
        have h4 : (['\r', '\n'] : Str).count ';' = 0 := rfl
        have h5 : ([] : Str).count ';' = 0 := rfl
        rw [List.count_append]
        omega
      have count3 := bodyIs_semis hbody
      obtain ⟨count4, count5⟩ := toOthers_semis c0.comps
      have count8 := stamped_allSemis _ hplaced hcomps
      obtain ⟨count6, count7⟩ := sum_le (f := fun q => semis q.toProperty) (g := readSemis) (fun q => (semis_toProperty q).1) c0.props
      have e1 : lineSemis c.props = (c0.props.map (fun q => semis q.toProperty)).sum := by
        have a1 : (c0.props.map (fun q => semis q.toProperty)).sum = lineSemis (c0.props.map PProp.toProperty) := by
          unfold lineSemis
          rw [List.map_map]
          rfl
        rw [a1, hprops]
        unfold lineSemis
        rw [List.map_map]
        congr 1
        exact List.map_congr_left (fun p _ => (semis_reread p).symm)
      have kept := count5 (by omega)
      have same := count7 (by omega)
      have perm : ∀ q ∈ c0.props, (q.params.map PParam.toPair).Perm q.toProperty.params :=
        fun q hq => (semis_toProperty q).2 (same q hq)
      -- the properties
      have il : ∀ p ∈ c.props, InLine p := by
        intro p hp
        have : rereadProp p ∈ c0.props.map PProp.toProperty := by rw [hprops]; exact List.mem_map_of_mem hp
        obtain ⟨q, hq, he⟩ := List.mem_map.1 this
        obtain ⟨_, _, hq'⟩ := f1 q hq
        refine inLine_reread p ?_
        rw [← he]
        exact propIs_inLine hq' (perm q hq)
      have ic : EachProps InLine (c.comps.map CalComp.toOther) := by
        refine stamped_eachAll inLine_reread _ hplaced hcomps (toOthers_allsProps ?_ _ (allsRead_and _ f2 (keptAll_allsRead _ kept)))
        rintro q ⟨⟨_, _, h1⟩, h2⟩
        exact propIs_inLine h1 h2
      have pp : ∀ p ∈ c.props, Proper p := fun p hp => ⟨hrd.props p hp, il p hp, hk.props p hp⟩
      have pc : EachProps Proper (c.comps.map CalComp.toOther) :=
        allsProps_imp (fun p hp => ⟨hp.1.1, hp.1.2, hp.2⟩) _
          (allsProps_and _ (allsProps_and _ (allsProps_mem.2 hrd.comps) ic) (allsProps_mem.2 hk.comps))
      obtain ⟨rfl, he2⟩ := List.append_inj he1 (by
        have := congrArg List.length hb
        rw [List.length_map] at this
        exact this)
      have he3 := List.append_cancel_left he2
      have hn2 : NoBreak (vs ++ (c!"END:" ++ (c!"VCALENDAR" ++ (['\r', '\n'] ++ [])))) := others_noBreak s2 (end_noBreak _)
      obtain ⟨rfl, he4⟩ := blank_unique hgap blank_crlf hnb
        (lines_noBreak s1 (fun p hp => (named p hp).1) hn2) he3
      obtain ⟨qs, props', body', r0, r1, r2, r3, r4⟩ := lines_read s1 (fun p hp => (pp p hp).fine) (rereadPlace perm hprops) hbody
        ⟨e, _, rfl, hend⟩ hn2 he4
      obtain ⟨rfl, rfl, e3, e5⟩ := comps_written s2 r2 hcomps kept hplaced pc ⟨e, _, rfl, hend⟩ ⟨_, rfl⟩ r3
      rw [List.append_nil] at r0
      have t1 := lines_written r1 (by
        intro i q p hq hp
        left
        rw [← r0] at hq
        have : (c0.props.map PProp.toProperty)[i]? = (c.props.map rereadProp)[i]? := by rw [hprops]
        rw [List.getElem?_map, List.getElem?_map, hq, hp] at this
        simpa using this)
      refine ⟨⟨il, allsProps_mem.1 ic⟩, us, body', ?_, by simpa using t1, by simpa using e5⟩
      rw [s3]
      simp
  · -- the name of the component
    exfalso
    rw [s3] at he
    have := begins_lead hl he
    subst this
    rw [List.nil_append] at he
    cases hc with
    | @mk n props comps b' gap body e trail f hb hn hf hgap hnb hbody hend htrail hnf =>
      obtain ⟨rfl, he2⟩ := List.append_inj (s₁ := c!"BEGIN:") (show c!"BEGIN:" ++ (c!"VCALENDAR" ++ (['\r', '\n'] ++ (us ++ (vs ++ c!"END:VCALENDAR\r\n")))) =
          b' ++ (n ++ (gap ++ (body ++ (e ++ (n ++ trail))))) by rw [← he]; simp) (by
        have := congrArg List.length hb
        rw [List.length_map] at this
        exact this.symm)
      refine hd ?_
      refine (span_unique (P := NameChar) he2 (rfcName_isName (by decide)) hn (cr_first _) ?_).symm
      simpa [First] using hf
  · have hp0 : c.props = [] := by
      rw [h1] at hprops
      simpa using hprops.symm
    have hc0 : c.comps = [] := by
      rw [h2, toOthers] at hcomps
      have := (stampedAll_get hcomps).1
      rw [rereadOthers_map] at this
      have : c.comps.length = 0 := by simpa using this.symm
      exact List.length_eq_zero_iff.1 this
    rw [hp0] at s1
    rw [hc0] at s2
    cases s1
    cases s2
    refine ⟨⟨by rw [hp0]; simp, by rw [hc0]; simp⟩, [], [], ?_, ?_, ?_⟩
    · rw [s3]; rfl
    · rw [hp0]; exact .nil
    · rw [hc0]; exact .nil

/-- **C94 (exactly).** Whatever text a calendar was read from: when it is written and read again, the result is the
calendar with the TEXT values as they are read back, and with DTSTAMP and UID generated where they were missing, if and
only if values other than TEXT are in one line and what was written is, without the line breaks of folding, the lines of the
calendar with parameter values that are told. The calendar has no parameterless property called begin or end. -/
theorem rewrite_exactly (s : Str) (c : Calendar) (hs : Calendar.fromStr s = some c) (hk : CalProps NotKeyword c) (w : World)
    (hw : World.Ok w) (out : Str) (h : c.fmtWrite w = .ok out) :
    (∃ c', Calendar.fromStr out = some c' ∧ CalStamped (rereadCal c) c') ↔ CalProps InLine c ∧ CalWritten c (unfoldSpec out) := by
  obtain ⟨h1, h2⟩ := read_placed hs
  constructor
  · rintro ⟨c', hr, hst⟩
    exact meant_calendar hk h1 h2 hw h hr hst
  · rintro ⟨h3, h4⟩
    exact reread_calendar ⟨fun p hp => ⟨h2.props p hp, h3.props p hp, hk.props p hp⟩,
      fun x hx => allProps_imp (fun p hp => ⟨hp.1.1, hp.1.2, hp.2⟩) _
        (allProps_and _ (allProps_and _ (h2.comps x hx) (h3.comps x hx)) (hk.comps x hx))⟩ h1 h4

end Ical

namespace Ical

open Nom Spec

/-- an event without stamps, whose parameter value starts with a quote -/
def unstampedEvent : Calendar := ⟨[], [.event ⟨⟨[(c!"SUMMARY", ⟨c!"SUMMARY", c!"a\\:b", [(c!"P", c!"\"c")]⟩)], [], []⟩⟩]⟩

/-- It is read from a text, and the conditions of the theorem are met by what is written for it at some time. -/
example : @Calendar.fromStr Uni.ascii c!"BEGIN:VEVENT\nSUMMARY;P=\"c:a\\\\\\:b\nEND:VEVENT\n" = some unstampedEvent ∧
    @Calendar.fmtWrite Uni.ascii unstampedEvent rewriteWorld = .ok c!"BEGIN:VCALENDAR\r\nBEGIN:VEVENT\r\nDTSTAMP:20260101T000000Z\r\nSUMMARY;P=\"c:a\\\\:b\r\nUID:0-f\r\nEND:VEVENT\r\nEND:VCALENDAR\r\n" ∧
    CalProps NotKeyword unstampedEvent ∧ CalProps InLine unstampedEvent ∧
    CalWritten unstampedEvent c!"BEGIN:VCALENDAR\r\nBEGIN:VEVENT\r\nDTSTAMP:20260101T000000Z\r\nSUMMARY;P=\"c:a\\\\:b\r\nUID:0-f\r\nEND:VEVENT\r\nEND:VCALENDAR\r\n" := by
  refine ⟨rfl, by decide +kernel, ⟨by simp [unstampedEvent], ?_⟩, ⟨by simp [unstampedEvent], ?_⟩, ?_⟩
  · intro x hx
    simp only [unstampedEvent, List.mem_singleton] at hx
    subst hx
    refine ⟨?_, fun x hx => (by cases hx), trivial⟩
    intro x hx h
    rw [List.mem_singleton.1 hx] at h
    cases h
  · intro x hx
    simp only [unstampedEvent, List.mem_singleton] at hx
    subst hx
    refine ⟨?_, fun x hx => (by cases hx), trivial⟩
    intro x hx
    rw [List.mem_singleton.1 hx]
    exact fun _ => by decide +kernel
  · refine ⟨[], c!"BEGIN:VEVENT\r\nDTSTAMP:20260101T000000Z\r\nSUMMARY;P=\"c:a\\\\:b\r\nUID:0-f\r\nEND:VEVENT\r\n", rfl, .nil, ?_⟩
    refine CompsWritten.cons (a := c!"BEGIN:VEVENT\r\nDTSTAMP:20260101T000000Z\r\nSUMMARY;P=\"c:a\\\\:b\r\nUID:0-f\r\nEND:VEVENT\r\n")
      (b := []) ?_ .nil
    refine CompWritten.mk (a := c!"DTSTAMP:20260101T000000Z\r\nSUMMARY;P=\"c:a\\\\:b\r\nUID:0-f\r\n") (b := [])
      (d := [⟨c!"DTSTAMP", c!"20260101T000000Z", []⟩]) (u := [⟨c!"UID", c!"0-f", []⟩]) ?_ ?_ ?_ .nil
    · unfold Supplied
      rw [if_neg (by decide +kernel)]
      exact ⟨_, ⟨rewriteWorld.now [], rewriteWorld_ok.now [], rfl⟩, by decide +kernel⟩
    · unfold Supplied
      rw [if_neg (by decide +kernel)]
      exact ⟨_, by decide +kernel, rfl⟩
    · refine LinesTold.cons (p := ⟨c!"DTSTAMP", c!"20260101T000000Z", []⟩) (l := []) (forms := []) (t := c!"SUMMARY;P=\"c:a\\\\:b\r\nUID:0-f\r\n") (.refl _) trivial trivial ?_
      refine LinesTold.cons (p := ⟨c!"SUMMARY", c!"a\\:b", [(c!"P", c!"\"c")]⟩) (l := [(c!"P", c!"\"c")]) (forms := [c!";P=\"c"])
        (t := c!"UID:0-f\r\n") (.refl _) ⟨by unfold ParamForm; decide +kernel, trivial⟩ ⟨?_, trivial⟩ ?_
      · rw [if_neg (by decide)]
        exact .inr (.inr ⟨[], trivial, by decide +kernel⟩)
      · exact LinesTold.cons (p := ⟨c!"UID", c!"0-f", []⟩) (l := []) (forms := []) (t := []) (.refl _) trivial trivial .nil

end Ical
