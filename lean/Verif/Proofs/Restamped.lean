import Verif.Proofs.Realigned
import Verif.Props.Getters
import Verif.Props.Reread
import Verif.Spec.Rewritten

/-!
Reading what was written, when the generated properties and the changes of TEXT values are allowed for.
-/

namespace Ical

open Nom Spec

/-! ### Semicolons -/

theorem rereadText_semis (s : Str) : (rereadText s).count ';' = s.count ';' := by
  fun_induction rereadText s with
  | case1 => rfl
  | case2 => rfl
  | case3 a b s h ih => obtain ⟨rfl, rfl⟩ := h; simp [ih]
  | case4 a b s h1 h2 ih =>
    obtain ⟨rfl, h2⟩ := h2
    rcases h2 with rfl | rfl <;> simp [ih]
  | case5 a b s h1 h2 ih => rw [List.count_cons, ih]; exact List.count_cons.symm

theorem semis_reread (p : Property) : semis (rereadProp p) = semis p := by
  unfold semis rereadProp
  simp only
  split
  · rw [rereadText_semis]
  · rfl

theorem added_eq {k v : Str} {m m' : BMap Property} (hm : InOrder m) (h : AddedIfMissing k ⟨k, v, []⟩ m m') :
    m' = addMissing k v m := by
  obtain ⟨h1, h2⟩ := h
  obtain ⟨g1, g2⟩ := addMissing_spec (k := k) (v := v) hm
  split at h2
  · rename_i hc
    rw [if_pos hc] at g2
    rw [h2, g2]
  · rename_i hc
    rw [if_neg hc] at g2
    refine BMap.ext h1 g1 ?_
    intro j
    refine get_congr g1 h1 ?_
    intro p
    rw [h2, g2]

theorem semis_addMissing {k v : Str} {m : BMap Property} (hm : InOrder m) (hv : ';' ∉ v) :
    vsum semis (addMissing k v m) = vsum semis m := by
  unfold addMissing
  split
  · rfl
  · rename_i h
    have := vsum_insert semis (k := k) (v := ⟨k, v, []⟩) hm
    rw [containsKey_false h] at this
    have h0 : semis ⟨k, v, []⟩ = 0 := by
      unfold semis msum
      simp [List.count_eq_zero.2 hv]
    simpa [h0] using this

variable [Uni]

theorem semis_readProps (m : BMap Property) : vsum semis (readProps m) = vsum semis m := by
  rw [readProps_reread]
  unfold vsum
  rw [List.map_map]
  congr 1
  refine List.map_congr_left ?_
  intro x _
  exact semis_reread x.2

theorem semis_readMulti (m : BMap (List Property)) : vsum lineSemis (readMulti m) = vsum lineSemis m := by
  rw [readMulti_reread]
  unfold vsum
  rw [List.map_map]
  congr 1
  refine List.map_congr_left ?_
  intro x _
  show lineSemis (x.2.map rereadProp) = lineSemis x.2
  unfold lineSemis
  rw [List.map_map]
  congr 1
  refine List.map_congr_left ?_
  intro p _
  exact semis_reread p

/-- what a component is that is read back as another -/
theorem stamped_inv {n : Str} {P : BMap Property} {M : BMap (List Property)} {C : List Other} {o' : Other} (hP : InOrder P)
    (h : Stamped (rereadOther (.mk n P M C)) o') :
    ∃ a b C', Stamp a b ∧ o' = .mk n (addMissing c!"UID" b (addMissing c!"DTSTAMP" a (readProps P))) (readMulti M) C' ∧
      StampedAll (rereadOthers C) C' := by
  rw [rereadOther, ← readProps_reread, ← readMulti_reread] at h
  cases h with
  | @mk _ _ P1 P2 _ _ C' now uuid h1 h2 h3 h4 h5 =>
    have hs := sorted_readProps hP
    have e1 := added_eq hs h3
    subst e1
    have e2 := added_eq (sorted_addMissing hs) h4
    subst e2
    exact ⟨_, _, _, ⟨⟨now, h1, rfl⟩, h2⟩, rfl, h5⟩

mutual
theorem stamped_semis (o : Other) (hp : Placed o) {o' : Other} (h : Stamped (rereadOther o) o') : otherSemis o' = otherSemis o := by
  match o, hp with
  | .mk n P M C, hp =>
    obtain ⟨-, hP, -, -, -, hC⟩ := hp
    obtain ⟨a, b, C', hs, rfl, hc⟩ := stamped_inv hP h
    obtain ⟨ha, hb⟩ := stamp_not hs (x := ';') (by decide) (by decide) (by decide)
    have h1 := sorted_readProps hP
    simp only [otherSemis]
    rw [semis_addMissing (sorted_addMissing h1) hb, semis_addMissing h1 ha, semis_readProps, semis_readMulti,
      stamped_allSemis C hC hc]
theorem stamped_allSemis (l : List Other) (hp : PlacedAll l) {l' : List Other} (h : StampedAll (rereadOthers l) l') :
    othersSemis l' = othersSemis l := by
  match l, hp with
  | [], _ =>
    rw [rereadOthers] at h
    cases h
    rfl
  | o :: l, hp =>
    rw [rereadOthers] at h
    cases h with
    | cons h1 h2 =>
      simp only [othersSemis]
      rw [stamped_semis o hp.1 h1, stamped_allSemis l hp.2 h2]
end

/-! ### What is read at a place -/

omit [Uni] in
theorem map_key_reread (l : List Property) : (l.map rereadProp).map Property.key = l.map Property.key := by
  rw [List.map_map]; rfl

theorem readMulti_values (M : BMap (List Property)) : (readMulti M).values.flatten = M.values.flatten.map rereadProp := by
  rw [readMulti_reread]
  unfold BMap.values
  rw [List.map_map, List.map_flatten, List.map_map]
  rfl

/-- what was read of a component is what was written, with TEXT values as they are read and some stamps -/
structure Restamped (props : List PProp) (l : List Other) (P : BMap Property) (M : BMap (List Property)) (a b : Str) : Prop where
  single : (innerOfProps props l).props = addMissing c!"UID" b (addMissing c!"DTSTAMP" a (readProps P))
  multi : (innerOfProps props l).multi = readMulti M

/-- the stamps and the properties of a component -/
def stampedPairs (P : BMap Property) (a b : Str) : List (Str × Property) :=
  (if P.containsKey c!"DTSTAMP" then [] else [(c!"DTSTAMP", (⟨c!"DTSTAMP", a, []⟩ : Property))]) ++
    readProps P ++ (if P.containsKey c!"UID" then [] else [(c!"UID", (⟨c!"UID", b, []⟩ : Property))])

theorem multi_at {props : List PProp} {l : List Other} {P : BMap Property} {M : BMap (List Property)} {a' b' : Str}
    (hr : Restamped props l P M a' b') (hP : ∀ x ∈ P, x.2.key = x.1 ∧ x.1 ∉ repeatable) {a b : Str} {qs1 qs2 : List PProp} {q : PProp}
    {ps1 ps2 : List Property} {p : Property} (h1 : props = qs1 ++ q :: qs2) (h2 : writtenProps P M a b = ps1 ++ p :: ps2)
    (h3 : qs1.map PProp.name = ps1.map Property.key) (h4 : q.name = p.key) (hm : q.name ∈ repeatable) :
    q.toProperty = rereadProp p := by
  have e : (props.map PProp.toProperty).filter (fun p => p.key == q.name) =
      ((writtenProps P M a b).filter (fun p => p.key == q.name)).map rereadProp := by
    rw [← multi_filter props l hm, hr.multi, readMulti_values, written_filter hP a b hm, List.filter_map]
    rfl
  rw [h2] at e
  conv at e => lhs; rw [h1]
  rw [List.map_append, List.filter_append, List.filter_append, List.map_cons, List.filter_cons, List.filter_cons,
    if_pos (by simp [PProp.toProperty]), if_pos (by simp [h4]), List.map_append, List.map_cons] at e
  have hlen : ((qs1.map PProp.toProperty).filter (fun p => p.key == q.name)).length =
      ((ps1.filter (fun p => p.key == q.name)).map rereadProp).length := by
    rw [List.length_map]
    have key : ∀ {x y : List Property}, x.map Property.key = y.map Property.key →
        (x.filter (fun p => p.key == q.name)).length = (y.filter (fun p => p.key == q.name)).length := by
      intro x y hxy
      rw [← List.countP_eq_length_filter, ← List.countP_eq_length_filter]
      have : ∀ z : List Property, z.countP (fun p => p.key == q.name) = (z.map Property.key).countP (fun k => k == q.name) := by
        intro z; rw [List.countP_map]; rfl
      rw [this, this, hxy]
    exact key (by rw [toProperty_key, h3])
  have := (List.append_inj e hlen).2
  simp only [List.cons.injEq] at this
  exact this.1

theorem single_at {props : List PProp} {l : List Other} {P : BMap Property} {M : BMap (List Property)} {a' b' : Str}
    (hr : Restamped props l P M a' b') (hP : InOrder P) {x : Str × Property} (hx : x ∈ P) {q : PProp} (hq : q.name = x.1)
    (hg : BMap.get q.name (innerOfProps props l).props = some q.toProperty) : q.toProperty = rereadProp x.2 := by
  have hs : BMap.Sorted (addMissing c!"UID" b' (addMissing c!"DTSTAMP" a' (readProps P))) :=
    sorted_addMissing (sorted_addMissing (sorted_readProps hP))
  have hm : (x.1, rereadProp x.2) ∈ addMissing c!"UID" b' (addMissing c!"DTSTAMP" a' (readProps P)) := by
    rw [← (stamped_perm (props := P) (a := a') (b := b')).mem_iff, List.mem_append, List.mem_append]
    refine .inl (.inr ?_)
    rw [readProps_reread]
    exact List.mem_map.2 ⟨x, hx, rfl⟩
  have := BMap.get_of_mem hs hm
  rw [← hr.single, ← hq, hg, Option.some.injEq] at this
  exact this

omit [Uni] in
/-- a property that is written is generated, single or repeatable -/
theorem written_mem {P : BMap Property} {M : BMap (List Property)} {a b : Str} {p : Property} (h : p ∈ writtenProps P M a b) :
    (p = ⟨c!"DTSTAMP", a, []⟩ ∨ p = ⟨c!"UID", b, []⟩) ∨ (∃ x ∈ P, p = x.2) ∨ ∃ x ∈ M, p ∈ x.2 := by
  unfold writtenProps genProps at h
  simp only [List.mem_append] at h
  rcases h with ((h | h) | h) | h
  · split at h
    · cases h
    · exact .inl (.inl (List.mem_singleton.1 h))
  · obtain ⟨x, hx, rfl⟩ := List.mem_map.1 h
    exact .inr (.inl ⟨x, hx, rfl⟩)
  · split at h
    · cases h
    · exact .inl (.inr (List.mem_singleton.1 h))
  · obtain ⟨y, hy, hp⟩ := List.mem_flatten.1 h
    obtain ⟨x, hx, rfl⟩ := List.mem_map.1 hy
    exact .inr (.inr ⟨x, hx, hp⟩)

theorem restamped_place {props : List PProp} {l : List Other} {P : BMap Property} {M : BMap (List Property)} {a' b' : Str}
    (hr : Restamped props l P M a' b') (hP : InOrder P) (hPk : ∀ x ∈ P, x.2.key = x.1 ∧ x.1 ∉ repeatable)
    (hMk : ∀ x ∈ M, x.1 ∈ repeatable ∧ ∀ p ∈ x.2, p.key = x.1) (hk : KeptProps props (innerOfProps props l)) (a b : Str) :
    SamePlace props (writtenProps P M a b) := by
  intro qs1 q qs2 ps1 p ps2 h1 h2 h3 h4 h5 h6
  obtain ⟨k1, k2⟩ := hk q (by rw [h1]; simp) h6
  suffices h : q.toProperty = rereadProp p by
    have e : q.toProperty.params = p.params := by rw [h]; rfl
    rw [← e]
    exact k1
  by_cases hm : q.name ∈ repeatable
  · exact multi_at hr hPk h1 h2 h3 h4 hm
  · have hq : q.isMulti = false := by
      cases h : q.isMulti with
      | false => rfl
      | true => exact absurd ((isMulti_iff q).1 h) hm
    rcases written_mem (p := p) (by rw [h2]; simp) with (rfl | rfl) | ⟨x, hx, rfl⟩ | ⟨x, hx, hp⟩
    · exact absurd rfl h5
    · exact absurd rfl h5
    · exact single_at hr hP hx (h4.trans (hPk x hx).1) (k2 hq)
    · rw [h4, (hMk x hx).2 p hp] at hm
      exact absurd (hMk x hx).1 hm

/-- the single properties that are written have different names -/
theorem written_nodup {P : BMap Property} {M : BMap (List Property)} (hP : InOrder P) (hPk : ∀ x ∈ P, x.2.key = x.1 ∧ x.1 ∉ repeatable)
    (hMk : ∀ x ∈ M, x.1 ∈ repeatable ∧ ∀ p ∈ x.2, p.key = x.1) (a b : Str) :
    (((writtenProps P M a b).map Property.key).filter (fun k => !repeatable.contains k)).Nodup := by
  have hs : BMap.Sorted (addMissing c!"UID" b (addMissing c!"DTSTAMP" a (readProps P))) :=
    sorted_addMissing (sorted_addMissing (sorted_readProps hP))
  have hn := ((stamped_perm (props := P) (a := a) (b := b)).map Prod.fst).symm.nodup (BMap.nodup_keys hs)
  have e1 : ∀ k v : Str, k ∉ repeatable → ((genProps P k v).map Property.key).filter (fun k => !repeatable.contains k) =
      ((if P.containsKey k then [] else [(k, (⟨k, v, []⟩ : Property))]).map Prod.fst) := by
    intro k v hk
    unfold genProps
    split
    · rfl
    · simp [hk]
  have e2 : (P.values.map Property.key).filter (fun k => !repeatable.contains k) = (readProps P).map Prod.fst := by
    have : P.values.map Property.key = (readProps P).map Prod.fst := by
      unfold BMap.values readProps
      rw [List.map_map, List.map_map]
      exact List.map_congr_left (fun x hx => (hPk x hx).1)
    rw [this, List.filter_eq_self]
    intro k hk
    unfold readProps at hk
    rw [List.map_map] at hk
    obtain ⟨x, hx, rfl⟩ := List.mem_map.1 hk
    simpa using (hPk x hx).2
  have e3 : (M.values.flatten.map Property.key).filter (fun k => !repeatable.contains k) = [] := by
    rw [List.filter_eq_nil_iff]
    intro k hk
    obtain ⟨p, hp, rfl⟩ := List.mem_map.1 hk
    obtain ⟨y, hy, hp⟩ := List.mem_flatten.1 hp
    obtain ⟨x, hx, rfl⟩ := List.mem_map.1 hy
    rw [(hMk x hx).2 p hp]
    simpa using (hMk x hx).1
  unfold writtenProps
  rw [List.map_append, List.map_append, List.map_append, List.filter_append, List.filter_append, List.filter_append,
    e1 _ a (by decide), e1 _ b (by decide), e2, e3, List.append_nil]
  simpa only [List.map_append] using hn

/-- what is read for a property: what the property is read as, or a generated value -/
def ReadFor (q : PProp) (p : Property) : Prop := q.toProperty = rereadProp p ∨ '\n' ∉ p.val

theorem restamped_all {props : List PProp} {l : List Other} {P : BMap Property} {M : BMap (List Property)} {a b a' b' : Str}
    (hr : Restamped props l P M a' b') (hP : InOrder P) (hPk : ∀ x ∈ P, x.2.key = x.1 ∧ x.1 ∉ repeatable)
    (hMk : ∀ x ∈ M, x.1 ∈ repeatable ∧ ∀ p ∈ x.2, p.key = x.1) (hab : Stamp a b)
    (h : props.map PProp.name = (writtenProps P M a b).map Property.key) :
    ∀ (i : Nat) q p, props[i]? = some q → (writtenProps P M a b)[i]? = some p → ReadFor q p := by
  intro i q p hq hp
  obtain ⟨hi, hq'⟩ := List.getElem?_eq_some_iff.1 hq
  obtain ⟨hj, hp'⟩ := List.getElem?_eq_some_iff.1 hp
  have h1 : props = props.take i ++ q :: props.drop (i + 1) := by
    rw [← hq', List.getElem_cons_drop, List.take_append_drop]
  have h2 : writtenProps P M a b = (writtenProps P M a b).take i ++ p :: (writtenProps P M a b).drop (i + 1) := by
    conv => lhs; rw [← List.take_append_drop i (writtenProps P M a b)]
    rw [← hp', List.getElem_cons_drop]
  have h3 : (props.take i).map PProp.name = ((writtenProps P M a b).take i).map Property.key := by
    rw [List.map_take, List.map_take, h]
  have h4 : q.name = p.key := by
    have e : (props.map PProp.name)[i]? = ((writtenProps P M a b).map Property.key)[i]? := by rw [h]
    rw [List.getElem?_map, List.getElem?_map, hq, hp] at e
    simpa using e
  by_cases hm : q.name ∈ repeatable
  · exact .inl (multi_at hr hPk h1 h2 h3 h4 hm)
  · have hqm : q.isMulti = false := by
      cases h : q.isMulti with
      | false => rfl
      | true => exact absurd ((isMulti_iff q).1 h) hm
    have hg : BMap.get q.name (innerOfProps props l).props = some q.toProperty := by
      have hprops : (innerOfProps props l).props =
          BMap.ofList ((props.filter (fun p => !p.isMulti)).map (fun p => (p.name, p.toProperty))) := by
        unfold innerOfProps
        simp only [(foldl_insertMulti_rest _ _).1]
      have hnd : (((props.filter (fun p => !p.isMulti)).map (fun p => (p.name, p.toProperty))).map Prod.fst).Nodup := by
        have e : ((props.filter (fun p => !p.isMulti)).map (fun p => (p.name, p.toProperty))).map Prod.fst =
            (props.map PProp.name).filter (fun k => !repeatable.contains k) := by
          rw [List.map_map, List.filter_map]
          rfl
        rw [e, h]
        exact written_nodup hP hPk hMk a b
      rw [hprops, BMap.get_ofList, BMap.find_of_nodup (k := q.name) (v := q.toProperty)]
      · rfl
      · rw [List.map_reverse]
        exact (List.reverse_perm _).symm.nodup hnd
      · rw [List.mem_reverse, List.mem_map]
        exact ⟨q, List.mem_filter.2 ⟨List.mem_of_getElem? hq, by simp [hqm]⟩, rfl⟩
    have hlf := stamp_not hab (x := '\n') (by decide) (by decide) (by decide)
    rcases written_mem (p := p) (by rw [h2]; simp) with (rfl | rfl) | ⟨x, hx, rfl⟩ | ⟨x, hx, hp⟩
    · exact .inr hlf.1
    · exact .inr hlf.2
    · exact .inl (single_at hr hP hx (h4.trans (hPk x hx).1) hg)
    · rw [h4, (hMk x hx).2 p hp] at hm
      exact absurd (hMk x hx).1 hm

/-! ### Lines that were read as what they are -/

omit [Uni] in
theorem lines_written {qs : List PProp} {ps : List Property} {us y : Str} (h : LinesRead qs ps us y) :
    (∀ (i : Nat) q p, qs[i]? = some q → ps[i]? = some p → ReadFor q p) → LinesTold ps us y := by
  induction h with
  | nil => exact fun _ => .nil
  | @cons q qs p ps l r us y h1 h2 h3 h4 h5 h6 _ ih =>
    intro he
    have i1 := ih (fun i q p hq hp => he (i + 1) q p (by simpa using hq) (by simpa using hp))
    have hraw : r = rawText p := by
      by_cases ht : IsText p
      · refine shrunk_noLf h5 ?_
        unfold rawText
        rw [if_pos ht]
        exact escaped_noLf p.val
      · rw [if_neg ht] at h6
        rcases he 0 q p rfl rfl with he | he
        · unfold rawText
          rw [if_neg ht, ← h6]
          have : q.val = (rereadProp p).val := by rw [← he]; rfl
          rw [this]
          unfold rereadProp
          simp only
          rw [if_neg ht]
        · refine shrunk_noLf h5 ?_
          unfold rawText
          rw [if_neg ht]
          exact he
    subst hraw
    obtain ⟨forms, f1, f2⟩ := paramsText_forms l
    have := LinesTold.cons (p := p) (f := y) h2 f1 (by simpa using h4) i1
    rw [f2]
    simpa using this

/-! ### Components that were read as what they are -/

theorem rereadProp_names {p : Property} (h : Readable (rereadProp p)) : Readable p := ⟨h.named, h.notEnd, h.notBegin, h.sorted⟩

omit [Uni] in
omit [Uni] in
theorem supplied_gen {props : BMap Property} {k v : Str} {Ok : Str → Prop} (h : Ok v) : Supplied k Ok props (genProps props k v) := by
  unfold Supplied genProps
  split
  · rename_i hc
    rw [if_pos (containsKey_iff.2 hc)]
  · rename_i hc
    rw [if_neg (fun h => hc (containsKey_iff.1 h))]
    exact ⟨v, h, rfl⟩

mutual
theorem comp_written {o : Other} {u : Str} : ShrunkOther o u → ∀ {d : PComp} {t f y : Str}, CompIs d t f →
    Stamped (rereadOther o) d.toOther → Kept d → Placed o → EachProp Proper o → NoBreak y → t ++ f = u ++ y →
    t = u ∧ f = y ∧ CompWritten o u y
  | .mk (name := name) (props := P) (multi := M) (comps := C) (a := a) (b := b) (us := us) (vs := vs) hab hl hc, d, t, f, y, hd, ho, hk, hpl, hp, hy, he => by
    obtain ⟨hname, hP, hPk, hM, hMk, hpc⟩ := hpl
    obtain ⟨a', b', C', hst, ho, hC⟩ := stamped_inv hP ho
    cases hd with
    | @mk n props comps b1 gap body e trail f hb hn hf hgap hnb hbody hend htrail hnf =>
      rw [PComp.toOther] at ho
      unfold Other.ofInner at ho
      rw [inner_comps] at ho
      simp only [Other.mk.injEq] at ho
      obtain ⟨rfl, o1, o2, rfl⟩ := ho
      have hr : Restamped props (toOthers comps) P M a' b' := ⟨o1, o2⟩
      simp only [Kept] at hk
      obtain ⟨hs, hm, hcp⟩ := hp
      have he1 : b1 ++ (n ++ (gap ++ (body ++ (e ++ (n ++ (trail ++ f)))))) =
          c!"BEGIN:" ++ (n ++ (['\r', '\n'] ++ (us ++ (vs ++ (c!"END:" ++ (n ++ (['\r', '\n'] ++ y))))))) := by
        simpa using he
      obtain ⟨rfl, he2⟩ := List.append_inj he1 (by
        have := congrArg List.length hb
        rw [List.length_map] at this
        exact this)
      have he3 := List.append_cancel_left he2
      have hfine := written_fine (a := a) (b := b) (stamp_chars hab) hs hm
      have hMk' : ∀ x ∈ M, x.1 ∈ repeatable ∧ ∀ p ∈ x.2, p.key = x.1 := fun x hx => ⟨(hMk x hx).1, (hMk x hx).2.2⟩
      have hn2 : NoBreak (vs ++ (c!"END:" ++ (n ++ (['\r', '\n'] ++ y)))) := others_noBreak hc (noBreak_letter (by decide))
      obtain ⟨rfl, he4⟩ := blank_unique hgap blank_crlf hnb
        (lines_noBreak hl (fun p hp => (hfine p hp).named.1) hn2) he3
      obtain ⟨qs, props', body', rfl, r1, r2, r3, r4⟩ := lines_read hl hfine
        (restamped_place hr hP hPk hMk' hk.1 a b) hbody ⟨e, _, rfl, hend⟩ hn2 he4
      obtain ⟨rfl, rfl, e3, e5⟩ := comps_written hc r2 hC hk.2 hpc hcp ⟨e, _, rfl, hend⟩ ⟨_, rfl⟩ r3
      rw [List.append_nil] at *
      obtain ⟨rfl, e7⟩ := List.append_inj e3 (by
        have := congrArg List.length hend
        rw [List.length_map] at this
        exact this)
      obtain ⟨rfl, rfl⟩ := blank_unique htrail blank_crlf hnf hy (List.append_cancel_left e7)
      have t1 := lines_written r1 (restamped_all hr hP hPk hMk' hab (linesRead_names r1))
      refine ⟨by rw [r4]; simp, rfl, ?_⟩
      have := CompWritten.mk (name := n) (f := f) (a := us) (b := body') (supplied_gen (props := P) hab.1) (supplied_gen (props := P) hab.2) (by
        have := t1
        unfold writtenProps BMap.values at this
        rw [List.flatten_eq_flatMap, List.flatMap_map] at this
        simpa using this) (by simpa using e5)
      simpa using this
theorem comps_written {l : List Other} {u : Str} : ShrunkOthers l u → ∀ {props : List PProp} {comps : List PComp} {body F y : Str},
    BodyIs props comps body F → StampedAll (rereadOthers l) (toOthers comps) → KeptAll comps → PlacedAll l → EachProps Proper l →
    EndText F → (∃ r, y = c!"END:" ++ r) → body ++ F = u ++ y →
    props = [] ∧ body = u ∧ F = y ∧ CompsWritten l u y
  | .nil, props, comps, body, F, y, hb, hl, hk, hpl, hp, hF, ⟨r, hr⟩, he => by
    have kw : Keyword y := ⟨[], y, by simp, rfl, .inl ⟨':' :: r, by rw [hr]; rfl⟩⟩
    rw [List.nil_append] at he
    cases hb with
    | nil => exact ⟨rfl, rfl, by simpa using he, .nil⟩
    | prop _ _ hp _ _ _ _ =>
      refine absurd ?_ hp.2.1
      rw [← he] at kw
      simpa using kw
    | stuck _ hp _ _ _ _ =>
      refine absurd ?_ hp.2.1
      rw [← he] at kw
      simpa using kw
    | comp =>
      rw [rereadOthers, toOthers] at hl
      cases hl
  | .cons (o := o) (l := l) (u := u) (us := us) h1 h2, props, comps, body, F, y, hb, hl, hk, hpl, hp, hF, hy, he => by
    have kw : Keyword (u ++ us ++ y) := by
      cases h1 with
      | mk _ _ _ => exact ⟨[], _, by simp, rfl, .inr ⟨_, rfl⟩⟩
    cases hb with
    | nil =>
      rw [rereadOthers, toOthers] at hl
      cases hl
    | prop _ _ hp _ _ _ _ =>
      refine absurd ?_ hp.2.1
      rw [← he] at kw
      simpa using kw
    | stuck _ hp _ _ _ _ =>
      refine absurd ?_ hp.2.1
      rw [← he] at kw
      simpa using kw
    | comp hc hb =>
      rw [rereadOthers, toOthers] at hl
      cases hl with
      | cons hl1 hl2 =>
        simp only [KeptAll] at hk
        have hn : NoBreak (us ++ y) := by
          obtain ⟨r, rfl⟩ := hy
          exact others_noBreak h2 (noBreak_letter (by decide))
        obtain ⟨rfl, a2, a3⟩ := comp_written h1 hc hl1 hk.1 hpl.1 hp.1 hn (by simpa using he)
        obtain ⟨rfl, rfl, rfl, b4⟩ := comps_written h2 hb hl2 hk.2 hpl.2 hp.2 hF hy a2
        exact ⟨rfl, rfl, rfl, .cons a3 b4⟩
end

end Ical
