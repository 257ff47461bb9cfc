import Verif.Proofs.Aligned
import Verif.Props.Clean

/-!
Reading what was written, component by component: if it gives back what was written, everything was read as it was
written.
-/

namespace Ical

open Nom Spec

/-! ### What is true of everything that was read -/

mutual
/-- something is true of all properties that were read, at any depth -/
def AllQ (R : PProp → Prop) : PComp → Prop
  | .mk _ props comps => (∀ q ∈ props, R q) ∧ AllsQ R comps
/-- see `AllQ` -/
def AllsQ (R : PProp → Prop) : List PComp → Prop
  | [] => True
  | c :: l => AllQ R c ∧ AllsQ R l
end

mutual
theorem allRead_and {R S : PProp → Prop} (c : PComp) (h : AllQ R c) (h' : AllQ S c) : AllQ (fun q => R q ∧ S q) c := by
  match c with
  | .mk n props comps =>
    simp only [AllQ] at h h' ⊢
    exact ⟨fun q hq => ⟨h.1 q hq, h'.1 q hq⟩, allsRead_and comps h.2 h'.2⟩
theorem allsRead_and {R S : PProp → Prop} (l : List PComp) (h : AllsQ R l) (h' : AllsQ S l) :
    AllsQ (fun q => R q ∧ S q) l := by
  match l with
  | [] => simp only [AllsQ]
  | c :: l =>
    simp only [AllsQ] at h h' ⊢
    exact ⟨allRead_and c h.1 h'.1, allsRead_and l h.2 h'.2⟩
end

mutual
theorem kept_allRead (c : PComp) (h : Kept c) : AllQ (fun q => (q.params.map PParam.toPair).Perm q.toProperty.params) c := by
  match c with
  | .mk n props comps =>
    simp only [Kept, AllQ] at h ⊢
    refine ⟨fun q hq => ?_, keptAll_allsRead comps h.2⟩
    by_cases hp : q.params = []
    · unfold PProp.toProperty
      rw [hp]
      exact .nil
    · exact (h.1 q hq hp).1
theorem keptAll_allsRead (l : List PComp) (h : KeptAll l) :
    AllsQ (fun q => (q.params.map PParam.toPair).Perm q.toProperty.params) l := by
  match l with
  | [] => simp only [AllsQ]
  | c :: l =>
    simp only [KeptAll, AllsQ] at h ⊢
    exact ⟨kept_allRead c h.1, keptAll_allsRead l h.2⟩
end

theorem inner_comps (props : List PProp) (l : List Other) : (innerOfProps props l).comps = l := by
  unfold innerOfProps
  simp only [(foldl_insertMulti_rest _ _).2]

mutual
theorem toOther_allProps {R : PProp → Prop} {P : Property → Prop} (hP : ∀ q, R q → P q.toProperty) (c : PComp) (h : AllQ R c) :
    EachProp P c.toOther := by
  match c with
  | .mk n props comps =>
    simp only [AllQ] at h
    obtain ⟨-, a2, -, a4⟩ := inner_was P (fun q hq => hP q (h.1 q hq)) (toOthers comps)
    rw [PComp.toOther]
    unfold Other.ofInner
    rw [inner_comps]
    exact ⟨fun x hx => (a2 x hx).2.2, fun x hx p hp => ((a4 x hx).2.2 p hp).2, toOthers_allsProps hP comps h.2⟩
theorem toOthers_allsProps {R : PProp → Prop} {P : Property → Prop} (hP : ∀ q, R q → P q.toProperty) (l : List PComp)
    (h : AllsQ R l) : EachProps P (toOthers l) := by
  match l with
  | [] => rw [toOthers]; trivial
  | c :: l =>
    simp only [AllsQ] at h
    rw [toOthers]
    exact ⟨toOther_allProps hP c h.1, toOthers_allsProps hP l h.2⟩
end

variable [Uni]

mutual
theorem compIs_allRead {c : PComp} {t f : Str} : CompIs c t f → AllQ (fun q => ∃ t f, PropIs q t f) c
  | .mk _ _ _ _ _ hb _ _ _ => by
    simp only [AllQ]
    exact bodyIs_allRead hb
theorem bodyIs_allRead {props : List PProp} {comps : List PComp} {t f : Str} : BodyIs props comps t f →
    (∀ q ∈ props, ∃ t f, PropIs q t f) ∧ AllsQ (fun q => ∃ t f, PropIs q t f) comps
  | .nil => ⟨by simp, by simp only [AllsQ]⟩
  | .prop _ _ hp _ _ _ hr => by
    obtain ⟨h1, h2⟩ := bodyIs_allRead hr
    refine ⟨?_, h2⟩
    intro q hq
    rcases List.mem_cons.1 hq with rfl | hq
    · exact ⟨_, _, hp⟩
    · exact h1 q hq
  | .stuck _ hp _ _ _ hr => by
    obtain ⟨h1, h2⟩ := bodyIs_allRead hr
    refine ⟨?_, h2⟩
    intro q hq
    rcases List.mem_cons.1 hq with rfl | hq
    · exact ⟨_, _, hp⟩
    · exact h1 q hq
  | .comp hc hr => by
    obtain ⟨h1, h2⟩ := bodyIs_allRead hr
    refine ⟨h1, ?_⟩
    simp only [AllsQ]
    exact ⟨compIs_allRead hc, h2⟩
end

mutual
theorem compIs_placed {c : PComp} {t f : Str} : CompIs c t f → Placed c.toOther
  | .mk (props := props) (comps := comps) _ hn _ _ _ hb _ _ _ => by
    obtain ⟨a1, a2, a3, a4⟩ := inner_was (fun _ => True) (props := props) (fun _ _ => trivial) (toOthers comps)
    rw [PComp.toOther]
    unfold Other.ofInner
    rw [inner_comps]
    exact ⟨hn, a1, fun x hx => ⟨(a2 x hx).1, (a2 x hx).2.1⟩, a3,
      fun x hx => ⟨(a4 x hx).1, (a4 x hx).2.1, fun p hp => ((a4 x hx).2.2 p hp).1⟩, bodyIs_placed hb⟩
theorem bodyIs_placed {props : List PProp} {comps : List PComp} {t f : Str} : BodyIs props comps t f →
    PlacedAll (toOthers comps)
  | .nil => by rw [toOthers]; trivial
  | .prop _ _ _ _ _ _ hr => bodyIs_placed hr
  | .stuck _ _ _ _ _ hr => bodyIs_placed hr
  | .comp hc hr => by
    rw [toOthers]
    exact ⟨compIs_placed hc, bodyIs_placed hr⟩
end

/-- what is true of every property that was read -/
structure Readable (p : Property) : Prop where
  named : Named p
  notEnd : ¬ c!"END" <+: p.key
  notBegin : ¬ c!"BEGIN" <+: p.key
  sorted : BMap.Sorted p.params

theorem propIs_readable {q : PProp} {t f : Str} (h : PropIs q t f) : Readable q.toProperty := by
  obtain ⟨hn, hk, h⟩ := h
  have hw : ∀ w, (∃ white r, (∀ c ∈ white, Space c) ∧ t ++ f = white ++ (q.name ++ r)) → w <+: q.name →
      ∃ white s, (∀ c ∈ white, Space c) ∧ t ++ f = white ++ s ∧ w <+: s := by
    rintro w ⟨white, r, h1, h2⟩ h3
    exact ⟨white, _, h1, h2, h3.trans (List.prefix_append _ _)⟩
  have hstart : ∃ white r, (∀ c ∈ white, Space c) ∧ t ++ f = white ++ (q.name ++ r) := by
    rcases h with ⟨white, params, raw, br, hwh, -, -, -, rfl⟩ | ⟨-, -, -, br, rfl, -⟩
    · exact ⟨white, _, hwh, by simp only [List.append_assoc]; rfl⟩
    · exact ⟨[], _, by simp, by simp only [List.append_assoc, List.nil_append]; rfl⟩
  refine ⟨⟨hn, ?_⟩, ?_, ?_, BMap.sorted_ofList _⟩
  · intro x hx
    obtain ⟨y, hy, rfl⟩ := List.mem_map.1 (mem_ofList hx)
    rcases h with ⟨white, params, raw, br, -, hp, -⟩ | ⟨hp, -⟩
    · exact (paramsAre_val hp y hy).1
    · rw [hp] at hy; simp at hy
  · intro hw1
    obtain ⟨white, s, h1, h2, h3⟩ := hw _ hstart hw1
    exact hk ⟨white, s, h1, h2, .inl h3⟩
  · intro hw1
    obtain ⟨white, s, h1, h2, h3⟩ := hw _ hstart hw1
    exact hk ⟨white, s, h1, h2, .inr h3⟩

theorem propIs_inLine {q : PProp} {t f : Str} (h : PropIs q t f) (hp : (q.params.map PParam.toPair).Perm q.toProperty.params) :
    InLine q.toProperty := by
  obtain ⟨hn, hk, ⟨white, params, raw, br, -, hps, hv, hval, -⟩ | ⟨-, hval, -⟩⟩ := h
  · intro ht
    have hr := readParam_toPair (fun x hx => (paramsAre_val hps x hx).2)
    have := isText_read q.toProperty (BMap.sorted_ofList _) hp
    rw [hr] at this
    have hv' : q.val = raw := by
      rw [hval]
      exact if_neg (fun h => ht (this.1 h))
    show ¬ _ <:+: q.val
    rw [hv']
    rcases hv with ⟨-, h⟩ | ⟨-, h, -⟩ | ⟨-, h, -⟩
    · exact h
    · exact fun hc => h (hc.mem (by simp))
    · exact fun hc => h (hc.mem (by simp))
  · intro _
    show ¬ _ <:+: q.val
    rw [hval]
    simp

/-! ### What is read at a place -/

omit [Uni] in
theorem toProperty_key (l : List PProp) : (l.map PProp.toProperty).map Property.key = l.map PProp.name := by
  rw [List.map_map]; rfl

omit [Uni] in
/-- the multi-properties with a key -/
theorem multi_filter (props : List PProp) (l : List Other) {k : Str} (hk : k ∈ repeatable) :
    (innerOfProps props l).multi.values.flatten.filter (fun p => p.key == k) =
      (props.map PProp.toProperty).filter (fun p => p.key == k) := by
  have hfold : innerOfProps props l = ((props.filter PProp.isMulti).map PProp.toProperty).foldl Inner.insertMulti
      { props := BMap.ofList ((props.filter (fun p => !p.isMulti)).map (fun p => (p.name, p.toProperty)))
        multi := [], comps := l } := by
    rw [List.foldl_map]; rfl
  obtain ⟨-, -, a3, a4⟩ := inner_was (fun _ => True) (props := props) (fun _ _ => trivial) l
  rw [filter_groups _ a3 (fun x hx p hp => ((a4 x hx).2.2 p hp).1)]
  obtain ⟨-, -, -, h4⟩ := foldl_insertMulti ((props.filter PProp.isMulti).map PProp.toProperty)
      { props := BMap.ofList ((props.filter (fun p => !p.isMulti)).map (fun p => (p.name, p.toProperty)))
        multi := [], comps := l } BMap.sorted_nil
  rw [hfold, h4]
  have e : ((props.filter PProp.isMulti).map PProp.toProperty).filter (fun p => p.key == k) =
      (props.map PProp.toProperty).filter (fun p => p.key == k) := by
    induction props with
    | nil => rfl
    | cons q props ih =>
      rw [List.filter_cons, List.map_cons, List.filter_cons]
      have ih := ih (by rw [List.foldl_map]; rfl) (inner_was (fun _ => True) (props := props) (fun _ _ => trivial) l).2.2.1
        (inner_was (fun _ => True) (props := props) (fun _ _ => trivial) l).2.2.2
        (foldl_insertMulti ((props.filter PProp.isMulti).map PProp.toProperty)
      { props := BMap.ofList ((props.filter (fun p => !p.isMulti)).map (fun p => (p.name, p.toProperty)))
        multi := [], comps := l } BMap.sorted_nil).2.2.2
      by_cases hq : q.isMulti = true
      · rw [if_pos hq, List.map_cons, List.filter_cons, ih]
      · rw [if_neg hq, ih, if_neg]
        intro he
        have he : q.name = k := by simpa [PProp.toProperty] using he
        rw [← he] at hk
        refine hq ?_
        unfold PProp.isMulti
        rw [List.contains_eq_mem]
        exact decide_eq_true hk
  rw [e]
  split
  · rename_i h; rw [h]; rfl
  · simp [BMap.get]

omit [Uni] in
theorem isMulti_iff (q : PProp) : q.isMulti = true ↔ q.name ∈ repeatable := by
  unfold PProp.isMulti
  rw [List.contains_eq_mem]
  exact decide_eq_true_iff

omit [Uni] in
theorem written_filter {props : BMap Property} {multi : BMap (List Property)} (hs : ∀ x ∈ props, x.2.key = x.1 ∧ x.1 ∉ repeatable)
    (a b : Str) {k : Str} (hk : k ∈ repeatable) :
    (writtenProps props multi a b).filter (fun p => p.key == k) = multi.values.flatten.filter (fun p => p.key == k) := by
  have gen : ∀ k' v, k' ∉ repeatable → (genProps props k' v).filter (fun p => p.key == k) = [] := by
    intro k' v hk'
    rw [List.filter_eq_nil_iff]
    intro p hp
    unfold genProps at hp
    split at hp
    · cases hp
    · rw [List.mem_singleton.1 hp]
      simp only [beq_iff_eq]
      rintro rfl
      exact hk' hk
  have single : props.values.filter (fun p => p.key == k) = [] := by
    rw [List.filter_eq_nil_iff]
    intro p hp
    obtain ⟨x, hx, rfl⟩ := List.mem_map.1 hp
    simp only [beq_iff_eq]
    intro he
    obtain ⟨h1, h2⟩ := hs x hx
    rw [← h1, he] at h2
    exact h2 hk
  unfold writtenProps
  rw [List.filter_append, List.filter_append, List.filter_append, gen _ a (by decide), gen _ b (by decide), single]
  rfl

omit [Uni] in
theorem same_place {props : List PProp} {l : List Other} (hk : KeptProps props (innerOfProps props l)) (a b : Str) :
    SamePlace props (writtenProps (innerOfProps props l).props (innerOfProps props l).multi a b) := by
  obtain ⟨a1, a2, a3, a4⟩ := inner_was (fun _ => True) (props := props) (fun _ _ => trivial) l
  intro qs1 q qs2 ps1 p ps2 h1 h2 h3 h4 h5 h6
  obtain ⟨k1, k2⟩ := hk q (by rw [h1]; simp) h6
  suffices q.toProperty = p by rw [← this]; exact k1
  by_cases hm : q.name ∈ repeatable
  · have e : (props.map PProp.toProperty).filter (fun p => p.key == q.name) =
        (writtenProps (innerOfProps props l).props (innerOfProps props l).multi a b).filter (fun p => p.key == q.name) := by
      rw [written_filter (fun x hx => ⟨(a2 x hx).1, (a2 x hx).2.1⟩) a b hm, multi_filter props l hm]
    rw [h2] at e
    conv at e => lhs; rw [h1]
    rw [List.map_append, List.filter_append, List.filter_append, List.map_cons, List.filter_cons, List.filter_cons,
      if_pos (by simp [PProp.toProperty]), if_pos (by simp [h4])] at e
    have hlen : ((qs1.map PProp.toProperty).filter (fun p => p.key == q.name)).length =
        (ps1.filter (fun p => p.key == q.name)).length := by
      have key : ∀ {x y : List Property}, x.map Property.key = y.map Property.key →
          (x.filter (fun p => p.key == q.name)).length = (y.filter (fun p => p.key == q.name)).length := by
        intro x y hxy
        rw [← List.countP_eq_length_filter, ← List.countP_eq_length_filter]
        have : ∀ z : List Property, z.countP (fun p => p.key == q.name) = (z.map Property.key).countP (fun k => k == q.name) := by
          intro z; rw [List.countP_map]; rfl
        rw [this, this, hxy]
      exact key (by rw [toProperty_key, h3])
    have := (List.append_inj e hlen).2
    simp only [List.cons.injEq] at this
    exact this.1
  · have hq : q.isMulti = false := by
      cases h : q.isMulti with
      | false => rfl
      | true => exact absurd ((isMulti_iff q).1 h) hm
    have hp : p ∈ writtenProps (innerOfProps props l).props (innerOfProps props l).multi a b := by rw [h2]; simp
    unfold writtenProps genProps at hp
    simp only [List.mem_append] at hp
    rcases hp with ((hp | hp) | hp) | hp
    · split at hp
      · cases hp
      · rw [List.mem_singleton.1 hp] at h5
        exact absurd rfl h5
    · obtain ⟨x, hx, rfl⟩ := List.mem_map.1 hp
      have hg := BMap.get_of_mem a1 hx
      rw [← (a2 x hx).1, ← h4, k2 hq, Option.some.injEq] at hg
      exact hg
    · split at hp
      · cases hp
      · rw [List.mem_singleton.1 hp] at h5
        exact absurd rfl h5
    · obtain ⟨y, hy, hp⟩ := List.mem_flatten.1 hp
      obtain ⟨x, hx, rfl⟩ := List.mem_map.1 hy
      rw [h4, ((a4 x hx).2.2 p hp).1] at hm
      exact absurd (a4 x hx).1 hm

omit [Uni] in
theorem same_of_filters {A B : List Property} (h : A.map Property.key = B.map Property.key)
    (hf : ∀ k, A.filter (fun p => p.key == k) = B.filter (fun p => p.key == k)) : A = B := by
  induction A generalizing B with
  | nil =>
    cases B with
    | nil => rfl
    | cons => simp at h
  | cons a A ih =>
    cases B with
    | nil => simp at h
    | cons b B =>
      simp only [List.map_cons, List.cons.injEq] at h
      have h1 := hf a.key
      rw [List.filter_cons, List.filter_cons, if_pos (by simp), if_pos (by simp [h.1])] at h1
      simp only [List.cons.injEq] at h1
      obtain ⟨rfl, -⟩ := h1
      rw [ih h.2]
      intro k
      have h2 := hf k
      rw [List.filter_cons, List.filter_cons] at h2
      split at h2
      · simpa using h2
      · exact h2

omit [Uni] in
/-- if the names that were read are the ones written, nothing was generated and all properties are the ones written -/
theorem names_same {props : List PProp} {l : List Other} {a b : Str}
    (h : props.map PProp.name = (writtenProps (innerOfProps props l).props (innerOfProps props l).multi a b).map Property.key) :
    (∃ x ∈ (innerOfProps props l).props, x.1 = c!"DTSTAMP") ∧ (∃ x ∈ (innerOfProps props l).props, x.1 = c!"UID") ∧
    writtenProps (innerOfProps props l).props (innerOfProps props l).multi a b =
      (innerOfProps props l).props.values ++ (innerOfProps props l).multi.values.flatten ∧
    props.map PProp.toProperty = (innerOfProps props l).props.values ++ (innerOfProps props l).multi.values.flatten := by
  obtain ⟨a1, a2, a3, a4⟩ := inner_was (fun _ => True) (props := props) (fun _ _ => trivial) l
  have hprops : (innerOfProps props l).props =
      BMap.ofList ((props.filter (fun p => !p.isMulti)).map (fun p => (p.name, p.toProperty))) := by
    unfold innerOfProps
    simp only [(foldl_insertMulti_rest _ _).1]
  have has : ∀ q ∈ props, q.isMulti = false → (innerOfProps props l).props.containsKey q.name = true := by
    intro q hq hm
    unfold BMap.containsKey
    cases hg : BMap.get q.name (innerOfProps props l).props with
    | some => rfl
    | none =>
      exfalso
      rw [hprops, BMap.get_ofList, Option.map_eq_none_iff, List.find?_eq_none] at hg
      exact hg (q.name, q.toProperty) (by
        rw [List.mem_reverse, List.mem_map]
        exact ⟨q, List.mem_filter.2 ⟨hq, by simp [hm]⟩, rfl⟩) (by simp)
  have gen : ∀ k v : Str, k ∉ repeatable → (∀ p ∈ genProps (innerOfProps props l).props k v, p ∈ writtenProps (innerOfProps props l).props (innerOfProps props l).multi a b) →
      (innerOfProps props l).props.containsKey k = true := by
    intro k v hk hw
    apply Classical.byContradiction
    intro hc
    have : (⟨k, v, []⟩ : Property) ∈ writtenProps (innerOfProps props l).props (innerOfProps props l).multi a b := by
      apply hw
      unfold genProps
      rw [if_neg hc]
      simp
    have hm : k ∈ props.map PProp.name := by
      rw [h]
      exact List.mem_map.2 ⟨_, this, rfl⟩
    obtain ⟨q, hq, hqk⟩ := List.mem_map.1 hm
    refine hc ?_
    rw [← hqk]
    refine has q hq ?_
    cases hqm : q.isMulti with
    | false => rfl
    | true => exact absurd (hqk ▸ (isMulti_iff q).1 hqm) hk
  have h1 := gen c!"DTSTAMP" a (by decide) (by intro p hp; unfold writtenProps; simp [hp])
  have h2 := gen c!"UID" b (by decide) (by intro p hp; unfold writtenProps; simp [hp])
  have hw : writtenProps (innerOfProps props l).props (innerOfProps props l).multi a b =
      (innerOfProps props l).props.values ++ (innerOfProps props l).multi.values.flatten := by
    unfold writtenProps genProps
    rw [if_pos h1, if_pos h2]
    simp
  refine ⟨containsKey_iff.1 h1, containsKey_iff.1 h2, hw, ?_⟩
  rw [hw, List.map_append] at h
  obtain ⟨q1, q2, hq, n1, n2⟩ := List.map_eq_append_iff.1 h
  have m1 : ∀ q ∈ q1, q.isMulti = false := by
    intro q hq
    have : q.name ∈ (innerOfProps props l).props.values.map Property.key := by rw [← n1]; exact List.mem_map_of_mem hq
    obtain ⟨p, hp, he⟩ := List.mem_map.1 this
    obtain ⟨x, hx, rfl⟩ := List.mem_map.1 hp
    cases hqm : q.isMulti with
    | false => rfl
    | true =>
      have := (isMulti_iff q).1 hqm
      rw [← he, (a2 x hx).1] at this
      exact absurd this (a2 x hx).2.1
  have m2 : ∀ q ∈ q2, q.isMulti = true := by
    intro q hq
    have : q.name ∈ (innerOfProps props l).multi.values.flatten.map Property.key := by rw [← n2]; exact List.mem_map_of_mem hq
    obtain ⟨p, hp, he⟩ := List.mem_map.1 this
    obtain ⟨y, hy, hp⟩ := List.mem_flatten.1 hp
    obtain ⟨x, hx, rfl⟩ := List.mem_map.1 hy
    rw [isMulti_iff, ← he, ((a4 x hx).2.2 p hp).1]
    exact (a4 x hx).1
  have f1 : props.filter (fun p => !p.isMulti) = q1 := by
    rw [hq, List.filter_append, List.filter_eq_self.2 (fun q hq => by simp [m1 q hq]),
      List.filter_eq_nil_iff.2 (fun q hq => by simp [m2 q hq]), List.append_nil]
  have e1 : (innerOfProps props l).props.values = q1.map PProp.toProperty := by
    have keys : (q1.map (fun p => (p.name, p.toProperty))).map Prod.fst = (innerOfProps props l).props.map Prod.fst := by
      rw [List.map_map]
      show q1.map PProp.name = _
      rw [n1]
      unfold BMap.values
      rw [List.map_map]
      exact List.map_congr_left (fun x hx => (a2 x hx).1)
    have hs : BMap.Sorted (q1.map (fun p => (p.name, p.toProperty))) := by
      have : ∀ {α β : Type} {m : BMap α} {m' : BMap β}, m.map Prod.fst = m'.map Prod.fst → BMap.Sorted m' → BMap.Sorted m := by
        intro α β m m' h h'
        unfold BMap.Sorted at h' ⊢
        have e : (m'.map Prod.fst).Pairwise (fun a b => strCmp a b = .lt) := List.pairwise_map.2 h'
        rw [← h] at e
        exact List.pairwise_map.1 e
      exact this keys a1
    rw [hprops, f1, BMap.ofList_sorted hs]
    unfold BMap.values
    rw [List.map_map]
    rfl
  have e2 : q2.map PProp.toProperty = (innerOfProps props l).multi.values.flatten := by
    refine same_of_filters (by rw [toProperty_key, n2]) ?_
    intro k
    by_cases hk : k ∈ repeatable
    · rw [multi_filter props l hk]
      conv => rhs; rw [hq]
      have hnil : (q1.map PProp.toProperty).filter (fun p => p.key == k) = [] := by
        rw [List.filter_eq_nil_iff]
        intro p hp
        obtain ⟨q, hq', rfl⟩ := List.mem_map.1 hp
        simp only [beq_iff_eq]
        intro he
        have := (isMulti_iff q).2 (by rw [show q.name = k from he]; exact hk)
        rw [m1 q hq'] at this
        cases this
      rw [List.map_append, List.filter_append, hnil, List.nil_append]
    · rw [List.filter_eq_nil_iff.2, List.filter_eq_nil_iff.2]
      · intro p hp
        obtain ⟨y, hy, hp⟩ := List.mem_flatten.1 hp
        obtain ⟨x, hx, rfl⟩ := List.mem_map.1 hy
        simp only [beq_iff_eq]
        rintro rfl
        rw [((a4 x hx).2.2 p hp).1] at hk
        exact hk (a4 x hx).1
      · intro p hp
        obtain ⟨q, hq, rfl⟩ := List.mem_map.1 hp
        simp only [beq_iff_eq]
        rintro rfl
        exact hk ((isMulti_iff q).1 (m2 q hq))
  rw [e1, ← e2]
  conv => lhs; rw [hq]
  rw [List.map_append]

/-! ### Lines that were read as what they are -/

theorem lines_told {qs : List PProp} {ps : List Property} {us y : Str} (h : LinesRead qs ps us y) :
    qs.map PProp.toProperty = ps → (∀ p ∈ ps, Readable p ∧ InLine p) → LinesTold ps us y ∧ ∀ p ∈ ps, OwnProp p := by
  induction h with
  | nil => exact fun _ _ => ⟨.nil, by simp⟩
  | @cons q qs p ps l r us y h1 h2 h3 h4 h5 h6 _ ih =>
    intro he hr
    simp only [List.map_cons, List.cons.injEq] at he
    obtain ⟨i1, i2⟩ := ih he.2 (fun p hp => hr p (by simp [hp]))
    obtain ⟨hrd, hone⟩ := hr p (by simp)
    have hval : q.val = p.val := by rw [← he.1]; rfl
    have hraw : r = rawText p ∧ ValueTold p := by
      unfold ValueTold
      by_cases ht : IsText p
      · rw [if_pos ht] at h6 ⊢
        have e : r = rawText p := by
          refine shrunk_noLf h5 ?_
          unfold rawText
          rw [if_pos ht]
          exact escaped_noLf p.val
        refine ⟨e, (raw_read ht).1 ?_⟩
        rw [← e, ← h6, hval]
      · rw [if_neg ht] at h6 ⊢
        refine ⟨?_, hone ht⟩
        unfold rawText
        rw [if_neg ht, ← h6, hval]
    obtain ⟨rfl, hv⟩ := hraw
    obtain ⟨forms, f1, f2⟩ := paramsText_forms l
    refine ⟨?_, ?_⟩
    · have := LinesTold.cons (p := p) (f := y) h2 f1 (by simpa using h4) i1
      rw [f2]
      simpa using this
    · intro p' hp'
      rcases List.mem_cons.1 hp' with rfl | hp'
      · exact ⟨⟨hrd.named.1, hrd.notEnd, hrd.notBegin, hrd.named.2, hv⟩, hrd.sorted⟩
      · exact i2 p' hp'

/-! ### Components that were read as what they are -/

/-- what is true of every property, before and after -/
structure Proper (p : Property) : Prop where
  readable : Readable p
  inLine : InLine p
  notKeyword : NotKeyword p

theorem Proper.fine {p : Property} (h : Proper p) : Fine p := ⟨h.readable.named, h.readable.sorted, h.inLine, h.notKeyword⟩

theorem written_fine {props : BMap Property} {multi : BMap (List Property)} {a b : Str} (hab : ∀ c ∈ a ++ b, c ≠ ';' ∧ c ≠ '\n')
    (hs : ∀ x ∈ props, Proper x.2) (hm : ∀ x ∈ multi, ∀ p ∈ x.2, Proper p) : ∀ p ∈ writtenProps props multi a b, Fine p := by
  intro p hp
  unfold writtenProps genProps at hp
  simp only [List.mem_append] at hp
  have gen : ∀ k v : Str, IsName k → k.map lowerAscii ≠ c!"end" ∧ k.map lowerAscii ≠ c!"begin" → '\n' ∉ v → Fine ⟨k, v, []⟩ := by
    intro k v h1 h2 h3
    exact ⟨⟨h1, by simp⟩, .nil, fun _ hc => h3 (hc.mem (by simp)), fun _ => h2⟩
  rcases hp with ((hp | hp) | hp) | hp
  · split at hp
    · cases hp
    · rw [List.mem_singleton.1 hp]
      exact gen _ _ isName_dtstamp (by decide) (fun hc => (hab _ (by simp [hc])).2 rfl)
  · obtain ⟨x, hx, rfl⟩ := List.mem_map.1 hp
    exact (hs x hx).fine
  · split at hp
    · cases hp
    · rw [List.mem_singleton.1 hp]
      exact gen _ _ isName_uid (by decide) (fun hc => (hab _ (by simp [hc])).2 rfl)
  · obtain ⟨y, hy, hp⟩ := List.mem_flatten.1 hp
    obtain ⟨x, hx, rfl⟩ := List.mem_map.1 hy
    exact (hm x hx p hp).fine

omit [Uni] in
theorem noBreak_letter {c : Char} {r : Str} (h : c ≠ '\r' ∧ c ≠ '\n') : NoBreak (c :: r) := by
  refine ⟨?_, ?_⟩ <;> rintro ⟨x, hx⟩ <;> simp at hx
  · exact h.2 hx.1.symm
  · exact h.1 hx.1.symm

omit [Uni] in
theorem others_noBreak {l : List Other} {u y : Str} (h : ShrunkOthers l u) (hy : NoBreak y) : NoBreak (u ++ y) := by
  cases h with
  | nil => exact hy
  | cons h1 _ =>
    cases h1 with
    | mk _ _ _ => exact noBreak_letter (by decide)

omit [Uni] in
theorem blank_crlf : Blank ['\r', '\n'] := blank_break .crlf blank_nil

mutual
theorem comp_read {o : Other} {u : Str} : ShrunkOther o u → ∀ {d : PComp} {t f y : Str}, CompIs d t f → d.toOther = o → Kept d →
    EachProp Proper o → NoBreak y → t ++ f = u ++ y →
    t = u ∧ f = y ∧ HasStamps o ∧ CompTold o u y ∧ EachProp OwnProp o
  | .mk (name := name) (props := P) (multi := M) (comps := C) (a := a) (b := b) (us := us) (vs := vs) hab hl hc, d, t, f, y, hd, ho, hk, hp, hy, he => by
    have hpl := compIs_placed hd
    cases hd with
    | @mk n props comps b' gap body e trail f hb hn hf hgap hnb hbody hend htrail hnf =>
      rw [ho] at hpl
      rw [PComp.toOther] at ho
      unfold Other.ofInner at ho
      rw [inner_comps] at ho
      simp only [Other.mk.injEq] at ho
      obtain ⟨rfl, rfl, rfl, rfl⟩ := ho
      simp only [Kept] at hk
      obtain ⟨hname, -, -, -, -, hpc⟩ := hpl
      obtain ⟨hs, hm, hcp⟩ := hp
      have he1 : b' ++ (n ++ (gap ++ (body ++ (e ++ (n ++ (trail ++ f)))))) =
          c!"BEGIN:" ++ (n ++ (['\r', '\n'] ++ (us ++ (vs ++ (c!"END:" ++ (n ++ (['\r', '\n'] ++ y))))))) := by
        simpa using he
      obtain ⟨rfl, he2⟩ := List.append_inj he1 (by
        have := congrArg List.length hb
        rw [List.length_map] at this
        exact this)
      have he3 := List.append_cancel_left he2
      have hfine := written_fine (a := a) (b := b) (stamp_chars hab) hs hm
      have hn2 : NoBreak (vs ++ (c!"END:" ++ (n ++ (['\r', '\n'] ++ y)))) := others_noBreak hc (noBreak_letter (by decide))
      obtain ⟨rfl, he4⟩ := blank_unique hgap blank_crlf hnb
        (lines_noBreak hl (fun p hp => (hfine p hp).named.1) hn2) he3
      obtain ⟨qs, props', body', rfl, r1, r2, r3, r4⟩ := lines_read hl hfine (same_place hk.1 a b) hbody ⟨e, _, rfl, hend⟩ hn2 he4
      obtain ⟨rfl, rfl, e3, e4, e5, e6⟩ := comps_read hc r2 rfl hk.2 hcp ⟨e, _, rfl, hend⟩ ⟨_, rfl⟩ r3
      rw [List.append_nil] at *
      obtain ⟨rfl, e7⟩ := List.append_inj e3 (by
        have := congrArg List.length hend
        rw [List.length_map] at this
        exact this)
      obtain ⟨rfl, rfl⟩ := blank_unique htrail blank_crlf hnf hy (List.append_cancel_left e7)
      obtain ⟨s1, s2, s3, s4⟩ := names_same (l := toOthers comps) (linesRead_names r1)
      obtain ⟨t1, t2⟩ := lines_told r1 (by rw [s3]; exact s4) (by
        intro p hp
        rw [s3, List.mem_append] at hp
        rcases hp with hp | hp
        · obtain ⟨x, hx, rfl⟩ := List.mem_map.1 hp
          exact ⟨(hs x hx).readable, (hs x hx).inLine⟩
        · obtain ⟨z, hz, hp⟩ := List.mem_flatten.1 hp
          obtain ⟨x, hx, rfl⟩ := List.mem_map.1 hz
          exact ⟨(hm x hx p hp).readable, (hm x hx p hp).inLine⟩)
      rw [s3] at t1 t2
      refine ⟨by rw [r4]; simp, rfl, ⟨s1, s2, e4⟩, ?_, ?_, ?_, e6⟩
      · have := CompTold.mk (name := n) (f := f) (a := us) (b := body') (by
          have := t1
          unfold BMap.values at this
          rw [List.flatten_eq_flatMap, List.flatMap_map] at this
          simpa using this) (by simpa using e5)
        simpa using this
      · intro x hx
        exact t2 x.2 (List.mem_append_left _ (List.mem_map_of_mem hx))
      · intro x hx p hp
        exact t2 p (List.mem_append_right _ (List.mem_flatten.2 ⟨x.2, List.mem_map_of_mem hx, hp⟩))
theorem comps_read {l : List Other} {u : Str} : ShrunkOthers l u → ∀ {props : List PProp} {comps : List PComp} {body F y : Str},
    BodyIs props comps body F → toOthers comps = l → KeptAll comps → EachProps Proper l → EndText F →
    (∃ r, y = c!"END:" ++ r) → body ++ F = u ++ y →
    props = [] ∧ body = u ∧ F = y ∧ HaveStamps l ∧ CompsTold l u y ∧ EachProps OwnProp l
  | .nil, props, comps, body, F, y, hb, hl, hk, hp, hF, ⟨r, hr⟩, he => by
    have kw : Keyword y := ⟨[], y, by simp, rfl, .inl ⟨':' :: r, by rw [hr]; rfl⟩⟩
    rw [List.nil_append] at he
    cases hb with
    | nil => exact ⟨rfl, rfl, by simpa using he, trivial, .nil, trivial⟩
    | prop _ _ hp _ _ _ _ =>
      refine absurd ?_ hp.2.1
      rw [← he] at kw
      simpa using kw
    | stuck _ hp _ _ _ _ =>
      refine absurd ?_ hp.2.1
      rw [← he] at kw
      simpa using kw
    | comp => simp [toOthers] at hl
  | .cons (o := o) (l := l) (u := u) (us := us) h1 h2, props, comps, body, F, y, hb, hl, hk, hp, hF, hy, he => by
    have kw : Keyword (u ++ us ++ y) := by
      cases h1 with
      | mk _ _ _ => exact ⟨[], _, by simp, rfl, .inr ⟨_, rfl⟩⟩
    cases hb with
    | nil => simp [toOthers] at hl
    | prop _ _ hp _ _ _ _ =>
      refine absurd ?_ hp.2.1
      rw [← he] at kw
      simpa using kw
    | stuck _ hp _ _ _ _ =>
      refine absurd ?_ hp.2.1
      rw [← he] at kw
      simpa using kw
    | comp hc hb =>
      rw [toOthers] at hl
      simp only [List.cons.injEq] at hl
      simp only [KeptAll] at hk
      have hn : NoBreak (us ++ y) := by
        obtain ⟨r, rfl⟩ := hy
        exact others_noBreak h2 (noBreak_letter (by decide))
      obtain ⟨rfl, a2, a3, a4, a5⟩ := comp_read h1 hc hl.1 hk.1 hp.1 hn (by simpa using he)
      obtain ⟨rfl, rfl, rfl, b4, b5, b6⟩ := comps_read h2 hb hl.2 hk.2 hp.2 hF hy a2
      exact ⟨rfl, rfl, rfl, ⟨a3, b4⟩, .cons a4 b5, ⟨a5, b6⟩⟩
end

end Ical
