import Verif.Proofs.Shrunk

/-!
Reading never adds a semicolon. So if as many come back as were written, no parameter and no property with a
parameter was read that is not in what came back.
-/

namespace Ical

open Nom Spec

/-! ### Maps -/

/-- the sum over the values of a map -/
def vsum {α : Type} (f : α → Nat) (m : BMap α) : Nat := (m.map (fun x => f x.2)).sum

theorem vsum_insert {α : Type} (f : α → Nat) {k : Str} {v : α} {m : BMap α} (hs : BMap.Sorted m) :
    vsum f (BMap.insert k v m) + ((BMap.get k m).map f).getD 0 = f v + vsum f m := by
  induction m with
  | nil => simp [vsum, BMap.insert, BMap.get]
  | cons y m ih =>
    obtain ⟨k', v'⟩ := y
    obtain ⟨h1, h2⟩ := List.pairwise_cons.1 hs
    simp only [BMap.insert, BMap.get]
    cases hc : strCmp k k' with
    | lt =>
      have hne : k ≠ k' := fun he => by rw [he, strCmp_refl] at hc; cases hc
      have hg : BMap.get k m = none := by
        rw [BMap.get_none]
        intro x hx he
        exact absurd (strCmp_trans hc (h1 x hx)) (by rw [he]; exact strCmp_irrefl)
      rw [if_neg hne, hg]
      simp [vsum]
    | eq =>
      rw [if_pos (strCmp_eq.1 hc)]
      simp [vsum]
      omega
    | gt =>
      have hne : k ≠ k' := fun he => by rw [he, strCmp_refl] at hc; cases hc
      rw [if_neg hne]
      have := ih h2
      simp only [vsum, List.map_cons, List.sum_cons] at *
      omega

theorem vsum_foldl {α : Type} (f : α → Nat) (l : List (Str × α)) (m : BMap α) (hs : BMap.Sorted m) :
    vsum f (l.foldl (fun m kv => BMap.insert kv.1 kv.2 m) m) ≤ vsum f l + vsum f m ∧
    (vsum f (l.foldl (fun m kv => BMap.insert kv.1 kv.2 m) m) = vsum f l + vsum f m →
      (∀ x ∈ l, 0 < f x.2 → BMap.get x.1 (l.foldl (fun m kv => BMap.insert kv.1 kv.2 m) m) = some x.2) ∧
      ∀ k v, BMap.get k m = some v → 0 < f v → BMap.get k (l.foldl (fun m kv => BMap.insert kv.1 kv.2 m) m) = some v) := by
  induction l generalizing m with
  | nil => exact ⟨by simp [vsum], fun _ => ⟨by simp, fun k v h _ => h⟩⟩
  | cons x l ih =>
    rw [List.foldl_cons]
    obtain ⟨h1, h2⟩ := ih _ (BMap.sorted_insert (k := x.1) (v := x.2) hs)
    have hi := vsum_insert f (k := x.1) (v := x.2) hs
    have e : vsum f (x :: l) = f x.2 + vsum f l := by simp [vsum]
    refine ⟨by omega, fun he => ?_⟩
    obtain ⟨h3, h4⟩ := h2 (by omega)
    have h5 : ((BMap.get x.1 m).map f).getD 0 = 0 := by omega
    refine ⟨?_, ?_⟩
    · intro y hy hf
      rcases List.mem_cons.1 hy with rfl | hy
      · exact h4 _ _ (BMap.get_insert_self _ _ _) hf
      · exact h3 y hy hf
    · intro k v hg hf
      by_cases hk : k = x.1
      · subst hk
        rw [hg] at h5
        simp at h5
        omega
      · exact h4 k v (by rw [BMap.get_insert_ne _ _ _ hk]; exact hg) hf

theorem vsum_ofList {α : Type} (f : α → Nat) (l : List (Str × α)) :
    vsum f (BMap.ofList l) ≤ vsum f l ∧
    (vsum f (BMap.ofList l) = vsum f l → ∀ x ∈ l, 0 < f x.2 → BMap.get x.1 (BMap.ofList l) = some x.2) := by
  obtain ⟨h1, h2⟩ := vsum_foldl f l [] BMap.sorted_nil
  have e : vsum f ([] : BMap α) = 0 := rfl
  rw [e, Nat.add_zero] at h1 h2
  exact ⟨h1, fun h => (h2 h).1⟩

/-! ### Semicolons -/

/-- the semicolons of a property in its line -/
def semis (p : Property) : Nat := msum (pcount ';') p.params + p.val.count ';'

/-- the semicolons of properties -/
def lineSemis (l : List Property) : Nat := (l.map semis).sum

mutual
/-- the semicolons of a component -/
def otherSemis : Other → Nat
  | .mk _ props multi comps => vsum semis props + vsum lineSemis multi + othersSemis comps
/-- see `otherSemis` -/
def othersSemis : List Other → Nat
  | [] => 0
  | o :: l => otherSemis o + othersSemis l
end

/-- the semicolons of a property that was read -/
def readSemis (q : PProp) : Nat := msum (pcount ';') (q.params.map PParam.toPair) + q.val.count ';'

mutual
/-- the semicolons of a component that was read -/
def compSemis : PComp → Nat
  | .mk _ props comps => (props.map readSemis).sum + compsSemis comps
/-- see `compSemis` -/
def compsSemis : List PComp → Nat
  | [] => 0
  | c :: l => compSemis c + compsSemis l
end

theorem lineSemis_append (a b : List Property) : lineSemis (a ++ b) = lineSemis a + lineSemis b := by
  simp [lineSemis]

theorem lineSemis_values (m : BMap Property) : lineSemis m.values = vsum semis m := by
  unfold lineSemis vsum BMap.values
  rw [List.map_map]
  rfl

theorem lineSemis_flatten (m : BMap (List Property)) : lineSemis m.values.flatten = vsum lineSemis m := by
  induction m with
  | nil => rfl
  | cons x m ih =>
    unfold BMap.values vsum at *
    rw [List.map_cons, List.flatten_cons, lineSemis_append, ih, List.map_cons, List.sum_cons]

/-- a property that came back with all its parameters -/
theorem semis_toProperty (q : PProp) : semis q.toProperty ≤ readSemis q ∧
    (semis q.toProperty = readSemis q → (q.params.map PParam.toPair).Perm q.toProperty.params) := by
  unfold semis readSemis PProp.toProperty
  simp only
  rcases ofList_msum pcount_pos (q.params.map PParam.toPair) with h | h
  · rw [msum_perm h]
    exact ⟨Nat.le_refl _, fun _ => h.symm⟩
  · exact ⟨by omega, by omega⟩

/-- all read properties with parameters are there -/
def KeptProps (props : List PProp) (i : Inner) : Prop :=
  ∀ q ∈ props, q.params ≠ [] → (q.params.map PParam.toPair).Perm q.toProperty.params ∧
    (q.isMulti = false → BMap.get q.name i.props = some q.toProperty)

mutual
/-- all read properties with parameters are there, at any depth -/
def Kept : PComp → Prop
  | .mk _ props comps => KeptProps props (innerOfProps props (toOthers comps)) ∧ KeptAll comps
/-- see `Kept` -/
def KeptAll : List PComp → Prop
  | [] => True
  | c :: l => Kept c ∧ KeptAll l
end

theorem foldl_multiSemis (l : List Property) (i : Inner) (hs : BMap.Sorted i.multi) :
    vsum lineSemis (l.foldl Inner.insertMulti i).multi = lineSemis l + vsum lineSemis i.multi := by
  induction l generalizing i with
  | nil => simp [lineSemis]
  | cons p l ih =>
    have hs' : BMap.Sorted (i.insertMulti p).multi := by
      unfold Inner.insertMulti
      simp only
      split <;> exact BMap.sorted_insert hs
    rw [List.foldl_cons, ih _ hs']
    have e : vsum lineSemis (i.insertMulti p).multi = semis p + vsum lineSemis i.multi := by
      unfold Inner.insertMulti
      simp only
      split
      · rename_i v hv
        have := vsum_insert lineSemis (k := p.key) (v := v ++ [p]) hs
        rw [hv, lineSemis_append] at this
        simp [lineSemis] at this ⊢
        omega
      · rename_i hv
        have := vsum_insert lineSemis (k := p.key) (v := [p]) hs
        rw [hv] at this
        simp [lineSemis] at this ⊢
        omega
    rw [e]
    simp [lineSemis]
    omega

theorem sum_parted (P : PProp → Bool) (f : PProp → Nat) (l : List PProp) :
    ((l.filter P).map f).sum + ((l.filter (fun p => !P p)).map f).sum = (l.map f).sum := by
  induction l with
  | nil => rfl
  | cons q l ih =>
    rw [List.filter_cons, List.filter_cons]
    cases hq : P q <;> simp <;> omega

theorem sum_le {f g : PProp → Nat} (h : ∀ q, f q ≤ g q) (l : List PProp) : (l.map f).sum ≤ (l.map g).sum ∧
    ((l.map f).sum = (l.map g).sum → ∀ q ∈ l, f q = g q) := by
  induction l with
  | nil => simp
  | cons q l ih =>
    have := h q
    simp only [List.map_cons, List.sum_cons]
    refine ⟨by omega, fun he => ?_⟩
    intro r hr
    rcases List.mem_cons.1 hr with rfl | hr
    · omega
    · exact ih.2 (by omega) r hr

theorem inner_semis (props : List PProp) (comps : List Other) :
    vsum semis (innerOfProps props comps).props + vsum lineSemis (innerOfProps props comps).multi ≤ (props.map readSemis).sum ∧
    (vsum semis (innerOfProps props comps).props + vsum lineSemis (innerOfProps props comps).multi = (props.map readSemis).sum →
      KeptProps props (innerOfProps props comps)) := by
  have hprops : (innerOfProps props comps).props =
      BMap.ofList ((props.filter (fun p => !p.isMulti)).map (fun p => (p.name, p.toProperty))) := by
    unfold innerOfProps
    simp only [(foldl_insertMulti_rest _ _).1]
  have hmulti : vsum lineSemis (innerOfProps props comps).multi =
      ((props.filter (fun p => p.isMulti)).map (fun q => semis q.toProperty)).sum := by
    unfold innerOfProps
    rw [show ∀ (l : List PProp) (i : Inner), l.foldl (fun c p => c.insertMulti p.toProperty) i =
      (l.map PProp.toProperty).foldl Inner.insertMulti i from fun l i => by rw [List.foldl_map]]
    rw [foldl_multiSemis _ _ (show BMap.Sorted ([] : BMap (List Property)) from .nil)]
    simp [lineSemis, vsum, List.map_map, Function.comp_def]
  obtain ⟨h1, h2⟩ := vsum_ofList semis ((props.filter (fun p => !p.isMulti)).map (fun p => (p.name, p.toProperty)))
  have e : vsum semis ((props.filter (fun p => !p.isMulti)).map (fun p => (p.name, p.toProperty))) =
      ((props.filter (fun p => !p.isMulti)).map (fun q => semis q.toProperty)).sum := by
    simp [vsum, List.map_map, Function.comp_def]
  have hsum := sum_parted (fun p => p.isMulti) (fun q => semis q.toProperty) props
  obtain ⟨h3, h4⟩ := sum_le (f := fun q => semis q.toProperty) (g := readSemis) (fun q => (semis_toProperty q).1) props
  rw [hprops, hmulti]
  rw [e] at h1 h2
  refine ⟨by omega, fun he => ?_⟩
  intro q hq hne
  have hperm := (semis_toProperty q).2 (h4 (by omega) q hq)
  refine ⟨hperm, fun hm => ?_⟩
  rw [hprops]
  refine h2 (by omega) (q.name, q.toProperty) (List.mem_map.2 ⟨q, List.mem_filter.2 ⟨hq, by simp [hm]⟩, rfl⟩) ?_
  unfold semis
  rw [← msum_perm hperm]
  cases hp : q.params with
  | nil => exact absurd hp hne
  | cons x l =>
    have := pcount_pos x.toPair
    simp only [msum, List.map_cons, List.sum_cons]
    omega

mutual
theorem toOther_semis (c : PComp) : otherSemis c.toOther ≤ compSemis c ∧ (otherSemis c.toOther = compSemis c → Kept c) := by
  match c with
  | .mk n props comps =>
    have hc : (innerOfProps props (toOthers comps)).comps = toOthers comps := by
      unfold innerOfProps
      simp only [(foldl_insertMulti_rest _ _).2]
    rw [PComp.toOther]
    unfold Other.ofInner
    rw [hc]
    simp only [otherSemis, compSemis, Kept]
    obtain ⟨h1, h2⟩ := inner_semis props (toOthers comps)
    obtain ⟨h3, h4⟩ := toOthers_semis comps
    exact ⟨by omega, fun he => ⟨h2 (by omega), h4 (by omega)⟩⟩
theorem toOthers_semis (l : List PComp) : othersSemis (toOthers l) ≤ compsSemis l ∧
    (othersSemis (toOthers l) = compsSemis l → KeptAll l) := by
  match l with
  | [] => rw [toOthers]; exact ⟨Nat.le_refl _, fun _ => by simp only [KeptAll]⟩
  | c :: l =>
    rw [toOthers]
    simp only [othersSemis, compsSemis, KeptAll]
    obtain ⟨h1, h2⟩ := toOther_semis c
    obtain ⟨h3, h4⟩ := toOthers_semis l
    exact ⟨by omega, fun he => ⟨h2 (by omega), h4 (by omega)⟩⟩
end

variable [Uni]

/-! ### The text -/

theorem propIs_semis {q : PProp} {t f : Str} (h : PropIs q t f) : readSemis q ≤ t.count ';' := by
  obtain ⟨-, -, ⟨white, params, raw, br, -, hp, -, hv, rfl⟩ | ⟨hp, hv, -⟩⟩ := h
  · have h1 := paramsAre_count (d := ';') (by decide) (by decide) hp
    have h2 : q.val.count ';' ≤ raw.count ';' := by
      rw [hv]
      split
      · exact count_unescaped (by decide) (by decide) _
      · exact Nat.le_refl _
    unfold readSemis
    simp only [List.count_append, List.count_cons]
    omega
  · unfold readSemis
    rw [hp, hv]
    exact Nat.zero_le _

mutual
theorem compIs_semis {c : PComp} {t f : Str} : CompIs c t f → compSemis c ≤ t.count ';'
  | .mk _ _ _ _ _ hb _ _ _ => by
    have := bodyIs_semis hb
    simp only [compSemis, List.count_append]
    omega
theorem bodyIs_semis {props : List PProp} {comps : List PComp} {t f : Str} : BodyIs props comps t f →
    (props.map readSemis).sum + compsSemis comps ≤ t.count ';'
  | .nil => by simp [compsSemis]
  | .prop _ _ hp _ _ _ hr => by
    have h1 := propIs_semis hp
    have h2 := bodyIs_semis hr
    simp only [List.map_cons, List.sum_cons, List.count_append]
    omega
  | .stuck _ hp _ _ _ hr => by
    have h1 := propIs_semis hp
    have h2 := bodyIs_semis hr
    simp only [List.map_cons, List.sum_cons, List.count_append]
    omega
  | .comp hc hr => by
    have h1 := compIs_semis hc
    have h2 := bodyIs_semis hr
    simp only [compsSemis, List.count_append]
    omega
end

omit [Uni] in
theorem shrunkParams_semis {l l' : List (Str × Str)} (h : ShrunkParams l l') : msum (pcount ';') l' = msum (pcount ';') l := by
  induction l generalizing l' with
  | nil =>
    cases l' with
    | nil => rfl
    | cons => exact h.elim
  | cons x l ih =>
    cases l' with
    | nil => exact h.elim
    | cons y l' =>
      obtain ⟨h1, h2, h3⟩ := h
      have e : pcount ';' y = pcount ';' x := by
        unfold pcount
        simp only [List.count_append, count_quote (d := ';') (by decide), h1, shrunk_count (d := ';') (by simp [Space]) h2]
      have := ih h3
      simp only [msum, List.map_cons, List.sum_cons] at *
      rw [e, this]

theorem name_semis {k : Str} (h : IsName k) : k.count ';' = 0 :=
  List.count_eq_zero.2 (fun hc => nameChar_stops (by simp) (h _ hc))

theorem shrunkLine_semis {p : Property} {l l' : List (Str × Str)} {r u : Str} (hk : IsName p.key) (h : ShrunkLine p l l' r u) :
    u.count ';' = semis p := by
  obtain ⟨h1, h2, h3, rfl⟩ := h
  unfold semis
  simp only [List.count_append, List.count_cons, count_paramsText, shrunkParams_semis h2, msum_perm h1, name_semis hk,
    shrunk_count (d := ';') (by simp [Space]) h3, count_rawText]
  simp

theorem shrunkLines_semis {ps : List Property} {u : Str} (h : ShrunkLines ps u) (hk : ∀ p ∈ ps, IsName p.key) :
    u.count ';' = lineSemis ps := by
  induction h with
  | nil => rfl
  | cons h1 _ ih =>
    have := shrunkLine_semis (hk _ (by simp)) h1
    have := ih (fun p hp => hk p (by simp [hp]))
    simp only [List.count_append, lineSemis, List.map_cons, List.sum_cons] at *
    omega

omit [Uni] in
theorem genProps_semis {props : BMap Property} {k v : Str} (hv : ';' ∉ v) : lineSemis (genProps props k v) = 0 := by
  unfold genProps
  split
  · rfl
  · simp [lineSemis, semis, msum, List.count_eq_zero.2 hv]

omit [Uni] in
theorem written_keys {props : BMap Property} {multi : BMap (List Property)} {P : Str → Prop} (h1 : P c!"DTSTAMP")
    (h2 : P c!"UID") (h3 : ∀ x ∈ props, P x.2.key) (h4 : ∀ x ∈ multi, ∀ p ∈ x.2, P p.key) (a b : Str) :
    ∀ p ∈ writtenProps props multi a b, P p.key := by
  intro p hp
  unfold writtenProps genProps at hp
  simp only [List.mem_append] at hp
  rcases hp with ((hp | hp) | hp) | hp
  · split at hp
    · cases hp
    · rw [List.mem_singleton.1 hp]; exact h1
  · obtain ⟨x, hx, rfl⟩ := List.mem_map.1 hp
    exact h3 x hx
  · split at hp
    · cases hp
    · rw [List.mem_singleton.1 hp]; exact h2
  · obtain ⟨l, hl, hpl⟩ := List.mem_flatten.1 hp
    obtain ⟨x, hx, rfl⟩ := List.mem_map.1 hl
    exact h4 x hx p hpl

mutual
theorem shrunkOther_semis {o : Other} {u : Str} : ShrunkOther o u → Placed o → EachProp Named o → u.count ';' = otherSemis o
  | .mk (a := a) (b := b) hg hl hc, hp, hn => by
    obtain ⟨hname, -, -, -, -, hpc⟩ := hp
    obtain ⟨hs, hm, hn⟩ := hn
    have h1 := shrunkLines_semis hl (written_keys isName_dtstamp isName_uid (fun x hx => (hs x hx).1)
      (fun x hx p hp => (hm x hx p hp).1) a b)
    have h2 := shrunkOthers_semis hc hpc hn
    have ha : ';' ∉ a := fun hc => (stamp_chars hg _ (List.mem_append_left _ hc)).1 rfl
    have hb : ';' ∉ b := fun hc => (stamp_chars hg _ (List.mem_append_right _ hc)).1 rfl
    have h3 := name_semis hname
    unfold writtenProps at h1
    simp only [lineSemis_append, genProps_semis ha, genProps_semis hb, lineSemis_values, lineSemis_flatten] at h1
    simp only [List.count_append, otherSemis, h1, h2, h3]
    simp
theorem shrunkOthers_semis {l : List Other} {u : Str} : ShrunkOthers l u → PlacedAll l → EachProps Named l →
    u.count ';' = othersSemis l
  | .nil, _, _ => rfl
  | .cons h1 h2, hp, hn => by
    have := shrunkOther_semis h1 hp.1 hn.1
    have := shrunkOthers_semis h2 hp.2 hn.2
    simp only [List.count_append, othersSemis]
    omega
end

end Ical
