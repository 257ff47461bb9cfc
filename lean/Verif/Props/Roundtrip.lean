import Verif.Proofs.CalendarIO

/-!
C25, C26, C27: calendars survive being written and read.
-/

namespace Ical

open Nom Spec

variable [Uni]

/-! ### Without stamps -/

mutual
/-- what is read back, apart from what is generated -/
def Other.readAll : Other → Other
  | .mk name props multi comps => .mk name (readProps props) (readMulti multi) (readAlls comps)
/-- see `Other.readAll` -/
def readAlls : List Other → List Other
  | [] => []
  | o :: l => o.readAll :: readAlls l
end

theorem readProps_safe {m : BMap Property} (h : ∀ x ∈ m, ValueSafe x.2) : readProps m = m := by
  unfold readProps
  refine (List.map_congr_left ?_).trans (List.map_id m)
  intro x hx
  rw [readBack_eq (h x hx)]
  rfl

theorem readMulti_safe {m : BMap (List Property)} (h : ∀ x ∈ m, ∀ p ∈ x.2, ValueSafe p) : readMulti m = m := by
  unfold readMulti
  refine (List.map_congr_left ?_).trans (List.map_id m)
  intro x hx
  have : x.2.map Property.readBack = x.2 := by
    refine (List.map_congr_left ?_).trans (List.map_id x.2)
    intro p hp
    rw [readBack_eq (h x hx p hp)]
    rfl
  rw [this]
  rfl

mutual
theorem readAll_safe : (o : Other) → OtherSafe o → o.readAll = o
  | .mk _ _ _ comps, h => by
    unfold Other.readAll
    rw [readProps_safe h.1, readMulti_safe h.2.1, readAlls_safe comps h.2.2]
theorem readAlls_safe : (l : List Other) → OthersSafe l → readAlls l = l
  | [], _ => rfl
  | o :: l, h => by
    unfold readAlls
    rw [readAll_safe o h.1, readAlls_safe l h.2]
end

omit [Uni] in
theorem containsKey_iff {k : Str} {m : BMap Property} : m.containsKey k = true ↔ ∃ x ∈ m, x.1 = k := by
  unfold BMap.containsKey
  cases h : BMap.get k m with
  | none =>
    rw [BMap.get_none] at h
    simp only [Option.isSome_none, Bool.false_eq_true, false_iff, not_exists, not_and]
    exact fun x hx => h x hx
  | some v => simp only [Option.isSome_some, true_iff]; exact ⟨_, BMap.get_mem h, rfl⟩

omit [Uni] in
theorem addMissing_present {k v : Str} {m : BMap Property} (h : m.containsKey k = true) : addMissing k v m = m := by
  unfold addMissing
  rw [if_pos h]

theorem readProps_present {k : Str} {m : BMap Property} (h : ∃ x ∈ m, x.1 = k) :
    (readProps m).containsKey k = true := by
  rw [containsKey_readProps]
  exact containsKey_iff.2 h

mutual
theorem trip_stamped : (o : Other) → HasStamps o → (w : World) → o.trip w = o.readAll
  | .mk _ props _ comps, h, w => by
    unfold Other.trip Other.readAll
    rw [addMissing_present (readProps_present h.1), addMissing_present (readProps_present h.2.1),
      tripAll_stamped comps h.2.2]
theorem tripAll_stamped : (l : List Other) → HaveStamps l → (w : World) → tripAll l w = readAlls l
  | [], _, _ => rfl
  | o :: l, h, w => by
    unfold tripAll readAlls
    rw [trip_stamped o h.1, tripAll_stamped l h.2]
end

/-! ### C25 -/

/-- **C25.** A well-formed calendar whose components have DTSTAMP and UID is read back as it was, whatever the
order of hash maps, the clock and the UUIDs. -/
theorem calendar_roundtrip (c : Calendar) (hc : CalendarOk c) (hs : CalendarSafe c)
    (hst : ∀ x ∈ c.comps, HasStamps x.toOther) (w : World) (hw : World.Ok w) (out : Str)
    (h : c.fmtWrite w = .ok out) : Calendar.fromStr out = some c := by
  rw [calendar_read hc hw h]
  obtain ⟨props, comps⟩ := c
  unfold Calendar.trip
  have h1 : props.map Property.readBack = props := by
    refine (List.map_congr_left ?_).trans (List.map_id props)
    intro p hp
    rw [readBack_eq (hs.props p hp)]
    rfl
  have h2 : ∀ (l : List CalComp) (w : World), (∀ x ∈ l, OtherSafe x.toOther) → (∀ x ∈ l, HasStamps x.toOther) →
      compTrips l w = l := by
    intro l
    induction l with
    | nil => intros; rfl
    | cons x l ih =>
      intro w a b
      unfold compTrips
      rw [trip_stamped _ (b x (by simp)), readAll_safe _ (a x (by simp)), withContent_self,
        ih _ (fun y hy => a y (by simp [hy])) (fun y hy => b y (by simp [hy]))]
  simp only
  rw [h1, h2 comps _ hs.comps hst]

/-! ### C26 -/

omit [Uni] in
theorem mem_insert_iff {k : Str} {v : Property} {m : BMap Property} (h : BMap.get k m = none) (x : Str × Property) :
    x ∈ m.insert k v ↔ x = (k, v) ∨ x ∈ m := by
  rw [(insert_perm h).mem_iff, List.mem_cons]

omit [Uni] in
theorem addMissing_spec {k v : Str} {m : BMap Property} (h : InOrder m) :
    AddedIfMissing k ⟨k, v, []⟩ m (addMissing k v m) := by
  refine ⟨sorted_addMissing h, ?_⟩
  by_cases hk : m.containsKey k = true
  · rw [if_pos (containsKey_iff.1 hk), addMissing_present hk]
  · rw [if_neg (fun hc => hk (containsKey_iff.2 hc))]
    intro x
    unfold addMissing
    rw [if_neg hk]
    exact mem_insert_iff (containsKey_false hk) x

mutual
theorem trip_spec : (o : Other) → OtherOk o → OtherSafe o → (w : World) → World.Ok w → Stamped o (o.trip w)
  | .mk name props multi comps, ho, hs, w, hw => by
    unfold Other.trip
    rw [readProps_safe hs.1, readMulti_safe hs.2.1]
    exact .mk (hw.now []) (hw.uuid []) (addMissing_spec ho.2.1.inOrder)
      (addMissing_spec (sorted_addMissing ho.2.1.inOrder)) (tripAll_spec comps ho.2.2 hs.2.2 _ (worldOk_sub hw 2))
theorem tripAll_spec : (l : List Other) → OthersOk l → OthersSafe l → (w : World) → World.Ok w →
    StampedAll l (tripAll l w)
  | [], _, _, _, _ => .nil
  | o :: l, ho, hs, w, hw => by
    unfold tripAll
    exact .cons (trip_spec o ho.1 hs.1 _ (worldOk_sub hw 0)) (tripAll_spec l ho.2 hs.2 _ (worldOk_sub hw 1))
end

theorem trip_name (o : Other) (w : World) : (o.trip w).name = o.name := by
  obtain ⟨n, p, m, c⟩ := o
  unfold Other.trip
  rfl

omit [Uni] in
theorem sameKind_withContent (x : CalComp) (o : Other) : SameKind x (x.withContent o) := by
  cases x <;> trivial

theorem compTrips_get (l : List CalComp) (w : World) :
    (compTrips l w).length = l.length ∧
    ∀ (i : Nat) (x x' : CalComp), l[i]? = some x → (compTrips l w)[i]? = some x' →
      ∃ w', (World.Ok w → World.Ok w') ∧ x' = x.withContent (x.toOther.trip w') := by
  induction l generalizing w with
  | nil => exact ⟨rfl, by simp⟩
  | cons y l ih =>
    obtain ⟨h1, h2⟩ := ih (w.sub 1)
    refine ⟨by simp [compTrips, h1], ?_⟩
    intro i x x' hx hx'
    cases i with
    | zero =>
      simp only [List.getElem?_cons_zero, Option.some.injEq, compTrips] at hx hx'
      subst hx
      exact ⟨w.sub 0, fun hw => worldOk_sub hw 0, hx'.symm⟩
    | succ i =>
      simp only [List.getElem?_cons_succ, compTrips] at hx hx'
      obtain ⟨w', h3, h4⟩ := h2 i x x' hx hx'
      exact ⟨w', fun hw => h3 (worldOk_sub hw 1), h4⟩

/-- **C26.** A well-formed calendar is read back as it was, except that components without DTSTAMP or UID have
got a clock reading or a UUID there, at any depth. -/
theorem missing_stamps (c : Calendar) (hc : CalendarOk c) (hs : CalendarSafe c) (w : World) (hw : World.Ok w)
    (out : Str) (h : c.fmtWrite w = .ok out) :
    ∃ c', Calendar.fromStr out = some c' ∧ CalStamped c c' := by
  refine ⟨_, calendar_read hc hw h, ?_, ?_, ?_⟩
  · show c.props.map Property.readBack = c.props
    refine (List.map_congr_left ?_).trans (List.map_id _)
    intro p hp
    rw [readBack_eq (hs.props p hp)]
    rfl
  · exact (compTrips_get c.comps (w.sub 1)).1
  · intro i x x' hx hx'
    obtain ⟨w', h3, rfl⟩ := (compTrips_get c.comps (w.sub 1)).2 i x x' hx hx'
    have hm : x ∈ c.comps := List.mem_of_getElem? hx
    refine ⟨sameKind_withContent _ _, ?_⟩
    rw [withContent_toOther _ _ (trip_name _ _)]
    exact trip_spec _ (calCompOk_other (hc.comps x hm)) (hs.comps x hm) _ (h3 (worldOk_sub hw 1))

/-! ### C27 -/

theorem isText_readBack (p : Property) : IsText p.readBack ↔ IsText p := Iff.rfl

theorem readBack_ok {p : Property} (h : PropOk p) : PropOk p.readBack := by
  refine ⟨h.key, h.params, ?_⟩
  rcases h.value with hv | hv
  · exact .inl hv
  · by_cases ht : IsText p
    · exact .inl ht
    · right
      have : p.readBack.val = p.val := by
        unfold Property.readBack
        rw [if_neg (fun hc => ht ((isText_iff p).2 hc))]
      rw [this]
      exact hv

theorem gen_ok {k v : Str} (hk : KeyOk k) (hv : '\n' ∉ v) : PropOk ⟨k, v, []⟩ := by
  refine ⟨hk, ⟨List.Pairwise.nil, by simp, by simp⟩, .inr ⟨?_, markerFree_of_noLf hv⟩⟩
  exact fun hc => hv (hc.mem (by simp))

theorem addMissing_ok {k v : Str} {m : BMap Property} (hk : KeyOk k) (hv : '\n' ∉ v) (hr : k ∉ repeatable)
    (hm : ∀ x ∈ m, x.2.key = x.1 ∧ x.1 ∉ repeatable ∧ PropOk x.2) :
    ∀ x ∈ addMissing k v m, x.2.key = x.1 ∧ x.1 ∉ repeatable ∧ PropOk x.2 := by
  intro x hx
  unfold addMissing at hx
  split at hx
  · exact hm x hx
  · rcases BMap.mem_insert hx with h | h
    · subst h
      exact ⟨rfl, hr, gen_ok hk hv⟩
    · exact hm x h

theorem readProps_ok {m : BMap Property} (hm : ∀ x ∈ m, x.2.key = x.1 ∧ x.1 ∉ repeatable ∧ PropOk x.2) :
    ∀ x ∈ readProps m, x.2.key = x.1 ∧ x.1 ∉ repeatable ∧ PropOk x.2 := by
  intro x hx
  obtain ⟨y, hy, rfl⟩ := List.mem_map.1 hx
  exact ⟨(hm y hy).1, (hm y hy).2.1, readBack_ok (hm y hy).2.2⟩

theorem readMulti_ok {m : BMap (List Property)}
    (hm : ∀ x ∈ m, x.1 ∈ repeatable ∧ x.2 ≠ [] ∧ ∀ p ∈ x.2, p.key = x.1 ∧ PropOk p) :
    ∀ x ∈ readMulti m, x.1 ∈ repeatable ∧ x.2 ≠ [] ∧ ∀ p ∈ x.2, p.key = x.1 ∧ PropOk p := by
  intro x hx
  obtain ⟨y, hy, rfl⟩ := List.mem_map.1 hx
  obtain ⟨h1, h2, h3⟩ := hm y hy
  refine ⟨h1, by simpa using h2, ?_⟩
  intro p hp
  obtain ⟨q, hq, rfl⟩ := List.mem_map.1 hp
  exact ⟨(h3 q hq).1, readBack_ok (h3 q hq).2⟩

mutual
theorem trip_ok : (o : Other) → OtherOk o → (w : World) → World.Ok w → OtherOk (o.trip w)
  | .mk name props multi comps, ho, w, hw => by
    unfold Other.trip
    refine ⟨ho.1, ⟨sorted_addMissing (sorted_addMissing (sorted_readProps ho.2.1.inOrder)), ?_,
      sorted_readMulti ho.2.1.multiInOrder, readMulti_ok ho.2.1.multiple⟩, tripAll_ok comps ho.2.2 _ (worldOk_sub hw 2)⟩
    exact addMissing_ok keyOk_uid (uuid_not_mem hw (by decide) []) (by decide)
      (addMissing_ok keyOk_dtstamp (fmtUtc_not_mem _ (by decide) (by decide)) (by decide)
        (readProps_ok ho.2.1.single))
theorem tripAll_ok : (l : List Other) → OthersOk l → (w : World) → World.Ok w → OthersOk (tripAll l w)
  | [], _, _, _ => trivial
  | o :: l, ho, w, hw => by
    unfold tripAll
    exact ⟨trip_ok o ho.1 _ (worldOk_sub hw 0), tripAll_ok l ho.2 _ (worldOk_sub hw 1)⟩
end

omit [Uni] in
theorem containsKey_addMissing_self {k v : Str} {m : BMap Property} : (addMissing k v m).containsKey k = true := by
  unfold addMissing
  split
  · assumption
  · unfold BMap.containsKey
    rw [BMap.get_insert_self]
    rfl

mutual
theorem trip_hasStamps : (o : Other) → (w : World) → HasStamps (o.trip w)
  | .mk name props multi comps, w => by
    unfold Other.trip
    refine ⟨containsKey_iff.1 ?_, containsKey_iff.1 containsKey_addMissing_self, tripAll_haveStamps comps _⟩
    rw [containsKey_addMissing (by decide)]
    exact containsKey_addMissing_self
theorem tripAll_haveStamps : (l : List Other) → (w : World) → HaveStamps (tripAll l w)
  | [], _ => trivial
  | o :: l, w => by
    unfold tripAll
    exact ⟨trip_hasStamps o _, tripAll_haveStamps l _⟩
end

theorem calCompOk_trip {x : CalComp} (hx : CalCompOk x) {w : World} (hw : World.Ok w) :
    CalCompOk (x.withContent (x.toOther.trip w)) := by
  have h := trip_ok _ (calCompOk_other hx) w hw
  have hn := trip_name x.toOther w
  generalize x.toOther.trip w = o at h hn
  obtain ⟨n, p, m, c⟩ := o
  have hn : n = _ := hn
  cases x with
  | other o' =>
    obtain ⟨n', p', m', c'⟩ := o'
    refine ⟨h, ?_⟩
    have := hx.2
    subst hn
    exact this
  | _ => subst hn; exact h

theorem trip_comps_mem {c : Calendar} {w : World} (hw : World.Ok w) {x' : CalComp} (hx' : x' ∈ (c.trip w).comps) :
    ∃ x ∈ c.comps, ∃ w', World.Ok w' ∧ x' = x.withContent (x.toOther.trip w') := by
  obtain ⟨i, hi⟩ := List.mem_iff_getElem?.1 hx'
  have hl := (compTrips_get c.comps (w.sub 1)).1
  have hlt : i < c.comps.length := by
    rw [← hl]
    exact (List.getElem?_eq_some_iff.1 hi).1
  obtain ⟨w', h1, h2⟩ := (compTrips_get c.comps (w.sub 1)).2 i _ x' (List.getElem?_eq_getElem hlt) hi
  exact ⟨_, List.getElem_mem hlt, w', h1 (worldOk_sub hw 1), h2⟩

theorem calendar_trip_ok {c : Calendar} (hc : CalendarOk c) {w : World} (hw : World.Ok w) :
    CalendarOk (c.trip w) ∧ ∀ x ∈ (c.trip w).comps, HasStamps x.toOther := by
  refine ⟨⟨?_, ?_⟩, ?_⟩
  · intro p hp
    obtain ⟨q, hq, rfl⟩ := List.mem_map.1 hp
    exact readBack_ok (hc.props q hq)
  · intro x' hx'
    obtain ⟨x, hx, w', hw', rfl⟩ := trip_comps_mem hw hx'
    exact calCompOk_trip (hc.comps x hx) hw'
  · intro x' hx'
    obtain ⟨x, hx, w', hw', rfl⟩ := trip_comps_mem hw hx'
    rw [withContent_toOther _ _ (trip_name _ _)]
    exact trip_hasStamps _ _

theorem rewritten_eq {c c' : Calendar} (hc : CalendarOk c) (h : Rewritten c c') :
    ∃ w, World.Ok w ∧ c' = c.trip w := by
  obtain ⟨w, out, hw, h1, h2⟩ := h
  rw [calendar_read hc hw h1] at h2
  exact ⟨w, hw, (Option.some.inj h2).symm⟩

/-- what is read back for a calendar, apart from what is generated -/
def Calendar.readAll (c : Calendar) : Calendar :=
  { props := c.props.map Property.readBack, comps := c.comps.map (fun x => x.withContent x.toOther.readAll) }

theorem trip_readAll {c : Calendar} (hst : ∀ x ∈ c.comps, HasStamps x.toOther) (w : World) :
    c.trip w = c.readAll := by
  obtain ⟨props, comps⟩ := c
  unfold Calendar.trip Calendar.readAll
  simp only
  congr 1
  generalize w.sub 1 = w'
  simp only at hst
  induction comps generalizing w' with
  | nil => rfl
  | cons x l ih =>
    simp only [compTrips, List.map_cons]
    rw [trip_stamped _ (hst x (by simp)), ih (fun y hy => hst y (by simp [hy]))]

/-! Sizes: reading back never lengthens a value, and changes it only if it shortens it. -/

/-- total length of the values -/
def sizeProps (l : List Property) : Nat := (l.map (fun p => p.val.length)).sum

mutual
/-- total length of the values of a component -/
def Other.size : Other → Nat
  | .mk _ props multi comps => sizeProps props.values + sizeProps multi.values.flatten + sizes comps
/-- see `Other.size` -/
def sizes : List Other → Nat
  | [] => 0
  | o :: l => o.size + sizes l
end

theorem readBack_length (p : Property) :
    p.readBack.val.length ≤ p.val.length ∧ (p.readBack.val.length = p.val.length → p.readBack = p) := by
  by_cases ht : p.valueType = some .text
  · have e : p.readBack.val = rep2 'n' '\n' (rep2 'N' '\n' (rep2 ':' ':' p.val)) := by
      unfold Property.readBack
      rw [if_pos ht, unescape_escape_eq]
    have l1 := rep2_length_le ':' ':' p.val
    have l2 := rep2_length_le 'N' '\n' (rep2 ':' ':' p.val)
    have l3 := rep2_length_le 'n' '\n' (rep2 'N' '\n' (rep2 ':' ':' p.val))
    rw [e]
    refine ⟨by omega, ?_⟩
    intro hl
    have e1 : ¬ ['\\', ':'] <:+: p.val := fun hc => by have := rep2_length_lt (z := ':') hc; omega
    rw [rep2_of_not_infix e1] at hl l2 l3
    have e2 : ¬ ['\\', 'N'] <:+: p.val := fun hc => by have := rep2_length_lt (z := '\n') hc; omega
    rw [rep2_of_not_infix e2] at hl l3
    have e3 : ¬ ['\\', 'n'] <:+: p.val := fun hc => by have := rep2_length_lt (z := '\n') hc; omega
    exact readBack_eq (fun _ => ⟨e1, e3, e2⟩)
  · unfold Property.readBack
    rw [if_neg ht]
    exact ⟨Nat.le_refl _, fun _ => rfl⟩

theorem sizeProps_readBack (l : List Property) :
    sizeProps (l.map Property.readBack) ≤ sizeProps l ∧
    (sizeProps (l.map Property.readBack) = sizeProps l → l.map Property.readBack = l) := by
  induction l with
  | nil => exact ⟨Nat.le_refl _, fun _ => rfl⟩
  | cons p l ih =>
    have h := readBack_length p
    simp only [sizeProps, List.map_cons, List.sum_cons] at ih ⊢
    refine ⟨by omega, fun he => ?_⟩
    rw [h.2 (by omega), ih.2 (by omega)]

theorem values_readProps (m : BMap Property) : (readProps m).values = m.values.map Property.readBack := by
  unfold readProps BMap.values
  rw [List.map_map, List.map_map]
  rfl

theorem values_readMulti (m : BMap (List Property)) :
    (readMulti m).values.flatten = m.values.flatten.map Property.readBack := by
  unfold readMulti BMap.values
  rw [List.map_flatten, List.map_map, List.map_map]
  rfl

theorem readProps_id {m : BMap Property} (h : m.values.map Property.readBack = m.values) : readProps m = m := by
  induction m with
  | nil => rfl
  | cons x m ih =>
    simp only [BMap.values, List.map_cons, List.cons.injEq] at h ih
    have := ih h.2
    unfold readProps at this ⊢
    rw [List.map_cons, this, h.1]

theorem readMulti_id {m : BMap (List Property)} (h : m.values.flatten.map Property.readBack = m.values.flatten) :
    readMulti m = m := by
  induction m with
  | nil => rfl
  | cons x m ih =>
    simp only [BMap.values, List.map_cons, List.flatten_cons, List.map_append] at h ih
    have h' := List.append_inj h (by simp)
    have := ih h'.2
    unfold readMulti at this ⊢
    rw [List.map_cons, this, h'.1]

mutual
theorem size_readAll : (o : Other) → o.readAll.size ≤ o.size ∧ (o.readAll.size = o.size → o.readAll = o)
  | .mk name props multi comps => by
    have h1 := sizeProps_readBack props.values
    have h2 := sizeProps_readBack multi.values.flatten
    have h3 := sizes_readAlls comps
    unfold Other.readAll Other.size
    rw [values_readProps, values_readMulti]
    refine ⟨by omega, fun he => ?_⟩
    rw [readProps_id (h1.2 (by omega)), readMulti_id (h2.2 (by omega)), h3.2 (by omega)]
theorem sizes_readAlls : (l : List Other) → sizes (readAlls l) ≤ sizes l ∧ (sizes (readAlls l) = sizes l → readAlls l = l)
  | [] => ⟨Nat.le_refl _, fun _ => rfl⟩
  | o :: l => by
    have h1 := size_readAll o
    have h2 := sizes_readAlls l
    unfold readAlls sizes
    refine ⟨by omega, fun he => ?_⟩
    rw [h1.2 (by omega), h2.2 (by omega)]
end

/-- total length of the values of a calendar -/
def Calendar.size (c : Calendar) : Nat := sizeProps c.props + (c.comps.map (fun x => x.toOther.size)).sum

theorem readAll_name (o : Other) : o.readAll.name = o.name := by
  obtain ⟨n, p, m, c⟩ := o
  unfold Other.readAll
  rfl

theorem calendar_size (c : Calendar) :
    c.readAll.size ≤ c.size ∧ (c.readAll.size = c.size → c.readAll = c) := by
  obtain ⟨props, comps⟩ := c
  have h1 := sizeProps_readBack props
  have h2 : ∀ l : List CalComp,
      ((l.map (fun x => x.withContent x.toOther.readAll)).map (fun x => x.toOther.size)).sum ≤
        (l.map (fun x => x.toOther.size)).sum ∧
      (((l.map (fun x => x.withContent x.toOther.readAll)).map (fun x => x.toOther.size)).sum =
        (l.map (fun x => x.toOther.size)).sum → l.map (fun x => x.withContent x.toOther.readAll) = l) := by
    intro l
    induction l with
    | nil => exact ⟨Nat.le_refl _, fun _ => rfl⟩
    | cons x l ih =>
      simp only [List.map_cons, List.sum_cons]
      rw [withContent_toOther _ _ (readAll_name _)]
      have h := size_readAll x.toOther
      refine ⟨by omega, fun he => ?_⟩
      rw [h.2 (by omega), withContent_self, ih.2 (by omega)]
  have h2 := h2 comps
  unfold Calendar.readAll Calendar.size
  simp only
  refine ⟨by omega, fun he => ?_⟩
  rw [h1.2 (by omega), h2.2 (by omega)]

/-- a sequence of calendars, each read from what was written for the one before -/
def Chain (f : Nat → Calendar) : Prop := ∀ n, Rewritten (f n) (f (n + 1))

theorem chain_ok {f : Nat → Calendar} (hf : Chain f) (h0 : CalendarOk (f 0)) (n : Nat) :
    CalendarOk (f n) ∧ ∀ x ∈ (f (n + 1)).comps, HasStamps x.toOther := by
  induction n with
  | zero =>
    obtain ⟨w, hw, e⟩ := rewritten_eq h0 (hf 0)
    exact ⟨h0, by rw [e]; exact (calendar_trip_ok h0 hw).2⟩
  | succ n ih =>
    obtain ⟨w, hw, e⟩ := rewritten_eq ih.1 (hf n)
    have h1 : CalendarOk (f (n + 1)) := by rw [e]; exact (calendar_trip_ok ih.1 hw).1
    obtain ⟨w', hw', e'⟩ := rewritten_eq h1 (hf (n + 1))
    exact ⟨h1, by rw [e']; exact (calendar_trip_ok h1 hw').2⟩

theorem chain_readAll {f : Nat → Calendar} (hf : Chain f) (h0 : CalendarOk (f 0)) (n : Nat) :
    f (n + 2) = (f (n + 1)).readAll := by
  obtain ⟨w, -, e⟩ := rewritten_eq (chain_ok hf h0 (n + 1)).1 (hf (n + 1))
  rw [e, trip_readAll (chain_ok hf h0 n).2]

omit [Uni] in
theorem gen_safe {k v : Str} (hv : '\\' ∉ v) : ValueSafe ⟨k, v, []⟩ :=
  fun _ => ⟨fun hc => hv (hc.mem (by simp)), fun hc => hv (hc.mem (by simp)), fun hc => hv (hc.mem (by simp))⟩

omit [Uni] in
theorem addMissing_safe {k v : Str} {m : BMap Property} (hv : '\\' ∉ v) (hm : ∀ x ∈ m, ValueSafe x.2) :
    ∀ x ∈ addMissing k v m, ValueSafe x.2 := by
  intro x hx
  unfold addMissing at hx
  split at hx
  · exact hm x hx
  · rcases BMap.mem_insert hx with h | h
    · subst h
      exact gen_safe hv
    · exact hm x h

mutual
theorem trip_safe : (o : Other) → OtherSafe o → (w : World) → World.Ok w → OtherSafe (o.trip w)
  | .mk name props multi comps, hs, w, hw => by
    unfold Other.trip
    rw [readProps_safe hs.1, readMulti_safe hs.2.1]
    exact ⟨addMissing_safe (uuid_not_mem hw (by decide) [])
      (addMissing_safe (fmtUtc_not_mem _ (by decide) (by decide)) hs.1), hs.2.1, tripAll_safe comps hs.2.2 _ (worldOk_sub hw 2)⟩
theorem tripAll_safe : (l : List Other) → OthersSafe l → (w : World) → World.Ok w → OthersSafe (tripAll l w)
  | [], _, _, _ => trivial
  | o :: l, hs, w, hw => by
    unfold tripAll
    exact ⟨trip_safe o hs.1 _ (worldOk_sub hw 0), tripAll_safe l hs.2 _ (worldOk_sub hw 1)⟩
end

theorem readAll_of_safe {c : Calendar} (hs : CalendarSafe c) : c.readAll = c := by
  obtain ⟨props, comps⟩ := c
  unfold Calendar.readAll
  have h1 : props.map Property.readBack = props := by
    refine (List.map_congr_left ?_).trans (List.map_id props)
    intro p hp
    rw [readBack_eq (hs.props p hp)]
    rfl
  have h2 : comps.map (fun x => x.withContent x.toOther.readAll) = comps := by
    refine (List.map_congr_left ?_).trans (List.map_id comps)
    intro x hx
    rw [readAll_safe _ (hs.comps x hx), withContent_self]
    rfl
  simp only
  rw [h1, h2]

theorem calendar_trip_safe {c : Calendar} (hs : CalendarSafe c) {w : World} (hw : World.Ok w) :
    CalendarSafe (c.trip w) := by
  refine ⟨?_, ?_⟩
  · intro p hp
    obtain ⟨q, hq, rfl⟩ := List.mem_map.1 hp
    rw [readBack_eq (hs.props q hq)]
    exact hs.props q hq
  · intro x' hx'
    obtain ⟨x, hx, w', hw', rfl⟩ := trip_comps_mem hw hx'
    rw [withContent_toOther _ _ (trip_name _ _)]
    exact trip_safe _ (hs.comps x hx) _ hw'

/-- **C27.** A well-formed calendar whose texts survive (see C08): after the first time, writing and reading it
any number of times, each time with another clock, other UUIDs and other orders of hash maps, gives the same
calendar. -/
theorem reread_stable_partial (f : Nat → Calendar) (hf : Chain f) (h0 : CalendarOk (f 0)) (hs : CalendarSafe (f 0))
    (n : Nat) : f (n + 1) = f 1 := by
  have h1 : CalendarSafe (f 1) := by
    obtain ⟨w, hw, e⟩ := rewritten_eq h0 (hf 0)
    rw [e]
    exact calendar_trip_safe hs hw
  induction n with
  | zero => rfl
  | succ n ih => rw [chain_readAll hf h0 n, ih, readAll_of_safe h1]

omit [Uni] in
/-- a sequence of numbers that never grows stays the same in the end -/
theorem descent (g : Nat → Nat) (h : ∀ n, g (n + 1) ≤ g n) : ∃ k, k ≤ g 0 ∧ g (k + 1) = g k := by
  suffices H : ∀ m n, g n ≤ m → ∃ k, k ≤ n + m ∧ g (k + 1) = g k by
    obtain ⟨k, h1, h2⟩ := H (g 0) 0 (Nat.le_refl _)
    exact ⟨k, by omega, h2⟩
  intro m
  induction m with
  | zero => intro n hn; exact ⟨n, by omega, by have := h n; omega⟩
  | succ m ih =>
    intro n hn
    by_cases he : g (n + 1) = g n
    · exact ⟨n, by omega, he⟩
    · obtain ⟨k, h1, h2⟩ := ih (n + 1) (by have := h n; omega)
      exact ⟨k, by omega, h2⟩

/-- **C27.** Whatever its texts, a well-formed calendar becomes stable at the latest after as many iterations as
its values (after the first time) have characters. -/
theorem reread_eventually_stable (f : Nat → Calendar) (hf : Chain f) (h0 : CalendarOk (f 0)) :
    ∃ N, N ≤ (f 1).size + 1 ∧ ∀ n, N ≤ n → f n = f N := by
  obtain ⟨k, hk, he⟩ := descent (fun n => (f (n + 1)).size) (fun n => by
    rw [chain_readAll hf h0 n]
    exact (calendar_size _).1)
  rw [chain_readAll hf h0 k] at he
  have hfix := (calendar_size _).2 he
  have hk : k ≤ (f 1).size := hk
  refine ⟨k + 1, by omega, ?_⟩
  have key : ∀ j, f (k + 1 + j) = f (k + 1) := by
    intro j
    induction j with
    | zero => rfl
    | succ j ih =>
      have : f (k + 1 + (j + 1)) = (f (k + 1 + j)).readAll := by
        have := chain_readAll hf h0 (k + j)
        rw [show k + j + 2 = k + 1 + (j + 1) from by omega, show k + j + 1 = k + 1 + j from by omega] at this
        exact this
      rw [this, ih, hfix]
  intro n hn
  have := key (n - (k + 1))
  rwa [show k + 1 + (n - (k + 1)) = n from by omega] at this

omit [Uni] in
/-- **C27, what is missing.** A summary of two backslashes and a colon loses a backslash each time, so the
calendar read first is not the calendar read next. -/
theorem reread_stable_violated : ∃ c c1 c2 : Calendar, @CalendarOk Uni.ascii c ∧ @Rewritten Uni.ascii c c1 ∧
    @Rewritten Uni.ascii c1 c2 ∧ c1 ≠ c2 := by
  let w : World := ⟨fun _ => ⟨⟨⟨2026, 1, 1⟩, 0, 0, 0, 0⟩⟩, fun _ => c!"0-f", fun _ l => l⟩
  have hw : World.Ok w := by
    refine ⟨fun _ l => List.Perm.refl l, ?_, ?_⟩ <;> intro _ <;> dsimp only [w] <;> decide
  have hok : ∀ v, @CalendarOk Uni.ascii ⟨[⟨c!"SUMMARY", v, []⟩], []⟩ := by
    intro v
    refine @CalendarOk.mk Uni.ascii _ ?_ (by simp)
    intro p hp
    obtain rfl := List.mem_singleton.1 hp
    exact @PropOk.mk Uni.ascii _ (show @KeyOk Uni.ascii c!"SUMMARY" by decide +kernel)
      (show @ParamsOk Uni.ascii [] by decide +kernel) (.inl (show c!"SUMMARY" ∈ textNames by decide))
  have e : ∀ v v' out, @Calendar.fmtWrite Uni.ascii ⟨[⟨c!"SUMMARY", v, []⟩], []⟩ w = .ok out →
      @Property.readBack Uni.ascii ⟨c!"SUMMARY", v, []⟩ = ⟨c!"SUMMARY", v', []⟩ →
      @Rewritten Uni.ascii ⟨[⟨c!"SUMMARY", v, []⟩], []⟩ ⟨[⟨c!"SUMMARY", v', []⟩], []⟩ := by
    intro v v' out h1 h2
    refine ⟨w, out, hw, h1, ?_⟩
    rw [@calendar_read Uni.ascii _ (hok v) w hw out h1]
    simp [Calendar.trip, compTrips, h2]
  refine ⟨⟨[⟨c!"SUMMARY", c!"\\\\:", []⟩], []⟩, ⟨[⟨c!"SUMMARY", c!"\\:", []⟩], []⟩, ⟨[⟨c!"SUMMARY", c!":", []⟩], []⟩,
    hok _, e _ _ c!"BEGIN:VCALENDAR\r\nSUMMARY:\\\\\\\\:\r\nEND:VCALENDAR\r\n" (by decide +kernel) (by decide +kernel),
    e _ _ c!"BEGIN:VCALENDAR\r\nSUMMARY:\\\\:\r\nEND:VCALENDAR\r\n" (by decide +kernel) (by decide +kernel), by simp⟩

/-! ### An example -/

/-- a calendar with a typed and a generic component, nested ones, repeated properties and parameters -/
def exampleCal : Calendar :=
  { props := [⟨c!"VERSION", c!"2.0", []⟩, ⟨c!"DESCRIPTION", c!"a,b;c\nd", []⟩]
    comps := [
      .event ⟨⟨[(c!"DTSTART", ⟨c!"DTSTART", c!"20260101", [(c!"VALUE", c!"DATE")]⟩),
          (c!"SUMMARY", ⟨c!"SUMMARY", c!"x\\y", [(c!"ALTREP", c!"http://a;b"), (c!"LANGUAGE", c!"en")]⟩)],
        [(c!"ATTENDEE", [⟨c!"ATTENDEE", c!"mailto:a", [(c!"CN", c!"A")]⟩, ⟨c!"ATTENDEE", c!"mailto:b", []⟩]),
          (c!"COMMENT", [⟨c!"COMMENT", c!"1,2", []⟩])],
        [.mk c!"VALARM" [(c!"ACTION", ⟨c!"ACTION", c!"AUDIO", []⟩)] [] []]⟩⟩,
      .other (.mk c!"VJOURNAL" [(c!"DTSTAMP", ⟨c!"DTSTAMP", c!"20260101T000000Z", []⟩),
        (c!"UID", ⟨c!"UID", c!"u", []⟩)] [] [])] }

omit [Uni] in
theorem exampleCal_ok : @CalendarOk Uni.ascii exampleCal ∧ CalendarSafe exampleCal := by
  have hi : ∀ props multi, (InOrder props ∧ (∀ x ∈ props, x.2.key = x.1 ∧ x.1 ∉ repeatable ∧ @PropOk Uni.ascii x.2) ∧
      InOrder multi ∧ (∀ x ∈ multi, x.1 ∈ repeatable ∧ x.2 ≠ [] ∧ ∀ p ∈ x.2, p.key = x.1 ∧ @PropOk Uni.ascii p)) →
      @InnerOk Uni.ascii props multi := fun _ _ h => @InnerOk.mk Uni.ascii _ _ h.1 h.2.1 h.2.2.1 h.2.2.2
  constructor
  · refine @CalendarOk.mk Uni.ascii _ (by decide +kernel) ?_
    intro x hx
    simp only [exampleCal, List.mem_cons, List.not_mem_nil, or_false] at hx
    rcases hx with rfl | rfl
    · exact ⟨by decide +kernel, hi _ _ (by decide +kernel), ⟨by decide +kernel, hi _ _ (by decide +kernel), trivial⟩, trivial⟩
    · exact ⟨⟨by decide +kernel, hi _ _ (by decide +kernel), trivial⟩, by decide, by decide, by decide⟩
  · refine @CalendarSafe.mk _ (by decide +kernel) ?_
    intro x hx
    simp only [exampleCal, List.mem_cons, List.not_mem_nil, or_false] at hx
    rcases hx with rfl | rfl
    · exact ⟨by decide +kernel, by decide +kernel, ⟨by decide +kernel, by decide +kernel, trivial⟩, trivial⟩
    · exact ⟨by decide +kernel, by decide +kernel, trivial⟩

omit [Uni] in
/-- what is written for it -/
example : @Calendar.fmtWrite Uni.ascii exampleCal
    ⟨fun _ => ⟨⟨⟨2026, 1, 1⟩, 0, 0, 0, 0⟩⟩, fun _ => c!"0-f", fun _ l => l.reverse⟩ = .ok (
      c!"BEGIN:VCALENDAR\r\nVERSION:2.0\r\nDESCRIPTION:a\\,b\\;c\\Nd\r\n" ++
      c!"BEGIN:VEVENT\r\nDTSTAMP:20260101T000000Z\r\nDTSTART;VALUE=DATE:20260101\r\n" ++
      c!"SUMMARY;LANGUAGE=en;ALTREP=\"http://a;b\":x\\\\y\r\nUID:0-f\r\n" ++
      c!"ATTENDEE;CN=A:mailto:a\r\nATTENDEE:mailto:b\r\nCOMMENT:1\\,2\r\n" ++
      c!"BEGIN:VALARM\r\nDTSTAMP:20260101T000000Z\r\nACTION:AUDIO\r\nUID:0-f\r\nEND:VALARM\r\nEND:VEVENT\r\n" ++
      c!"BEGIN:VJOURNAL\r\nDTSTAMP:20260101T000000Z\r\nUID:u\r\nEND:VJOURNAL\r\nEND:VCALENDAR\r\n") := by
  decide +kernel

end Ical
