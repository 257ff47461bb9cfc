import Verif.Model.Map

/-!
Maps: lookups after insertion, sortedness, extensionality.
-/

namespace Ical

theorem strCmp_refl (s : Str) : strCmp s s = .eq := by
  induction s with
  | nil => rfl
  | cons c s ih => simp [strCmp, ih]

theorem char_eq_of_toNat {a b : Char} (h : a.toNat = b.toNat) : a = b :=
  Char.ext (UInt32.toNat_inj.1 (by simpa using h))

theorem strCmp_eq {s t : Str} : strCmp s t = .eq ↔ s = t := by
  constructor
  · intro h
    induction s generalizing t with
    | nil => cases t <;> simp [strCmp] at h ⊢
    | cons a s ih =>
      cases t with
      | nil => simp [strCmp] at h
      | cons b t =>
        simp only [strCmp] at h
        split at h
        · cases h
        · split at h
          · cases h
          · rw [ih h, char_eq_of_toNat (a := a) (b := b) (by omega)]
  · rintro rfl; exact strCmp_refl s

theorem strCmp_gt {s t : Str} : strCmp s t = .gt ↔ strCmp t s = .lt := by
  induction s generalizing t with
  | nil => cases t <;> simp [strCmp]
  | cons a s ih =>
    cases t with
    | nil => simp [strCmp]
    | cons b t =>
      simp only [strCmp]
      by_cases h1 : a.toNat < b.toNat
      · have h2 : ¬ b.toNat < a.toNat := by omega
        simp [h1, h2]
      · by_cases h2 : b.toNat < a.toNat
        · simp [h1, h2]
        · simp [h1, h2, ih]

theorem strCmp_trans {s t u : Str} (h1 : strCmp s t = .lt) (h2 : strCmp t u = .lt) : strCmp s u = .lt := by
  induction s generalizing t u with
  | nil =>
    cases t with
    | nil => simp [strCmp] at h1
    | cons b t => cases u <;> simp [strCmp] at h2 ⊢
  | cons a s ih =>
    cases t with
    | nil => simp [strCmp] at h1
    | cons b t =>
      cases u with
      | nil => simp [strCmp] at h2
      | cons c u =>
        simp only [strCmp] at h1 h2 ⊢
        by_cases k1 : a.toNat < b.toNat
        · by_cases k2 : b.toNat < c.toNat
          · simp [show a.toNat < c.toNat by omega]
          · simp only [k2, if_false] at h2
            split at h2
            · cases h2
            · simp [show a.toNat < c.toNat by omega]
        · simp only [k1, if_false] at h1
          split at h1
          · cases h1
          · by_cases k2 : b.toNat < c.toNat
            · simp [show a.toNat < c.toNat by omega]
            · simp only [k2, if_false] at h2
              split at h2
              · cases h2
              · simp [show ¬ a.toNat < c.toNat by omega, show ¬ c.toNat < a.toNat by omega, ih h1 h2]

theorem strCmp_irrefl {s : Str} : strCmp s s ≠ .lt := by rw [strCmp_refl]; simp

namespace BMap
variable {α : Type}

/-- keys in strictly increasing order -/
def Sorted (m : BMap α) : Prop := m.Pairwise (fun a b => strCmp a.1 b.1 = .lt)

theorem sorted_nil : Sorted ([] : BMap α) := List.Pairwise.nil

instance (m : BMap α) : Decidable (Sorted m) := by unfold Sorted; infer_instance

theorem get_insert (k : Str) (v : α) (m : BMap α) (j : Str) (h : Sorted m) :
    get j (insert k v m) = if j = k then some v else get j m := by
  induction m with
  | nil => simp [insert, get]
  | cons x m ih =>
    obtain ⟨k', v'⟩ := x
    obtain ⟨h1, h2⟩ := List.pairwise_cons.1 h
    simp only [insert]
    cases hc : strCmp k k' with
    | lt => simp [get]
    | eq =>
      rw [strCmp_eq] at hc
      subst hc
      simp only [get]
      split <;> simp_all
    | gt =>
      simp only [get, ih h2]
      by_cases hj : j = k'
      · have : j ≠ k := by
          rintro rfl
          rw [hj, strCmp_refl] at hc
          cases hc
        simp [hj]
        intro hk
        rw [hk, strCmp_refl] at hc
        cases hc
      · simp [hj]

/-- no hypothesis is needed for the inserted key -/
theorem get_insert_self (k : Str) (v : α) (m : BMap α) : get k (insert k v m) = some v := by
  induction m with
  | nil => simp [insert, get]
  | cons x m ih =>
    obtain ⟨k', v'⟩ := x
    simp only [insert]
    cases hc : strCmp k k' with
    | lt => simp [get]
    | eq => simp [get]
    | gt =>
      simp only [get, ih]
      rw [if_neg]
      rintro rfl
      rw [strCmp_refl] at hc
      cases hc

theorem get_insert_ne (k : Str) (v : α) (m : BMap α) {j : Str} (h : j ≠ k) :
    get j (insert k v m) = get j m := by
  induction m with
  | nil => simp [insert, get, h]
  | cons x m ih =>
    obtain ⟨k', v'⟩ := x
    simp only [insert]
    cases hc : strCmp k k' with
    | lt => simp [get, h]
    | eq =>
      rw [strCmp_eq] at hc
      subst hc
      simp [get, h]
    | gt => simp only [get, ih]

theorem mem_insert {k : Str} {v : α} {m : BMap α} {x : Str × α} (h : x ∈ insert k v m) :
    x = (k, v) ∨ x ∈ m := by
  induction m with
  | nil => simpa [insert] using h
  | cons y m ih =>
    obtain ⟨k', v'⟩ := y
    simp only [insert] at h
    cases hc : strCmp k k' with
    | lt => rw [hc] at h; simpa using h
    | eq =>
      rw [hc] at h
      rcases List.mem_cons.1 h with h | h
      · exact .inl h
      · exact .inr (List.mem_cons_of_mem _ h)
    | gt =>
      rw [hc] at h
      rcases List.mem_cons.1 h with h | h
      · exact .inr (by simp [h])
      · rcases ih h with h | h
        · exact .inl h
        · exact .inr (List.mem_cons_of_mem _ h)

theorem sorted_insert {k : Str} {v : α} {m : BMap α} (h : Sorted m) : Sorted (insert k v m) := by
  induction m with
  | nil => simp [insert, Sorted]
  | cons y m ih =>
    obtain ⟨k', v'⟩ := y
    obtain ⟨h1, h2⟩ := List.pairwise_cons.1 h
    simp only [insert]
    cases hc : strCmp k k' with
    | lt =>
      refine List.pairwise_cons.2 ⟨?_, h⟩
      intro z hz
      rcases List.mem_cons.1 hz with rfl | hz
      · exact hc
      · exact strCmp_trans hc (h1 z hz)
    | eq =>
      rw [strCmp_eq] at hc
      subst hc
      exact List.pairwise_cons.2 ⟨h1, h2⟩
    | gt =>
      refine List.pairwise_cons.2 ⟨?_, ih h2⟩
      intro z hz
      rcases mem_insert hz with rfl | hz
      · exact strCmp_gt.1 hc
      · exact h1 z hz

theorem sorted_foldl (l : List (Str × α)) (m : BMap α) (h : Sorted m) :
    Sorted (l.foldl (fun m kv => insert kv.1 kv.2 m) m) := by
  induction l generalizing m with
  | nil => exact h
  | cons x l ih => exact ih _ (sorted_insert h)

theorem sorted_ofList (l : List (Str × α)) : Sorted (ofList l) := sorted_foldl l [] sorted_nil

theorem get_mem {k : Str} {v : α} {m : BMap α} (h : get k m = some v) : (k, v) ∈ m := by
  induction m with
  | nil => simp [get] at h
  | cons y m ih =>
    obtain ⟨k', v'⟩ := y
    simp only [get] at h
    split at h
    · rename_i hk
      cases h
      simp [hk]
    · exact List.mem_cons_of_mem _ (ih h)

theorem get_of_mem {k : Str} {v : α} {m : BMap α} (hs : Sorted m) (h : (k, v) ∈ m) : get k m = some v := by
  induction m with
  | nil => simp at h
  | cons y m ih =>
    obtain ⟨k', v'⟩ := y
    obtain ⟨h1, h2⟩ := List.pairwise_cons.1 hs
    simp only [get]
    rcases List.mem_cons.1 h with hm | hm
    · cases hm; simp
    · rw [if_neg, ih h2 hm]
      rintro rfl
      have := h1 (k, v) hm
      exact strCmp_irrefl this

theorem get_none {k : Str} {m : BMap α} : get k m = none ↔ ∀ x ∈ m, x.1 ≠ k := by
  induction m with
  | nil => simp [get]
  | cons y m ih =>
    obtain ⟨k', v'⟩ := y
    simp only [get]
    split
    · rename_i hk
      simp [hk]
    · rename_i hk
      rw [ih]
      simp [Ne.symm hk]

/-- sorted maps with the same lookups are equal -/
theorem ext {m m' : BMap α} (h : Sorted m) (h' : Sorted m') (hg : ∀ k, get k m = get k m') : m = m' := by
  induction m generalizing m' with
  | nil =>
    cases m' with
    | nil => rfl
    | cons y m' =>
      have := hg y.1
      rw [get_of_mem h' (v := y.2) (by simp)] at this
      simp [get] at this
  | cons x m ih =>
    obtain ⟨k, v⟩ := x
    cases m' with
    | nil =>
      have := hg k
      simp [get] at this
    | cons y m' =>
      obtain ⟨k', v'⟩ := y
      obtain ⟨h1, h2⟩ := List.pairwise_cons.1 h
      obtain ⟨h1', h2'⟩ := List.pairwise_cons.1 h'
      have hk : k = k' := by
        by_cases hkk : k = k'
        · exact hkk
        exfalso
        have e1 := hg k
        have e2 := hg k'
        simp only [get, if_true, hkk, if_false] at e1
        simp only [get, if_true, Ne.symm hkk, if_false] at e2
        have m1 := h1' _ (get_mem e1.symm)
        have m2 := h1 _ (get_mem e2)
        simp only at m1 m2
        exact strCmp_irrefl (strCmp_trans m1 m2)
      subst hk
      have hv : v = v' := by
        have := hg k
        simpa [get] using this
      subst hv
      rw [ih h2 h2']
      intro j
      by_cases hj : j = k
      · subst hj
        have e1 : get j m = none := get_none.2 (fun x hx he => strCmp_irrefl (s := j) (by
          have := h1 x hx; simp only [he] at this; exact this))
        have e2 : get j m' = none := get_none.2 (fun x hx he => strCmp_irrefl (s := j) (by
          have := h1' x hx; simp only [he] at this; exact this))
        rw [e1, e2]
      · have := hg j
        simpa [get, hj] using this

/-- the value a list of pairs gives to a key: that of the last pair with the key -/
theorem get_foldl (l : List (Str × α)) (m : BMap α) (k : Str) :
    get k (l.foldl (fun m kv => insert kv.1 kv.2 m) m) =
      ((l.reverse.find? (fun x => x.1 == k)).map Prod.snd).or (get k m) := by
  induction l generalizing m with
  | nil => simp
  | cons x l ih =>
    rw [List.foldl_cons, ih, List.reverse_cons, List.find?_append]
    cases hf : l.reverse.find? (fun x => x.1 == k) with
    | some y => simp
    | none =>
      by_cases hk : x.1 = k
      · subst hk
        simp [get_insert_self]
      · simp [hk, get_insert_ne _ _ _ (Ne.symm hk)]

theorem get_ofList (l : List (Str × α)) (k : Str) :
    get k (ofList l) = (l.reverse.find? (fun x => x.1 == k)).map Prod.snd := by
  unfold ofList
  rw [get_foldl]
  simp [get]

theorem nodup_keys {m : BMap α} (h : Sorted m) : (m.map Prod.fst).Nodup := by
  unfold List.Nodup
  rw [List.pairwise_map]
  refine List.Pairwise.imp ?_ h
  intro a b hab he
  rw [he] at hab
  exact strCmp_irrefl hab

/-- a lookup by key in a list with distinct keys -/
theorem find_of_nodup {l : List (Str × α)} (h : (l.map Prod.fst).Nodup) {k : Str} {v : α}
    (hm : (k, v) ∈ l) : l.find? (fun x => x.1 == k) = some (k, v) := by
  induction l with
  | nil => simp at hm
  | cons y l ih =>
    simp only [List.map_cons, List.nodup_cons] at h
    rcases List.mem_cons.1 hm with rfl | hm
    · simp
    · have : y.1 ≠ k := by
        intro he
        apply h.1
        rw [he]
        exact List.mem_map.2 ⟨(k, v), hm, rfl⟩
      simp [this, ih h.2 hm]

/-- collecting the pairs of a map, in any order, gives the map -/
theorem ofList_perm {m : BMap α} (h : Sorted m) {l : List (Str × α)} (hp : l.Perm m) : ofList l = m := by
  refine ext (sorted_ofList l) h ?_
  intro k
  rw [get_ofList]
  have hnd : (l.reverse.map Prod.fst).Nodup :=
    (((List.reverse_perm l).trans hp).map Prod.fst).symm.nodup (nodup_keys h)
  cases hg : get k m with
  | some v =>
    have hm : (k, v) ∈ l.reverse := ((List.reverse_perm l).trans hp).mem_iff.2 (get_mem hg)
    rw [find_of_nodup hnd hm]
    rfl
  | none =>
    rw [get_none] at hg
    have : l.reverse.find? (fun x => x.1 == k) = none := by
      rw [List.find?_eq_none]
      intro x hx
      have := hg x (((List.reverse_perm l).trans hp).mem_iff.1 hx)
      simp [this]
    rw [this]
    rfl

theorem ofList_sorted {m : BMap α} (h : Sorted m) : ofList m = m := ofList_perm h (List.Perm.refl _)

/-- the first pair with a key, in any order of a map -/
theorem find_perm {m : BMap α} (h : Sorted m) {l : List (Str × α)} (hp : l.Perm m) (k : Str) :
    (l.find? (fun x => x.1 == k)).map Prod.snd = get k m := by
  have hnd : (l.map Prod.fst).Nodup := (hp.map Prod.fst).symm.nodup (nodup_keys h)
  cases hg : get k m with
  | some v =>
    rw [find_of_nodup hnd (hp.mem_iff.2 (get_mem hg))]
    rfl
  | none =>
    rw [get_none] at hg
    have : l.find? (fun x => x.1 == k) = none := by
      rw [List.find?_eq_none]
      intro x hx
      have := hg x (hp.mem_iff.1 hx)
      simp [this]
    rw [this]
    rfl

end BMap

theorem lookup_eq_get {α : Type} (k : Str) (m : BMap α) : List.lookup k m = BMap.get k m := by
  induction m with
  | nil => rfl
  | cons x m ih =>
    obtain ⟨a, b⟩ := x
    simp only [List.lookup, BMap.get]
    by_cases h : k = a
    · simp [h]
    · have : (k == a) = false := by simpa using h
      simp [this, h, ih]

end Ical
