import Verif.Model.Nom

/-!
Combinators: results are suffixes of the input, budgets do not matter, repetition equations.
-/

namespace Ical

/-- what is left after a successful parse is a suffix of the input -/
def Shrinks {α : Type} (p : P α) : Prop := ∀ i r a, p i = .ok r a → r <:+ i

namespace Nom
variable {α β γ : Type}

theorem shrinks_map {f : α → β} {p : P α} (h : Shrinks p) : Shrinks (map f p) := by
  intro i r a hr
  unfold map at hr
  split at hr
  · rename_i hp
    cases hr
    exact h _ _ _ hp
  · cases hr
  · cases hr

theorem shrinks_cut {p : P α} (h : Shrinks p) : Shrinks (cut p) := by
  intro i r a hr
  unfold cut at hr
  split at hr
  · simp at hr
  · exact h _ _ _ hr

theorem shrinks_opt {p : P α} (h : Shrinks p) : Shrinks (opt p) := by
  intro i r a hr
  unfold opt at hr
  split at hr
  · rename_i hp
    cases hr
    exact h _ _ _ hp
  · cases hr
    exact List.suffix_refl _
  · cases hr

theorem shrinks_alt {p q : P α} (hp : Shrinks p) (hq : Shrinks q) : Shrinks (alt p q) := by
  intro i r a hr
  unfold alt at hr
  split at hr
  · exact hq _ _ _ hr
  · exact hp _ _ _ hr

theorem shrinks_pair {p : P α} {q : P β} (hp : Shrinks p) (hq : Shrinks q) : Shrinks (pair p q) := by
  intro i r a hr
  unfold pair at hr
  split at hr
  · rename_i r1 a1 h1
    split at hr
    · rename_i r2 a2 h2
      cases hr
      exact (hq _ _ _ h2).trans (hp _ _ _ h1)
    · cases hr
    · cases hr
  · cases hr
  · cases hr

theorem shrinks_preceded {p : P α} {q : P β} (hp : Shrinks p) (hq : Shrinks q) : Shrinks (preceded p q) :=
  shrinks_map (shrinks_pair hp hq)

theorem shrinks_delimited {p : P α} {q : P β} {s : P γ} (hp : Shrinks p) (hq : Shrinks q) (hs : Shrinks s) :
    Shrinks (delimited p q s) :=
  shrinks_map (shrinks_pair hp (shrinks_pair hq hs))

theorem shrinks_separatedPair {p : P α} {q : P β} {s : P γ} (hp : Shrinks p) (hs : Shrinks s)
    (hq : Shrinks q) : Shrinks (separatedPair p s q) :=
  shrinks_map (shrinks_pair hp (shrinks_pair hs hq))

theorem shrinks_tag (t : Str) : Shrinks (tag t) := by
  intro i r a hr
  unfold tag at hr
  split at hr
  · cases hr; exact List.drop_suffix _ _
  · cases hr

theorem shrinks_tagNoCase (t : Str) : Shrinks (tagNoCase t) := by
  intro i r a hr
  unfold tagNoCase at hr
  split at hr
  · cases hr; exact List.drop_suffix _ _
  · cases hr

theorem shrinks_takeWhile (f : Char → Bool) : Shrinks (takeWhile f) := by
  intro i r a hr
  unfold takeWhile at hr
  cases hr
  exact List.dropWhile_suffix _

theorem shrinks_takeTill1 (f : Char → Bool) : Shrinks (takeTill1 f) := by
  intro i r a hr
  unfold takeTill1 at hr
  split at hr
  · cases hr
  · cases hr
    exact List.dropWhile_suffix _

theorem findSub_some {t i a b : Str} (h : findSub t i = some (a, b)) : i = a ++ b ∧ t <+: b := by
  induction i generalizing a b with
  | nil =>
    unfold findSub at h
    split at h
    · cases h; simp_all
    · cases h
  | cons c s ih =>
    unfold findSub at h
    split at h
    · cases h
      rename_i hp
      exact ⟨rfl, List.isPrefixOf_iff_prefix.1 hp⟩
    · split at h
      · rename_i a' b' h'
        cases h
        obtain ⟨h1, h2⟩ := ih h'
        exact ⟨by simp [h1], h2⟩
      · cases h

theorem shrinks_takeUntil (t : Str) : Shrinks (takeUntil t) := by
  intro i r a hr
  unfold takeUntil at hr
  split at hr
  · rename_i a' b' h
    cases hr
    exact ⟨a, (findSub_some h).1.symm⟩
  · cases hr

theorem shrinks_eof : Shrinks eof := by
  intro i r a hr
  unfold eof at hr
  split at hr
  · cases hr; exact List.nil_suffix
  · cases hr

theorem shrinks_lineEnding : Shrinks lineEnding := by
  intro i r a hr
  unfold lineEnding at hr
  split at hr
  · cases hr; exact List.suffix_cons _ _
  · cases hr; exact (List.suffix_cons _ _).trans (List.suffix_cons _ _)
  · cases hr

theorem shrinks_allConsuming {p : P α} (h : Shrinks p) : Shrinks (allConsuming p) := by
  intro i r a hr
  unfold allConsuming at hr
  split at hr
  · rename_i r' a' hp
    split at hr
    · cases hr; exact h _ _ _ hp
    · cases hr
  · exact h _ _ _ hr

/-! ### many0 -/

theorem shrinks_many0F {p : P α} (h : Shrinks p) (n : Nat) : ∀ i r a, many0F p n i = .ok r a → r <:+ i := by
  induction n with
  | zero => intro i r a hr; simp [many0F] at hr
  | succ n ih =>
    intro i r a hr
    unfold many0F at hr
    split at hr
    · cases hr; exact List.suffix_refl _
    · cases hr
    · rename_i r1 a1 h1
      split at hr
      · cases hr
      · split at hr
        · rename_i r2 a2 h2
          cases hr
          exact (ih _ _ _ h2).trans (h _ _ _ h1)
        · cases hr
        · cases hr

theorem shrinks_many0 {p : P α} (h : Shrinks p) : Shrinks (many0 p) := fun i r a hr =>
  shrinks_many0F h _ i r a hr

theorem many0F_budget {p : P α} (h : Shrinks p) (n : Nat) : ∀ m i, i.length < n → i.length < m →
    many0F p n i = many0F p m i := by
  induction n with
  | zero => intro m i hn; omega
  | succ n ih =>
    intro m i hn hm
    cases m with
    | zero => omega
    | succ m =>
      unfold many0F
      split
      · rfl
      · rfl
      · rename_i r a hp
        split
        · rfl
        · rename_i hne
          have := (h _ _ _ hp).length_le
          rw [ih m r (by omega) (by omega)]

/-- the equation of `many0` -/
theorem many0_eq {p : P α} (h : Shrinks p) (i : Str) :
    many0 p i = match p i with
      | .error => .ok i []
      | .failure => .failure
      | .ok r a =>
        if r.length = i.length then .error
        else match many0 p r with
          | .ok r' l => .ok r' (a :: l)
          | .error => .error
          | .failure => .failure := by
  conv => lhs; unfold many0 many0F
  cases hp : p i with
  | error => rfl
  | failure => rfl
  | ok r a =>
    simp only
    split
    · rfl
    · rename_i hne
      have := (h _ _ _ hp).length_le
      rw [many0F_budget h i.length (r.length + 1) r (by omega) (by omega)]
      rfl

theorem many0_error {p : P α} {i : Str} (he : p i = .error) : many0 p i = .ok i [] := by
  unfold many0 many0F
  rw [he]

theorem many0_failure {p : P α} {i : Str} (he : p i = .failure) : many0 p i = .failure := by
  unfold many0 many0F
  rw [he]

theorem many0_ok {p : P α} (h : Shrinks p) {i r r' : Str} {a : α} {l : List α} (hp : p i = .ok r a)
    (hl : r.length < i.length) (hm : many0 p r = .ok r' l) : many0 p i = .ok r' (a :: l) := by
  rw [many0_eq h, hp]
  simp only
  rw [if_neg (by omega), hm]

/-! ### many_till -/

theorem shrinks_manyTillF {f : P α} {g : P β} (hf : Shrinks f) (hg : Shrinks g) (n : Nat) :
    ∀ i r a, manyTillF f g n i = .ok r a → r <:+ i := by
  induction n with
  | zero => intro i r a hr; simp [manyTillF] at hr
  | succ n ih =>
    intro i r a hr
    unfold manyTillF at hr
    split at hr
    · rename_i hgi
      cases hr; exact hg _ _ _ hgi
    · cases hr
    · split at hr
      · cases hr
      · cases hr
      · rename_i r1 a1 h1
        split at hr
        · cases hr
        · cases h3 : manyTillF f g n r1 with
          | ok r2 x =>
            rw [h3] at hr
            cases hr
            exact (ih _ _ _ h3).trans (hf _ _ _ h1)
          | error => rw [h3] at hr; cases hr
          | failure => rw [h3] at hr; cases hr

theorem shrinks_manyTill {f : P α} {g : P β} (hf : Shrinks f) (hg : Shrinks g) : Shrinks (manyTill f g) :=
  fun i r a hr => shrinks_manyTillF hf hg _ i r a hr

theorem manyTillF_budget {f : P α} {g : P β} (hf : Shrinks f) (n : Nat) : ∀ m i, i.length < n →
    i.length < m → manyTillF f g n i = manyTillF f g m i := by
  induction n with
  | zero => intro m i hn; omega
  | succ n ih =>
    intro m i hn hm
    cases m with
    | zero => omega
    | succ m =>
      unfold manyTillF
      split
      · rfl
      · rfl
      · split
        · rfl
        · rfl
        · rename_i r a hp
          split
          · rfl
          · rename_i hne
            have := (hf _ _ _ hp).length_le
            rw [ih m r (by omega) (by omega)]

/-- the equation of `many_till` -/
theorem manyTill_eq {f : P α} {g : P β} (hf : Shrinks f) (i : Str) :
    manyTill f g i = match g i with
      | .ok r b => .ok r ([], b)
      | .failure => .failure
      | .error =>
        match f i with
        | .error => .error
        | .failure => .failure
        | .ok r a =>
          if r.length = i.length then .error
          else match manyTill f g r with
            | .ok r' (l, b) => .ok r' (a :: l, b)
            | .error => .error
            | .failure => .failure := by
  conv => lhs; unfold manyTill manyTillF
  cases hg : g i with
  | ok r b => rfl
  | failure => rfl
  | error =>
    simp only
    cases hp : f i with
    | error => rfl
    | failure => rfl
    | ok r a =>
      simp only
      split
      · rfl
      · rename_i hne
        have := (hf _ _ _ hp).length_le
        rw [manyTillF_budget hf i.length (r.length + 1) r (by omega) (by omega)]
        rfl

theorem manyTill_stop {f : P α} {g : P β} {i r : Str} {b : β} (hg : g i = .ok r b) :
    manyTill f g i = .ok r ([], b) := by
  unfold manyTill manyTillF
  rw [hg]

theorem manyTill_ok {f : P α} {g : P β} (hf : Shrinks f) {i r r' : Str} {a : α} {l : List α} {b : β}
    (hg : g i = .error) (hp : f i = .ok r a) (hl : r.length < i.length)
    (hm : manyTill f g r = .ok r' (l, b)) : manyTill f g i = .ok r' (a :: l, b) := by
  rw [manyTill_eq hf, hg, hp]
  simp only
  rw [if_neg (by omega), hm]

/-- `many_till` only looks at its element parser on inputs no longer than the given one -/
theorem manyTillF_congr {f f' : P α} {g : P β} (hf : Shrinks f) (n : Nat) : ∀ i,
    (∀ j, j.length ≤ i.length → f j = f' j) → manyTillF f g n i = manyTillF f' g n i := by
  induction n with
  | zero => intro i _; rfl
  | succ n ih =>
    intro i h
    unfold manyTillF
    rw [← h i (Nat.le_refl _)]
    split
    · rfl
    · rfl
    · split
      · rfl
      · rfl
      · rename_i r a hp
        have := (hf _ _ _ hp).length_le
        rw [ih r (fun j hj => h j (by omega))]

theorem manyTill_congr {f f' : P α} {g : P β} (hf : Shrinks f) {i : Str}
    (h : ∀ j, j.length ≤ i.length → f j = f' j) : manyTill f g i = manyTill f' g i :=
  manyTillF_congr hf _ i h

end Nom

end Ical
