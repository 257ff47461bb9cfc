import Verif.Model.Fold
import Verif.Spec.Lines

/-!
`unfold` equals the single-pass specification.
-/

namespace Ical

open Spec

theorem splitGo_skip (pat : Str) (k : Nat) (s : Str) :
    splitGo pat k s = splitGo pat 0 (s.drop k) := by
  induction k generalizing s with
  | zero => simp
  | succ k ih =>
    cases s with
    | nil => simp [splitGo]
    | cons c s => simp [splitGo, ih]

theorem splitOn_ne_nil (pat s : Str) : splitOn pat s ≠ [] := by
  unfold splitOn
  induction s with
  | nil => simp [splitGo]
  | cons c s ih =>
    simp only [splitGo]
    split
    · simp
    · split <;> simp

/-- Either the pattern does not occur, or the first piece ends at its first occurrence. -/
theorem splitOn_cases (pat : Str) (hp : pat ≠ []) (s : Str) :
    (splitOn pat s = [s] ∧ ¬ pat <:+: s) ∨
    ∃ a t, s = a ++ pat ++ t ∧ splitOn pat s = a :: splitOn pat t ∧ ¬ pat <:+: a := by
  induction s with
  | nil => left; simp [splitOn, splitGo, hp]
  | cons c s ih =>
    unfold splitOn at *
    simp only [splitGo]
    by_cases h : pat.isPrefixOf (c :: s) = true
    · right
      rw [if_pos h]
      obtain ⟨t, ht⟩ := List.isPrefixOf_iff_prefix.1 h
      refine ⟨[], t, by simp [ht], ?_, by simp [hp]⟩
      rw [splitGo_skip]
      congr 2
      cases pat with
      | nil => exact absurd rfl hp
      | cons x pat =>
        simp only [List.cons_append, List.cons.injEq] at ht
        simp [← ht.2]
    · rw [if_neg h]
      have h' : ¬ pat <+: c :: s := fun hh => h (List.isPrefixOf_iff_prefix.2 hh)
      rcases ih with ⟨h1, h2⟩ | ⟨a, t, h1, h2, h3⟩
      · left
        rw [h1]
        refine ⟨rfl, ?_⟩
        rw [List.infix_cons_iff]
        rintro (h | h)
        · exact h' h
        · exact h2 h
      · right
        rw [h2]
        refine ⟨c :: a, t, by simp [h1], rfl, ?_⟩
        rw [List.infix_cons_iff]
        rintro (h | h)
        · apply h'
          rw [h1]
          exact h.trans ⟨pat ++ t, by simp⟩
        · exact h3 h

/-- unfolding steps over a character that starts no marker -/
theorem unfoldSpec_cons (c : Char) (s : Str)
    (h : ∀ m : Marker, ¬ m.text <+: c :: s) : unfoldSpec (c :: s) = c :: unfoldSpec s := by
  rw [unfoldSpec.eq_6]
  all_goals
    intro t
    intros
    subst_vars
    try first
      | exact h .crlfSp ⟨t, rfl⟩
      | exact h .crlfTab ⟨t, rfl⟩
      | exact h .lfSp ⟨t, rfl⟩
      | exact h .lfTab ⟨t, rfl⟩

theorem unfoldSpec_marker (m : Marker) (t : Str) : unfoldSpec (m.text ++ t) = unfoldSpec t := by
  cases m <;> simp [Marker.text, unfoldSpec]

theorem not_prefix_of_pattern {c : Char} {s : Str}
    (h1 : ∀ t, c = '\r' → s = '\n' :: ' ' :: t → False)
    (h2 : ∀ t, c = '\r' → s = '\n' :: '\t' :: t → False)
    (h3 : ∀ t, c = '\n' → s = ' ' :: t → False)
    (h4 : ∀ t, c = '\n' → s = '\t' :: t → False) (m : Marker) : ¬ m.text <+: c :: s := by
  rintro ⟨t, ht⟩
  cases m <;> simp only [Marker.text, List.cons_append, List.nil_append, List.cons.injEq] at ht
  · exact h1 t ht.1.symm ht.2.symm
  · exact h2 t ht.1.symm ht.2.symm
  · exact h3 t ht.1.symm ht.2.symm
  · exact h4 t ht.1.symm ht.2.symm

theorem unfoldSpec_append_marker (p : Str) (m : Marker) (t : Str)
    (h : m.isLf = true → ¬ ['\r'] <:+ p) :
    unfoldSpec (p ++ (m.text ++ t)) = unfoldSpec p ++ unfoldSpec t := by
  have suff : ∀ (a b : Str), ¬ ['\r'] <:+ a ++ b → ¬ ['\r'] <:+ b := by
    intro a b h h'
    exact h (h'.trans ⟨a, rfl⟩)
  fun_induction unfoldSpec p with
  | case1 => simp [unfoldSpec_marker]
  | case2 s ih =>
    have := ih (fun hm => suff ['\r', '\n', ' '] s (h hm))
    simpa [unfoldSpec] using this
  | case3 s ih =>
    have := ih (fun hm => suff ['\r', '\n', '\t'] s (h hm))
    simpa [unfoldSpec] using this
  | case4 s ih =>
    have := ih (fun hm => suff ['\n', ' '] s (h hm))
    simpa [unfoldSpec] using this
  | case5 s ih =>
    have := ih (fun hm => suff ['\n', '\t'] s (h hm))
    simpa [unfoldSpec] using this
  | case6 c s h1 h2 h3 h4 ih =>
    have ih := ih (fun hm => suff [c] s (h hm))
    rw [List.cons_append, unfoldSpec_cons, ih]
    · simp
    · intro m' hm'
      obtain ⟨u, hu⟩ := hm'
      have h0 : m.isLf = true → ∀ x, x ++ ['\r'] ≠ c :: s := fun hm x hx => h hm ⟨x, hx⟩
      rcases s with _ | ⟨d, _ | ⟨e, s⟩⟩
      · have h0 := fun hm => h0 hm []
        cases m' <;> cases m <;> simp [Marker.text, Marker.isLf] at hu h0 <;>
          first
          | exact h0 hu.1
          | exact h0 hu
      · cases m' <;> cases m <;> simp [Marker.text] at hu <;>
          first
          | exact h3 [] hu.1.symm (by rw [hu.2.1])
          | exact h4 [] hu.1.symm (by rw [hu.2.1])
      · cases m' <;> simp [Marker.text] at hu
        · exact h1 s hu.1.symm (by rw [hu.2.1, hu.2.2.1])
        · exact h2 s hu.1.symm (by rw [hu.2.1, hu.2.2.1])
        · exact h3 (e :: s) hu.1.symm (by rw [hu.2.1])
        · exact h4 (e :: s) hu.1.symm (by rw [hu.2.1])

theorem unfoldSpec_markerFree (p : Str) (h : MarkerFree p) : unfoldSpec p = p := by
  have inf : ∀ (a b x : Str), ¬ x <:+: a ++ b → ¬ x <:+: b := fun a b x h h' =>
    h (h'.trans ⟨a, [], by simp⟩)
  fun_induction unfoldSpec p with
  | case1 => rfl
  | case2 s ih => exact absurd ⟨['\r'], s, rfl⟩ h.1
  | case3 s ih => exact absurd ⟨['\r'], s, rfl⟩ h.2
  | case4 s ih => exact absurd ⟨[], s, rfl⟩ h.1
  | case5 s ih => exact absurd ⟨[], s, rfl⟩ h.2
  | case6 c s h1 h2 h3 h4 ih =>
    rw [ih ⟨inf [c] s _ h.1, inf [c] s _ h.2⟩]

/-- splitting at one marker, given that the pieces are read correctly -/
theorem unfold_level (m : Marker) (L : List Str) (U : Str → Str)
    (hU : ∀ p, (∀ x ∈ L, ¬ x <:+: p) → ¬ m.text <:+: p → U p = unfoldSpec p)
    (hcr : m.isLf = true → ('\r' :: m.text) ∈ L) :
    ∀ (n : Nat) (s : Str), s.length ≤ n → (∀ x ∈ L, ¬ x <:+: s) →
      ((splitOn m.text s).map U).flatten = unfoldSpec s := by
  have hne : m.text ≠ [] := by cases m <;> simp [Marker.text]
  intro n
  induction n with
  | zero =>
    intro s hs hL
    obtain rfl : s = [] := List.length_eq_zero_iff.1 (Nat.le_zero.1 hs)
    have := hU [] hL (by simp [hne])
    simp [splitOn, splitGo, this]
  | succ n ih =>
    intro s hs hL
    rcases splitOn_cases m.text hne s with ⟨h1, h2⟩ | ⟨a, t, h1, h2, h3⟩
    · rw [h1]
      simp [hU s hL h2]
    · have hlen : t.length ≤ n := by
        have : 0 < m.text.length := List.length_pos_iff.2 hne
        have := congrArg List.length h1
        simp only [List.length_append] at this
        omega
      have ha : ∀ x ∈ L, ¬ x <:+: a := fun x hx hi =>
        hL x hx (hi.trans ⟨[], m.text ++ t, by simp [h1]⟩)
      have ht : ∀ x ∈ L, ¬ x <:+: t := fun x hx hi =>
        hL x hx (hi.trans ⟨a ++ m.text, [], by simp [h1]⟩)
      rw [h2, List.map_cons, List.flatten_cons, ih t hlen ht, hU a ha h3, h1, List.append_assoc,
        unfoldSpec_append_marker]
      rintro hm ⟨b, hb⟩
      exact hL _ (hcr hm) ⟨b, t, by simp [h1, ← hb]⟩

/-- `unfold` makes exactly one left-to-right pass removing markers -/
theorem unfold_eq_spec (s : Str) : unfold s = unfoldSpec s := by
  have aux : ∀ (l : List Str) (f g : Str → List Str),
      ((l.flatMap f).flatMap g).flatten = (l.map fun x => ((f x).flatMap g).flatten).flatten := by
    intro l f g
    induction l with
    | nil => rfl
    | cons a l ih => simp only [List.flatMap_cons, List.flatMap_append, List.flatten_append, ih,
        List.map_cons, List.flatten_cons]
  have h4 : ∀ p, (∀ x ∈ [Marker.crlfSp.text, Marker.lfSp.text, Marker.crlfTab.text], ¬ x <:+: p) →
      (splitOn ['\n', '\t'] p).flatten = unfoldSpec p := by
    intro p hp
    have := unfold_level .lfTab [Marker.crlfSp.text, Marker.lfSp.text, Marker.crlfTab.text] id
      (fun q hq hq' => by
        simp only [List.mem_cons, List.not_mem_nil, or_false, forall_eq_or_imp, forall_eq] at hq
        rw [unfoldSpec_markerFree q ⟨hq.2.1, hq'⟩]; rfl)
      (fun _ => by simp [Marker.text]) p.length p (Nat.le_refl _) hp
    simpa [Marker.text] using this
  have h3 : ∀ p, (∀ x ∈ [Marker.crlfSp.text, Marker.lfSp.text], ¬ x <:+: p) →
      ((splitOn ['\r', '\n', '\t'] p).flatMap (splitOn ['\n', '\t'])).flatten = unfoldSpec p := by
    intro p hp
    have := unfold_level .crlfTab [Marker.crlfSp.text, Marker.lfSp.text]
      (fun q => (splitOn ['\n', '\t'] q).flatten)
      (fun q hq hq' => h4 q (by simp only [List.mem_cons, List.not_mem_nil, or_false, forall_eq_or_imp, forall_eq] at *; simp [*]))
      (fun h => by simp [Marker.isLf] at h) p.length p (Nat.le_refl _) hp
    rw [← this, List.flatMap_def, List.flatten_flatten, List.map_map]
    rfl
  have h2 : ∀ p, (∀ x ∈ [Marker.crlfSp.text], ¬ x <:+: p) →
      (((splitOn ['\n', ' '] p).flatMap (splitOn ['\r', '\n', '\t'])).flatMap
        (splitOn ['\n', '\t'])).flatten = unfoldSpec p := by
    intro p hp
    have := unfold_level .lfSp [Marker.crlfSp.text]
      (fun p => ((splitOn ['\r', '\n', '\t'] p).flatMap (splitOn ['\n', '\t'])).flatten)
      (fun q hq hq' => h3 q (by simp only [List.mem_cons, List.not_mem_nil, or_false, forall_eq_or_imp, forall_eq] at *; simp [*]))
      (fun h => by simp [Marker.text]) p.length p (Nat.le_refl _) hp
    rw [← this]
    exact aux _ _ _
  have := unfold_level .crlfSp []
      (fun p => (((splitOn ['\n', ' '] p).flatMap (splitOn ['\r', '\n', '\t'])).flatMap
        (splitOn ['\n', '\t'])).flatten)
      (fun q hq hq' => h2 q (by simpa using hq'))
      (fun h => by simp [Marker.isLf] at h) s.length s (Nat.le_refl _) (by simp)
  rw [← this]
  unfold Ical.unfold
  show ((((splitOn ['\r', '\n', ' '] s).flatMap _).flatMap _).flatMap _).flatten =
    ((splitOn ['\r', '\n', ' '] s).map _).flatten
  induction splitOn ['\r', '\n', ' '] s with
  | nil => rfl
  | cons a l ih => simp only [List.flatMap_cons, List.flatMap_append, List.flatten_append, ih,
      List.map_cons, List.flatten_cons]

/-- removing the markers from a text that was cut into marker-free pieces -/
theorem unfoldSpec_joinMarked (p : Str) (rest : List (Marker × Str)) (hp : MarkerFree p)
    (hr : ∀ mp ∈ rest, MarkerFree mp.2) (hc : CrSafe p rest) :
    unfoldSpec (joinMarked p rest) = unmarked p rest := by
  induction rest generalizing p with
  | nil => simp [joinMarked, unmarked, unfoldSpec_markerFree p hp]
  | cons mq rest ih =>
    obtain ⟨m, q⟩ := mq
    have := ih q (hr (m, q) (by simp)) (fun mp h => hr mp (by simp [h])) hc.2
    simp only [joinMarked, unmarked, List.map_cons, List.flatten_cons] at *
    rw [List.append_assoc m.text, unfoldSpec_append_marker p m _ hc.1, this, unfoldSpec_markerFree p hp]

end Ical
