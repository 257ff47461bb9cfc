import Verif.Spec.Durations
import Verif.Props.Rfc
import Verif.Proofs.Strict

/-!
C111: durations are written exactly.
-/

namespace Ical

open Spec

/-! ### Digits -/

theorem foldl_zeros (k : Nat) (s : Str) (n : Nat) (hn : n = 0) :
    (List.replicate k '0' ++ s).foldl (fun n c => 10 * n + (c.toNat - '0'.toNat)) n =
      s.foldl (fun n c => 10 * n + (c.toNat - '0'.toNat)) n := by
  induction k generalizing n with
  | zero => rfl
  | succ k ih =>
    subst hn
    rw [List.replicate_succ, List.cons_append, List.foldl_cons]
    exact ih _ rfl

theorem natToStr_length {k n : Nat} (h : n < 10 ^ (k + 1)) : (natToStr n).length ≤ k + 1 := by
  induction k generalizing n with
  | zero => rw [natToStr_small (by omega)]; simp
  | succ k ih =>
    by_cases hn : n < 10
    · rw [natToStr_small hn]; simp
    · rw [natToStr_big (by omega), List.length_append]
      have := ih (n := n / 10) (by rw [Nat.pow_succ] at h; omega)
      simp only [List.length_cons, List.length_nil]
      omega

theorem natToStr_head (n : Nat) : (natToStr n).head? = some '0' → natToStr n = ['0'] := by
  induction n using Nat.strongRecOn with
  | ind n ih =>
    by_cases h : n < 10
    · rw [natToStr_small h]
      simp
    · rw [natToStr_big (by omega), List.head?_append]
      intro hh
      have hh : (natToStr (n / 10)).head? = some '0' := by
        cases hc : natToStr (n / 10) with
        | nil => exact absurd hc (natToStr_ne_nil _)
        | cons c s => rw [hc] at hh; simpa using hh
      have h0 := ih (n / 10) (by omega) hh
      have h1 := (number_natToStr (n / 10)).2.2
      rw [h0] at h1
      simp at h1
      omega

/-- the fraction: figures without trailing zeros -/
theorem fracDigits_spec (fig n : Nat) (h0 : 0 < n) (h : n < 10 ^ fig) :
    ∃ k m, 1 ≤ k ∧ k ≤ fig ∧ Number k (fracDigits fig n) m ∧ m * 10 ^ (fig - k) = n ∧ m % 10 ≠ 0 := by
  induction fig generalizing n with
  | zero => simp at h; omega
  | succ fig ih =>
    unfold fracDigits
    split
    · rename_i hn
      obtain ⟨k, m, h1, h2, h3, h4, h5⟩ := ih (n / 10) (by omega) (by rw [Nat.pow_succ] at h; omega)
      refine ⟨k, m, h1, by omega, h3, ?_, h5⟩
      rw [show fig + 1 - k = (fig - k) + 1 by omega, Nat.pow_succ, ← Nat.mul_assoc, h4]
      omega
    · rename_i hn
      have hl := natToStr_length h
      refine ⟨fig + 1, n, by omega, Nat.le_refl _, ⟨?_, ?_, ?_⟩, by simp, hn⟩
      · simp; omega
      · intro c hc
        rcases List.mem_append.1 hc with hc | hc
        · rw [List.eq_of_mem_replicate hc]; decide
        · exact isDigit_natToStr n c hc
      · rw [foldl_zeros _ _ _ rfl]
        exact (number_natToStr n).2.2

theorem secondsText_written (a : Nat) :
    SecondsText a (c!"PT" ++ natToStr (a / 1000000000) ++
      (if a % 1000000000 = 0 then [] else '.' :: fracDigits 9 (a % 1000000000)) ++ ['S']) := by
  refine ⟨_, _, digits_natToStr _, natToStr_head _, rfl, ?_⟩
  by_cases h : a % 1000000000 = 0
  · exact .inl ⟨h, by rw [if_pos h]⟩
  · rw [if_neg h]
    obtain ⟨k, m, h1, h2, h3, h4, h5⟩ := fracDigits_spec 9 (a % 1000000000) (by omega) (by omega)
    exact .inr ⟨_, k, m, rfl, h1, h2, h3, h4, h5⟩

/-- **C111.** The text of a duration: exact to the nanosecond, without superfluous zeros. -/
theorem duration_text (d : Duration) : DurationText d.nanos d.toStr := by
  unfold Duration.toStr
  simp only
  have := secondsText_written d.nanos.natAbs
  rcases Int.lt_trichotomy d.nanos 0 with h | h | h
  · right; right
    rw [show (-d.nanos).toNat = d.nanos.natAbs by omega]
    refine ⟨h, _, ?_, this⟩
    rw [if_neg (by omega), if_pos h]
    simp
  · left
    refine ⟨h, ?_⟩
    rw [h]; rfl
  · right; left
    refine ⟨h, ?_⟩
    rw [if_neg (by omega), if_neg (show ¬ d.nanos < 0 by omega), show d.nanos.toNat = d.nanos.natAbs by omega]
    exact this

/-! ### Uniqueness -/

theorem digit_stops {c : Char} {s : Str} (h : c = '.' ∨ c = 'S') : Stops (fun c => '0' ≤ c ∧ c ≤ '9') (c :: s) := by
  intro d hd
  simp only [List.head?_cons, Option.mem_def, Option.some.injEq] at hd
  subst hd
  rcases h with rfl | rfl <;> decide

theorem frac_stops {frac : Str} {a : Nat} (h : a % 1000000000 = 0 ∧ frac = [] ∨
      ∃ fs k m, frac = '.' :: fs ∧ 1 ≤ k ∧ k ≤ 9 ∧ Number k fs m ∧ m * 10 ^ (9 - k) = a % 1000000000 ∧ m % 10 ≠ 0) :
    Stops (fun c => '0' ≤ c ∧ c ≤ '9') (frac ++ ['S']) := by
  rcases h with ⟨-, rfl⟩ | ⟨fs, k, m, rfl, -⟩
  · exact digit_stops (.inr rfl)
  · exact digit_stops (.inl rfl)

theorem number_unique {k l : Nat} {s : Str} {m n : Nat} (h1 : Number k s m) (h2 : Number l s n) : k = l ∧ m = n :=
  ⟨h1.1.symm.trans h2.1, h1.2.2.symm.trans h2.2.2⟩

theorem secondsText_unique {a b : Nat} {t : Str} (ha : SecondsText a t) (hb : SecondsText b t) : a = b := by
  obtain ⟨ds, fr, h1, -, rfl, h3⟩ := ha
  obtain ⟨es, gr, h4, -, h5, h6⟩ := hb
  simp only [List.append_assoc, List.cons_append, List.nil_append, List.cons.injEq, true_and] at h5
  obtain ⟨rfl, h7⟩ := cut_unique (P := fun c => '0' ≤ c ∧ c ≤ '9') h1.2.2.1 h4.2.2.1 (frac_stops h3) (frac_stops h6) h5
  have h8 : a / 1000000000 = b / 1000000000 := (number_unique h1.2 h4.2).2
  have h9 : a % 1000000000 = b % 1000000000 := by
    have h7 : fr = gr := List.append_cancel_right h7
    subst h7
    rcases h3 with ⟨h3, rfl⟩ | ⟨fs, k, m, rfl, -, -, hn, hm, -⟩ <;> rcases h6 with ⟨h6, h6'⟩ | ⟨gs, l, n, h6', -, -, hn', hm', -⟩
    · omega
    · cases h6'
    · cases h6'
    · cases h6'
      obtain ⟨rfl, rfl⟩ := number_unique hn hn'
      omega
  omega

theorem secondsText_head {a : Nat} {t : Str} (h : SecondsText a t) : ∃ u, t = 'P' :: 'T' :: u := by
  obtain ⟨ds, fr, -, -, rfl, -⟩ := h
  exact ⟨ds ++ fr ++ ['S'], by simp⟩

/-- **C111.** A text is that of one duration at most. -/
theorem duration_text_unique (m n : Int) (t : Str) (hm : DurationText m t) (hn : DurationText n t) : m = n := by
  rcases hm with ⟨rfl, rfl⟩ | ⟨h1, h2⟩ | ⟨h1, u, rfl, h2⟩ <;> rcases hn with ⟨rfl, h⟩ | ⟨h3, h4⟩ | ⟨h3, v, h, h4⟩
  · rfl
  · obtain ⟨u, h⟩ := secondsText_head h4; cases h
  · cases h
  · subst h; obtain ⟨u, h⟩ := secondsText_head h2; cases h
  · have := secondsText_unique h2 h4; omega
  · subst h; obtain ⟨u, h⟩ := secondsText_head h2; cases h
  · cases h
  · obtain ⟨u, h⟩ := secondsText_head h4; cases h
  · cases h
    have := secondsText_unique h2 h4
    omega

/-- **C111.** Different durations are written differently. -/
theorem duration_injective (d e : Duration) (h : d.toStr = e.toStr) : d = e := by
  have := duration_text_unique _ _ _ (duration_text d) (h ▸ duration_text e)
  cases d; cases e; cases this; rfl

/-! ### RFC 5545 -/

theorem durPart_dot {u : Char} {s : Str} (hu : u ≠ '.') (h : DurPart u s) : '.' ∉ s := by
  obtain ⟨a, n, h1, rfl⟩ := h
  intro hc
  rcases List.mem_append.1 hc with hc | hc
  · have := h1.2.2.1 _ hc
    revert this; decide
  · simp only [List.mem_singleton] at hc
    exact hu hc.symm

theorem rfcDuration_dot {s : Str} (h : RfcDuration s) : '.' ∉ s := by
  have hs : ∀ {s}, DurSecond s → '.' ∉ s := fun h => durPart_dot (by decide) h
  have hm : ∀ {s}, DurMinute s → '.' ∉ s := by
    rintro s ⟨a, b, rfl, h1, h2⟩
    have := durPart_dot (by decide) h1
    rcases h2 with rfl | h2
    · simpa using this
    · simp [this, hs h2]
  have hh : ∀ {s}, DurHour s → '.' ∉ s := by
    rintro s ⟨a, b, rfl, h1, h2⟩
    have := durPart_dot (by decide) h1
    rcases h2 with rfl | h2
    · simpa using this
    · simp [this, hm h2]
  have ht : ∀ {s}, DurTime s → '.' ∉ s := by
    rintro s ⟨a, rfl, h | h | h⟩
    · simp [hh h]
    · simp [hm h]
    · simp [hs h]
  have hd : ∀ {s}, DurDate s → '.' ∉ s := by
    rintro s ⟨a, b, rfl, h1, h2⟩
    have := durPart_dot (by decide) h1
    rcases h2 with rfl | h2
    · simpa using this
    · simp [this, ht h2]
  obtain ⟨sign, a, rfl, h1, h2⟩ := h
  have h3 : '.' ∉ sign := by rcases h1 with rfl | rfl | rfl <;> decide
  have h4 : '.' ∉ a := by
    rcases h2 with h | h | h
    · exact hd h
    · exact ht h
    · exact durPart_dot (by decide) h
  simp [h3, h4]

/-- **C111.** The text of a duration is one of RFC 5545 exactly if it is of whole seconds. -/
theorem duration_rfc_iff (d : Duration) : RfcDuration d.toStr ↔ (1000000000 : Int) ∣ d.nanos := by
  refine ⟨fun h => ?_, rfcDuration_toStr⟩
  have hdot := rfcDuration_dot h
  have key : ∀ {a : Nat} {t : Str}, SecondsText a t → '.' ∉ t → a % 1000000000 = 0 := by
    rintro a t ⟨ds, fr, -, -, rfl, h | ⟨fs, k, m, rfl, -⟩⟩ ht
    · exact h.1
    · exact absurd (by simp) ht
  rcases duration_text d with ⟨h1, -⟩ | ⟨h1, h2⟩ | ⟨h1, u, h2, h3⟩
  · omega
  · have := key h2 hdot; omega
  · rw [h2] at hdot
    have := key h3 (fun hc => hdot (by simp [hc]))
    omega

/-! ### Where durations are written -/

/-- **C111** for triggers, for the durations of alarms and for the time to live of calendars. -/
theorem duration_properties (d : Duration) (r : Option Related) (c : Calendar) :
    DurationText d.nanos (Trigger.duration d r).toProperty.val ∧
    DurationText d.nanos d.toProperty.val ∧
    ∃ p q, (c.ttl d).props = c.props ++ [p, q] ∧ DurationText d.nanos p.val ∧ DurationText d.nanos q.val := by
  refine ⟨?_, duration_text d, ⟨c!"REFRESH-INTERVAL", d.toStr, [(c!"VALUE", c!"DURATION")]⟩,
    ⟨c!"X-PUBLISHED-TTL", d.toStr, []⟩, ?_, duration_text d, duration_text d⟩
  · cases r <;> exact duration_text d
  · simp [Calendar.ttl, Calendar.appendProperty, Property.new, Property.addParameter, BMap.insert]

example : (⟨-1500000000⟩ : Duration).toStr = c!"-PT1.5S" := by decide +kernel
example : (⟨50⟩ : Duration).toStr = c!"PT0.00000005S" := by decide +kernel
example : (⟨3600000000000⟩ : Duration).toStr = c!"PT3600S" := by decide +kernel
example : DurationText (-1500000000) c!"-PT1.5S" :=
  .inr (.inr ⟨by decide, c!"PT1.5S", rfl, c!"1", c!".5", ⟨by decide, rfl, by decide, by decide⟩, by decide, by decide,
    .inr ⟨c!"5", 1, 5, rfl, by decide, by decide, ⟨rfl, by decide, by decide⟩, by decide, by decide⟩⟩)
example : ¬ RfcDuration c!"-PT1.5S" := fun h => rfcDuration_dot h (by decide)

end Ical
