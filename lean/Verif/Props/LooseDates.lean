import Verif.Spec.LooseDates
import Verif.Props.Numerals
import Verif.Props.DateText

/-!
C107: exactly which texts are read as dates and times.
-/

namespace Ical

open Spec

theorem foldl_digits_ge (s : Str) (a : Nat) : a ≤ s.foldl (fun n c => 10 * n + (c.toNat - '0'.toNat)) a := by
  induction s generalizing a with
  | nil => exact Nat.le_refl _
  | cons c s ih => exact Nat.le_trans (show a ≤ 10 * a + (c.toNat - '0'.toNat) by omega) (ih _)

theorem scanNumberGo_iff (k acc : Nat) (s : Str) (v : Nat) (r : Str) (ha : acc ≤ 9223372036854775807) :
    scanNumberGo k acc s = some (v, r) ↔
      ∃ ds, s = ds ++ r ∧ ds.length ≤ k ∧ (∀ c ∈ ds, '0' ≤ c ∧ c ≤ '9') ∧
        ds.foldl (fun n c => 10 * n + (c.toNat - '0'.toNat)) acc = v ∧ v ≤ 9223372036854775807 ∧
        (ds.length = k ∨ ∀ c ∈ r.head?, ¬ ('0' ≤ c ∧ c ≤ '9')) := by
  induction k generalizing acc s with
  | zero =>
    rw [scanNumberGo]
    constructor
    · intro h
      cases h
      exact ⟨[], rfl, Nat.le_refl _, by simp, rfl, ha, .inl rfl⟩
    · rintro ⟨ds, h1, h2, _, h4, _⟩
      cases ds with
      | nil => cases h4; rw [h1]; rfl
      | cons c ds => simp at h2
  | succ k ih =>
    cases s with
    | nil =>
      rw [scanNumberGo]
      constructor
      · intro h
        cases h
        exact ⟨[], rfl, by simp, by simp, rfl, ha, .inr (by simp)⟩
      · rintro ⟨ds, h1, h2, _, h4, _⟩
        cases ds with
        | nil => cases h4; rw [← (show [] = r from h1)]; rfl
        | cons c ds => cases h1
    | cons c s =>
      rw [scanNumberGo, digitVal_eq]
      by_cases hc : '0' ≤ c ∧ c ≤ '9'
      · rw [if_pos hc]
        simp only
        constructor
        · intro h
          split at h
          · rename_i hle
            obtain ⟨ds, h1, h2, h3, h4, h5, h6⟩ := (ih _ s hle).1 h
            refine ⟨c :: ds, by rw [h1]; rfl, by simpa using h2, ?_, ?_, h5, ?_⟩
            · intro x hx
              rcases List.mem_cons.1 hx with rfl | hx
              · exact hc
              · exact h3 x hx
            · rw [List.foldl_cons, Nat.mul_comm 10 acc]; exact h4
            · rcases h6 with h6 | h6
              · exact .inl (by simp [h6])
              · exact .inr h6
          · cases h
        · rintro ⟨ds, h1, h2, h3, h4, h5, h6⟩
          cases ds with
          | nil =>
            rw [List.nil_append] at h1
            rcases h6 with h6 | h6
            · cases h6
            · rw [← h1] at h6
              exact absurd hc (h6 c rfl)
          | cons x ds =>
            injection h1 with e1 e2
            subst e1
            rw [List.foldl_cons, Nat.mul_comm 10 acc] at h4
            have hge := foldl_digits_ge ds (acc * 10 + (c.toNat - '0'.toNat))
            have hle : acc * 10 + (c.toNat - '0'.toNat) ≤ 9223372036854775807 := by rw [h4] at hge; omega
            rw [if_pos hle, ih _ _ hle]
            refine ⟨ds, e2, by simpa using h2, fun y hy => h3 y (by simp [hy]), h4, h5, ?_⟩
            rcases h6 with h6 | h6
            · exact .inl (by simpa using h6)
            · exact .inr h6
      · rw [if_neg hc]
        simp only
        constructor
        · intro h
          cases h
          exact ⟨[], rfl, by simp, by simp, rfl, ha, .inr (by simpa using hc)⟩
        · rintro ⟨ds, h1, h2, h3, h4, h5, h6⟩
          cases ds with
          | nil => cases h4; rw [h1]; rfl
          | cons x ds =>
            injection h1 with e1 e2
            exact absurd (h3 x (by simp)) (e1 ▸ hc)

theorem scanNumber_iff (k : Nat) (s : Str) (v : Nat) (r : Str) (hk : 1 ≤ k) :
    scanNumber k s = some (v, r) ↔ DigitRun k s v r ∧ v ≤ 9223372036854775807 := by
  unfold scanNumber
  cases s with
  | nil =>
    constructor
    · intro h; cases h
    · rintro ⟨⟨ds, h1, h2, _⟩, _⟩
      cases ds with
      | nil => simp at h2
      | cons => cases h1
  | cons c s =>
    simp only
    by_cases hc : IsDigit c
    · rw [if_pos (isDigit_iff.1 hc), scanNumberGo_iff _ _ _ _ _ (by omega)]
      constructor
      · rintro ⟨ds, h1, h2, h3, h4, h5, h6⟩
        refine ⟨⟨ds, h1, ?_, h2, ⟨rfl, h3, h4⟩, h6⟩, h5⟩
        cases ds with
        | nil =>
          rcases h6 with h6 | h6
          · simp at h6; omega
          · rw [List.nil_append] at h1
            rw [← h1] at h6
            exact absurd hc (h6 c rfl)
        | cons => simp
      · rintro ⟨⟨ds, h1, h2, h3, ⟨_, h4, h5⟩, h6⟩, h7⟩
        exact ⟨ds, h1, h3, h4, h5, h7, h6⟩
    · rw [if_neg (fun h => hc (isDigit_iff.2 h))]
      constructor
      · intro h; cases h
      · rintro ⟨⟨ds, h1, h2, h3, ⟨_, h4, h5⟩, h6⟩, h7⟩
        cases ds with
        | nil => simp at h2
        | cons x ds =>
          injection h1 with e1 e2
          exact absurd (h4 x (by simp)) (e1 ▸ hc)

theorem digits_head {k : Nat} {s : Str} {n : Nat} {r : Str} (h : DigitRun k s n r) :
    ∃ c t, s = c :: t ∧ '0' ≤ c ∧ c ≤ '9' := by
  obtain ⟨ds, h1, h2, _, ⟨_, h4, _⟩, _⟩ := h
  cases ds with
  | nil => simp at h2
  | cons c ds => exact ⟨c, ds ++ r, h1, h4 c (by simp)⟩

theorem digits_bound (ds : Str) (h : ∀ c ∈ ds, '0' ≤ c ∧ c ≤ '9') (a : Nat) :
    ds.foldl (fun n c => 10 * n + (c.toNat - '0'.toNat)) a < (a + 1) * 10 ^ ds.length := by
  induction ds generalizing a with
  | nil => simp
  | cons c ds ih =>
    have h1 := ih (fun x hx => h x (by simp [hx])) (10 * a + (c.toNat - '0'.toNat))
    obtain ⟨d, hd, rfl⟩ := digit_exists (h c (by simp))
    rw [digitChar_val hd] at h1
    rw [List.foldl_cons, digitChar_val hd, List.length_cons, Nat.pow_succ]
    refine Nat.lt_of_lt_of_le h1 ?_
    have : (10 * a + d + 1) * 10 ^ ds.length ≤ ((a + 1) * 10) * 10 ^ ds.length :=
      Nat.mul_le_mul_right _ (by omega)
    rw [Nat.mul_comm (10 ^ ds.length) 10, ← Nat.mul_assoc]
    exact this

theorem digits_lt {k : Nat} {s : Str} {n : Nat} {r : Str} (h : DigitRun k s n r) : n < 10 ^ k := by
  obtain ⟨ds, _, _, h3, ⟨_, h4, h5⟩, _⟩ := h
  have := digits_bound ds h4 0
  rw [h5] at this
  refine Nat.lt_of_lt_of_le (by simpa using this) (Nat.pow_le_pow_right (by decide) h3)

theorem trimStart_blank {b t : Str} (hb : ∀ c ∈ b, isWhitespace c = true)
    (ht : ∃ c r, t = c :: r ∧ isWhitespace c = false) : trimStart (b ++ t) = t := by
  obtain ⟨c, r, rfl, hc⟩ := ht
  unfold trimStart
  induction b with
  | nil => rw [List.nil_append, List.dropWhile_cons, hc]; rfl
  | cons x b ih =>
    rw [List.cons_append, List.dropWhile_cons, hb x (by simp)]
    exact ih (fun y hy => hb y (by simp [hy]))

theorem trimStart_split (s : Str) : s = s.takeWhile isWhitespace ++ trimStart s ∧
    ∀ c ∈ s.takeWhile isWhitespace, isWhitespace c = true := by
  refine ⟨(List.takeWhile_append_dropWhile).symm, ?_⟩
  intro c hc
  induction s with
  | nil => cases hc
  | cons x s ih =>
    rw [List.takeWhile_cons] at hc
    split at hc
    · rcases List.mem_cons.1 hc with rfl | hc
      · assumption
      · exact ih hc
    · cases hc

theorem scan2_iff (s : Str) (n : Nat) (r : Str) : scan2 s = some (n, r) ↔ Field s n r := by
  unfold scan2
  constructor
  · intro h
    obtain ⟨h1, h2⟩ := trimStart_split s
    exact ⟨_, _, h1, h2, ((scanNumber_iff _ _ _ _ (by decide)).1 h).1⟩
  · rintro ⟨b, t, rfl, hb, ht⟩
    obtain ⟨c, u, hc, hd⟩ := digits_head ht
    rw [trimStart_blank hb ⟨c, u, hc, digit_not_ws hd⟩, scanNumber_iff _ _ _ _ (by decide)]
    have := digits_lt ht
    exact ⟨ht, by omega⟩

theorem scanYear_iff (s : Str) (y : Int) (r : Str) :
    scanYear s = some (y, r) ↔ YearField s y r ∧ y.natAbs ≤ 9223372036854775807 := by
  have hsign : ∀ (u : Str) (n : Nat), scanNumber u.length u = some (n, r) ↔
      DigitRun u.length u n r ∧ n ≤ 9223372036854775807 := by
    intro u n
    cases u with
    | nil =>
      constructor
      · intro h; cases h
      · rintro ⟨h, _⟩
        obtain ⟨c, t, h, _⟩ := digits_head h
        cases h
    | cons c u => exact scanNumber_iff _ _ _ _ (by simp)
  have hmap : ∀ (o : Option (Nat × Str)) (f : Nat → Int),
      o.map (fun x => (f x.1, x.2)) = some (y, r) ↔ ∃ n, o = some (n, r) ∧ f n = y := by
    intro o f
    cases o with
    | none => simp
    | some x =>
      obtain ⟨n, q⟩ := x
      simp only [Option.map_some, Option.some.injEq, Prod.mk.injEq]
      constructor
      · rintro ⟨h1, h2⟩; exact ⟨n, ⟨rfl, h2⟩, h1⟩
      · rintro ⟨m, ⟨h1, h2⟩, h3⟩; exact ⟨h1 ▸ h3, h2⟩
  have core : ∀ t : Str, (match t with
      | '-' :: r => (scanNumber (r.length) r).map (fun x => (-(x.1 : Int), x.2))
      | '+' :: r => (scanNumber (r.length) r).map (fun x => ((x.1 : Int), x.2))
      | _ => (scanNumber 4 t).map (fun x => ((x.1 : Int), x.2))) = some (y, r) ↔
      ((∃ n : Nat, y = n ∧ DigitRun 4 t n r) ∨
        ∃ (n : Nat) (u : Str), DigitRun u.length u n r ∧ (t = '+' :: u ∧ y = n ∨ t = '-' :: u ∧ y = -n)) ∧
        y.natAbs ≤ 9223372036854775807 := by
    intro t
    split
    · rename_i u
      refine (hmap _ (fun n => -(n : Int))).trans ?_
      constructor
      · rintro ⟨n, h1, h2⟩
        obtain ⟨h3, h4⟩ := (hsign _ _).1 h1
        exact ⟨.inr ⟨n, u, h3, .inr ⟨rfl, h2.symm⟩⟩, by omega⟩
      · rintro ⟨h | ⟨n, u', h1, h2⟩, h3⟩
        · obtain ⟨n, _, h⟩ := h
          obtain ⟨c, q, hc, hd⟩ := digits_head h
          injection hc with hc
          subst hc
          exact absurd hd (by decide)
        · rcases h2 with ⟨h2, _⟩ | ⟨h2, h4⟩
          · cases h2
          · cases h2
            exact ⟨n, (hsign _ _).2 ⟨h1, by omega⟩, h4.symm⟩
    · rename_i u
      refine (hmap _ (fun n => (n : Int))).trans ?_
      constructor
      · rintro ⟨n, h1, h2⟩
        obtain ⟨h3, h4⟩ := (hsign _ _).1 h1
        exact ⟨.inr ⟨n, u, h3, .inl ⟨rfl, h2.symm⟩⟩, by omega⟩
      · rintro ⟨h | ⟨n, u', h1, h2⟩, h3⟩
        · obtain ⟨n, _, h⟩ := h
          obtain ⟨c, q, hc, hd⟩ := digits_head h
          injection hc with hc
          subst hc
          exact absurd hd (by decide)
        · rcases h2 with ⟨h2, h4⟩ | ⟨h2, _⟩
          · cases h2
            exact ⟨n, (hsign _ _).2 ⟨h1, by omega⟩, h4.symm⟩
          · cases h2
    · rename_i n1 n2
      refine (hmap _ (fun n => (n : Int))).trans ?_
      constructor
      · rintro ⟨n, h1, h2⟩
        obtain ⟨h3, h4⟩ := (scanNumber_iff _ _ _ _ (by decide)).1 h1
        exact ⟨.inl ⟨n, h2.symm, h3⟩, by omega⟩
      · rintro ⟨⟨n, h1, h⟩ | ⟨n, u', h1, h2⟩, h3⟩
        · exact ⟨n, (scanNumber_iff _ _ _ _ (by decide)).2 ⟨h, by omega⟩, h1.symm⟩
        · rcases h2 with ⟨h2, h4⟩ | ⟨h2, _⟩
          · exact absurd h2 (n2 _)
          · exact absurd h2 (n1 _)
  unfold scanYear
  refine (core _).trans ?_
  constructor
  · rintro ⟨h, h'⟩
    obtain ⟨h1, h2⟩ := trimStart_split s
    exact ⟨⟨_, _, h1, h2, h⟩, h'⟩
  · rintro ⟨⟨b, t, rfl, hb, ht⟩, h'⟩
    rw [trimStart_blank hb]
    · exact ⟨ht, h'⟩
    · rcases ht with ⟨n, _, h⟩ | ⟨n, u, _, ⟨h, _⟩ | ⟨h, _⟩⟩
      · obtain ⟨c, q, hc, hd⟩ := digits_head h
        exact ⟨c, q, hc, digit_not_ws hd⟩
      · exact ⟨_, _, h, by decide⟩
      · exact ⟨_, _, h, by decide⟩

theorem fromYmd_iff (y : Int) (m d : Nat) (x : NaiveDate) :
    fromYmd y m d = some x ↔ x = ⟨y, m, d⟩ ∧ -262143 ≤ y ∧ y ≤ 262142 ∧ DayExists y m d := by
  unfold fromYmd
  rw [← valid_iff]
  constructor
  · intro h
    split at h
    · cases h; exact ⟨rfl, by assumption⟩
    · cases h
  · rintro ⟨rfl, h⟩
    rw [if_pos h]

theorem scanDate_iff (s : Str) (d : NaiveDate) (r : Str) : scanDate s = some (d, r) ↔ LooseDate s d r := by
  unfold scanDate LooseDate
  simp only [Option.bind_eq_bind, Option.bind_eq_some_iff, Prod.exists]
  constructor
  · rintro ⟨y, s1, h1, m, s2, h2, dd, s3, h3, x, h4, h5⟩
    cases h5
    obtain ⟨rfl, h6, h7, h8⟩ := (fromYmd_iff _ _ _ _).1 h4
    exact ⟨s1, s2, ((scanYear_iff _ _ _).1 h1).1, (scan2_iff _ _ _).1 h2, (scan2_iff _ _ _).1 h3, h6, h7, h8⟩
  · rintro ⟨s1, s2, h1, h2, h3, h4, h5, h6⟩
    exact ⟨d.year, s1, (scanYear_iff _ _ _).2 ⟨h1, by omega⟩, d.month, s2, (scan2_iff _ _ _).2 h2, d.day, r,
      (scan2_iff _ _ _).2 h3, d, (fromYmd_iff _ _ _ _).2 ⟨rfl, h4, h5, h6⟩, rfl⟩

theorem scanTime_iff (date : NaiveDate) (s : Str) (t : NaiveDateTime) (r : Str) :
    scanTime date s = some (t, r) ↔ ∃ s1 s2 h m sec, Field s h s1 ∧ Field s1 m s2 ∧ Field s2 sec r ∧
      TimeExists h m sec ∧ t = timeOn date h m sec := by
  unfold scanTime
  simp only [Option.bind_eq_bind, Option.bind_eq_some_iff, Prod.exists]
  constructor
  · rintro ⟨h, s1, h1, m, s2, h2, sec, s3, h3, h4⟩
    split at h4
    · rename_i hx
      refine ⟨s1, s2, h, m, sec, (scan2_iff _ _ _).1 h1, (scan2_iff _ _ _).1 h2, ?_, ⟨by omega, by omega, hx.2.2⟩, ?_⟩
      · split at h4 <;> · cases h4; exact (scan2_iff _ _ _).1 h3
      · unfold timeOn
        split at h4 <;> · rename_i hs; cases h4; first | rw [if_pos hs] | rw [if_neg hs]
    · cases h4
  · rintro ⟨s1, s2, h, m, sec, h1, h2, h3, h4, rfl⟩
    refine ⟨h, s1, (scan2_iff _ _ _).2 h1, m, s2, (scan2_iff _ _ _).2 h2, sec, r, (scan2_iff _ _ _).2 h3, ?_⟩
    have h4' := h4
    unfold TimeExists at h4'
    rw [if_pos ⟨by omega, by omega, h4'.2.2⟩]
    unfold timeOn
    split <;> rfl

theorem scanLit_iff (c : Char) (s r : Str) : scanLit c s = some r ↔ s = c :: r := by
  cases s with
  | nil => simp [scanLit]
  | cons x s =>
    rw [scanLit]
    by_cases h : x = c
    · rw [if_pos h]; simp [h]
    · rw [if_neg h]; simp [h]

theorem timeOn_date (d : NaiveDate) (h m s : Nat) : (timeOn d h m s).date = d := by
  unfold timeOn
  split <;> rfl

/-- **C107.** Exactly the texts of the specification are read as dates. -/
theorem parseDate_iff (s : Str) (d : NaiveDate) : parseDate s = some d ↔ LooseDate s d [] := by
  unfold parseDate
  simp only [Option.bind_eq_bind, Option.bind_eq_some_iff, Prod.exists]
  constructor
  · rintro ⟨x, r, h1, h2⟩
    split at h2
    · rename_i hr
      cases h2
      rw [List.isEmpty_iff.1 hr] at h1
      exact (scanDate_iff _ _ _).1 h1
    · cases h2
  · intro h
    exact ⟨d, [], (scanDate_iff _ _ _).2 h, rfl⟩

/-- **C107.** Exactly the texts of the specification are read as local times. -/
theorem parseDateTime_iff (s : Str) (t : NaiveDateTime) : parseDateTime s = some t ↔ LooseDateTime s t [] := by
  unfold parseDateTime
  simp only [Option.bind_eq_bind, Option.bind_eq_some_iff, Prod.exists]
  constructor
  · rintro ⟨d, r, h1, r', h2, x, r'', h3, h4⟩
    split at h4
    · rename_i hr
      cases h4
      rw [List.isEmpty_iff.1 hr] at h3
      obtain ⟨s1, s2, h, m, sec, a, b, c, e, rfl⟩ := (scanTime_iff _ _ _ _).1 h3
      rw [(scanLit_iff _ _ _).1 h2] at h1
      exact ⟨r', s1, s2, h, m, sec, by rw [timeOn_date]; exact (scanDate_iff _ _ _).1 h1, a, b, c, e,
        by rw [timeOn_date]⟩
    · cases h4
  · rintro ⟨r, s1, s2, h, m, sec, h1, a, b, c, e, h2⟩
    exact ⟨t.date, 'T' :: r, (scanDate_iff _ _ _).2 h1, r, (scanLit_iff _ _ _).2 rfl, t, [],
      (scanTime_iff _ _ _ _).2 ⟨s1, s2, h, m, sec, a, b, c, e, h2⟩, rfl⟩

/-- **C107.** Exactly the texts of the specification, with a final `Z`, are read as UTC times. -/
theorem parseUtc_iff (s : Str) (t : UtcDateTime) : parseUtc s = some t ↔ LooseDateTime s t.naive ['Z'] := by
  unfold parseUtc
  simp only [Option.bind_eq_bind, Option.bind_eq_some_iff, Prod.exists]
  constructor
  · rintro ⟨d, r, h1, r', h2, x, r'', h3, r3, h4, h5⟩
    split at h5
    · rename_i hr
      cases h5
      rw [(scanLit_iff _ _ _).1 h4, List.isEmpty_iff.1 hr] at h3
      obtain ⟨s1, s2, h, m, sec, a, b, c, e, rfl⟩ := (scanTime_iff _ _ _ _).1 h3
      rw [(scanLit_iff _ _ _).1 h2] at h1
      exact ⟨r', s1, s2, h, m, sec, by rw [timeOn_date]; exact (scanDate_iff _ _ _).1 h1, a, b, c, e,
        by rw [timeOn_date]⟩
    · cases h5
  · rintro ⟨r, s1, s2, h, m, sec, h1, a, b, c, e, h2⟩
    exact ⟨t.naive.date, 'T' :: r, (scanDate_iff _ _ _).2 h1, r, (scanLit_iff _ _ _).2 rfl, t.naive, ['Z'],
      (scanTime_iff _ _ _ _).2 ⟨s1, s2, h, m, sec, a, b, c, e, h2⟩, [], (scanLit_iff _ _ _).2 rfl, rfl⟩

/-! ### what the getters read -/

/-- **C107.** The UTC times of a component: stamps are read exactly from the texts of the specification with a final
`Z`, whatever the parameters of the property. -/
theorem utc_getters_iff {C : Type} [Component C] (c : C) (t : UtcDateTime) :
    (Component.getTimestamp c = some t ↔
      ∃ v, Component.propertyValue c c!"DTSTAMP" = some v ∧ LooseDateTime v t.naive ['Z']) ∧
    (Component.getCreated c = some t ↔
      ∃ v, Component.propertyValue c c!"CREATED" = some v ∧ LooseDateTime v t.naive ['Z']) ∧
    (Component.getLastModified c = some t ↔
      ∃ v, Component.propertyValue c c!"LAST_MODIFIED" = some v ∧ LooseDateTime v t.naive ['Z']) := by
  unfold Component.getTimestamp Component.getCreated Component.getLastModified
  simp only [Option.bind_eq_some_iff, parseUtc_iff, and_self]

/-- **C107.** The same for the completion time of a to-do. -/
theorem completed_iff (c : Todo) (t : UtcDateTime) :
    c.getCompleted = some t ↔
      ∃ v, Component.propertyValue c c!"COMPLETED" = some v ∧ LooseDateTime v t.naive ['Z'] := by
  unfold Todo.getCompleted
  simp only [Option.bind_eq_some_iff, parseUtc_iff]

section
variable [Uni]

/-- **C107.** What is read from a property as date or time: a date exactly with VALUE=DATE and a text for the date; a
time in a zone exactly with the TZID that names it and a text for a local time; a UTC time without TZID from a text
for a local time with a final `Z`; a floating time without TZID from a text for a local time. -/
theorem date_read_iff (p : Property) (x : DatePerhapsTime) :
    DatePerhapsTime.fromProperty p = some x ↔
      match x with
      | .date d => p.params.lookup c!"VALUE" = some c!"DATE" ∧ LooseDate p.val d []
      | .dateTime (.zoned t z) => p.params.lookup c!"VALUE" ≠ some c!"DATE" ∧ p.params.lookup c!"TZID" = some z ∧
          LooseDateTime p.val t []
      | .dateTime (.utc t) => p.params.lookup c!"VALUE" ≠ some c!"DATE" ∧ p.params.lookup c!"TZID" = none ∧
          LooseDateTime p.val t.naive ['Z']
      | .dateTime (.floating t) => p.params.lookup c!"VALUE" ≠ some c!"DATE" ∧ p.params.lookup c!"TZID" = none ∧
          LooseDateTime p.val t [] := by
  have hz : ∀ t u, parseDateTime p.val = some t → parseUtc p.val = some u → False := fun t u h1 h2 =>
    parseDateTime_noZ h1 (parseUtc_z h2)
  simp only [← parseDate_iff, ← parseDateTime_iff, ← parseUtc_iff, lookup_eq_get c!"TZID"]
  unfold DatePerhapsTime.fromProperty
  by_cases hv : p.params.lookup c!"VALUE" = some c!"DATE"
  · rw [if_pos ((valueType_date_iff p).2 hv)]
    cases hp : parseDate p.val with
    | none => cases x with
      | date d => simp
      | dateTime t => cases t <;> simp [hv]
    | some d' => cases x with
      | date d => simp [hv]
      | dateTime t => cases t <;> simp [hv]
  · rw [if_neg (fun h => hv ((valueType_date_iff p).1 h))]
    unfold CalDateTime.fromProperty CalDateTime.fromStr
    cases x with
    | date d =>
      simp only [hv, false_and, iff_false]
      split <;> simp
    | dateTime t =>
      simp only [ne_eq, hv, not_false_eq_true, true_and]
      cases hg : p.params.get c!"TZID" with
      | some z =>
        cases hp : parseDateTime p.val with
        | none => cases t <;> simp
        | some t' =>
          cases t with
          | zoned t z' => simp [and_comm]
          | utc t => simp
          | floating t => simp
      | none =>
        cases hp : parseDateTime p.val with
        | some t' =>
          cases t with
          | zoned t z' => simp
          | utc t => simp; exact fun h => hz _ _ hp h
          | floating t => simp
        | none =>
          cases hu : parseUtc p.val with
          | none => cases t <;> simp
          | some u => cases t <;> simp

/-- **C107.** Start, end and due date are read exactly so. -/
theorem date_getters_iff {C : Type} [Component C] (c : C) (t : Todo) (x : DatePerhapsTime) :
    (Component.getStart c = some x ↔
      ∃ p, (Component.properties c).get c!"DTSTART" = some p ∧ DatePerhapsTime.fromProperty p = some x) ∧
    (Component.getEnd c = some x ↔
      ∃ p, (Component.properties c).get c!"DTEND" = some p ∧ DatePerhapsTime.fromProperty p = some x) ∧
    (t.getDue = some x ↔
      ∃ p, (Component.properties t).get c!"DUE" = some p ∧ DatePerhapsTime.fromProperty p = some x) := by
  unfold Component.getStart Component.getEnd Todo.getDue
  simp only [Option.bind_eq_some_iff, and_self]

end

/-- **C107.** What the low-level reader reads (`DatePerhapsTime::try_from` of a parsed property): the text decides
between dates, UTC times and local times, the first TZID parameter between local times with and without zone. -/
theorem parsed_date_iff (p : PProp) (x : DatePerhapsTime) :
    DatePerhapsTime.tryFromParsed p = some x ↔
      match x with
      | .date d => LooseDate p.val d []
      | .dateTime (.utc t) => LooseDateTime p.val t.naive ['Z']
      | .dateTime (.zoned t z) => LooseDateTime p.val t [] ∧
          ∃ q, p.params.find? (fun q => q.key == c!"TZID") = some q ∧ q.val = some z
      | .dateTime (.floating t) => LooseDateTime p.val t [] ∧ ∀ q ∈ p.params, q.key ≠ c!"TZID" := by
  obtain ⟨e1, e2, e3⟩ := parse_exclusive p.val
  have hnone : (∀ q ∈ p.params, q.key ≠ c!"TZID") ↔ p.params.find? (fun q => q.key == c!"TZID") = none := by
    simp
  simp only [← parseDate_iff, ← parseDateTime_iff, ← parseUtc_iff, hnone]
  unfold DatePerhapsTime.tryFromParsed
  cases hu : parseUtc p.val with
  | some u =>
    obtain ⟨a, b⟩ := e3 u hu
    cases x with
    | date d => simp [a]
    | dateTime t => cases t <;> simp [b]
  | none =>
    cases hd : parseDate p.val with
    | some d =>
      obtain ⟨a, b⟩ := e1 d hd
      cases x with
      | date d => simp
      | dateTime t => cases t <;> simp [a]
    | none =>
      cases ht : parseDateTime p.val with
      | none =>
        cases x with
        | date d => simp
        | dateTime t => cases t <;> simp
      | some t' =>
        cases hf : p.params.find? (fun q => q.key == c!"TZID") with
        | none =>
          cases x with
          | date d => simp
          | dateTime t => cases t <;> simp
        | some q =>
          cases hq : q.val with
          | none =>
            cases x with
            | date d => simp [hq]
            | dateTime t => cases t <;> simp [hq]
          | some z =>
            cases x with
            | date d => simp [hq]
            | dateTime t => cases t <;> simp [hq]

/-! ### strictness -/

theorem field_strict {s : Str} {n : Nat} {r : Str} (h : Field s n r) (hs : ∀ c ∈ s, isWhitespace c = false) :
    ∃ ds, s = ds ++ r ∧ ds.length ≤ 2 ∧ (ds.length = 2 → Number 2 ds n) := by
  obtain ⟨b, t, rfl, hb, ds, rfl, h1, h2, h3, h4⟩ := h
  cases b with
  | nil => exact ⟨ds, rfl, h2, fun e => e ▸ h3⟩
  | cons x b =>
    have := hs x (by simp)
    rw [hb x (by simp)] at this
    cases this

theorem year_strict {s : Str} {y : Int} {r : Str} (h : YearField s y r) (hs : ∀ c ∈ s, isWhitespace c = false)
    (hr : ∃ c ∈ r.head?, '0' ≤ c ∧ c ≤ '9') :
    ∃ ds n, s = ds ++ r ∧ y = (n : Nat) ∧ Number 4 ds n := by
  obtain ⟨b, t, rfl, hb, h⟩ := h
  obtain ⟨d, hd, hd'⟩ := hr
  have hb' : b = [] := by
    cases b with
    | nil => rfl
    | cons x b =>
      have := hs x (by simp)
      rw [hb x (by simp)] at this
      cases this
  subst hb'
  rcases h with ⟨n, rfl, ds, rfl, h1, h2, h3, h4⟩ | ⟨n, u, ⟨ds, rfl, h1, h2, h3, h4⟩, _⟩
  · rcases h4 with h4 | h4
    · exact ⟨ds, n, rfl, rfl, h4 ▸ h3⟩
    · exact absurd hd' (h4 d hd)
  · rcases h4 with h4 | h4
    · have : r = [] := by
        rw [List.length_append] at h4
        exact List.eq_nil_of_length_eq_zero (by omega)
      rw [this] at hd
      cases hd
    · exact absurd hd' (h4 d hd)

theorem field_head {s : Str} {n : Nat} {r : Str} (h : Field s n r) (hs : ∀ c ∈ s, isWhitespace c = false) :
    ∃ c ∈ s.head?, '0' ≤ c ∧ c ≤ '9' := by
  obtain ⟨b, t, rfl, hb, h⟩ := h
  cases b with
  | nil =>
    obtain ⟨c, u, rfl, hc⟩ := digits_head h
    exact ⟨c, rfl, hc⟩
  | cons x b =>
    have := hs x (by simp)
    rw [hb x (by simp)] at this
    cases this

/-- **C107.** A text that is read as a date, has no blanks and is not too short is `YYYYMMDD`. -/
theorem date_strict {s : Str} {d : NaiveDate} {r : Str} (h : LooseDate s d r)
    (hs : ∀ c ∈ s, isWhitespace c = false) :
    ∃ a, s = a ++ r ∧ a.length ≤ 8 ∧
      (a.length = 8 → ∃ y : Nat, d.year = y ∧ DateText a y d.month d.day) := by
  obtain ⟨s1, s2, h1, h2, h3, _⟩ := h
  have sub : ∀ {x y z : Str}, (∃ ds, x = ds ++ y) → (∀ c ∈ x, isWhitespace c = false) →
      ∀ c ∈ y, isWhitespace c = false := by
    rintro x y z ⟨ds, rfl⟩ hx c hc
    exact hx c (by simp [hc])
  have hs1 : ∀ c ∈ s1, isWhitespace c = false := by
    obtain ⟨b, t, rfl, hb, h⟩ := h1
    rcases h with ⟨n, _, ds, rfl, _⟩ | ⟨n, u, ⟨ds, rfl, _⟩, ⟨rfl, _⟩ | ⟨rfl, _⟩⟩ <;>
    · intro c hc
      exact hs c (by simp [hc])
  obtain ⟨m2, e2, l2, n2⟩ := field_strict h2 hs1
  have hs2 := sub (z := s) ⟨m2, e2⟩ hs1
  obtain ⟨m3, e3, l3, n3⟩ := field_strict h3 hs2
  obtain ⟨m1, n, e1, hy, n1⟩ := year_strict h1 hs (field_head h2 hs1)
  refine ⟨m1 ++ m2 ++ m3, by rw [e1, e2, e3]; simp, ?_, ?_⟩
  · have := n1.1
    simp only [List.length_append]
    omega
  · intro hl
    have := n1.1
    simp only [List.length_append] at hl
    exact ⟨n, hy, m1, m2, m3, rfl, n1, n2 (by omega), n3 (by omega)⟩

/-- **C107** (partial: the text must have no blanks and as many characters as RFC 5545 prescribes). What is read as a
date is then `YYYYMMDD`, and what is read as a time is `YYYYMMDDTHHMMSS`, with `Z` for a UTC time. -/
theorem only_rfc_dates_partial (s : Str) (hs : ∀ c ∈ s, isWhitespace c = false) :
    (∀ d, parseDate s = some d → s.length = 8 → ∃ y : Nat, d.year = y ∧ DateText s y d.month d.day) ∧
    (∀ t, parseDateTime s = some t → s.length = 15 → ∃ a b y m d h mi sec, s = a ++ 'T' :: b ∧ DateText a y m d ∧
      TimeText b h mi sec ∧ t = timeOn ⟨y, m, d⟩ h mi sec) ∧
    (∀ t, parseUtc s = some t → s.length = 16 → ∃ a b y m d h mi sec, s = a ++ 'T' :: b ++ ['Z'] ∧ DateText a y m d ∧
      TimeText b h mi sec ∧ t.naive = timeOn ⟨y, m, d⟩ h mi sec) := by
  have key : ∀ (t : NaiveDateTime) (z : Str), LooseDateTime s t z → s.length = 15 + z.length →
      ∃ a b y m d h mi sec, s = a ++ 'T' :: b ++ z ∧ DateText a y m d ∧
      TimeText b h mi sec ∧ t = timeOn ⟨y, m, d⟩ h mi sec := by
    rintro t z ⟨r, s1, s2, h, m, sec, h1, h2, h3, h4, _, h6⟩ hl
    obtain ⟨a, rfl, ha, hd⟩ := date_strict h1 hs
    have hr : ∀ c ∈ r, isWhitespace c = false := fun c hc => hs c (by simp [hc])
    obtain ⟨b1, rfl, l1, n1⟩ := field_strict h2 hr
    have hr1 : ∀ c ∈ s1, isWhitespace c = false := fun c hc => hr c (by simp [hc])
    obtain ⟨b2, rfl, l2, n2⟩ := field_strict h3 hr1
    have hr2 : ∀ c ∈ s2, isWhitespace c = false := fun c hc => hr1 c (by simp [hc])
    obtain ⟨b3, rfl, l3, n3⟩ := field_strict h4 hr2
    simp only [List.length_append, List.length_cons] at hl
    obtain ⟨y, hy, hd⟩ := hd (by omega)
    refine ⟨a, b1 ++ b2 ++ b3, y, t.date.month, t.date.day, h, m, sec, by simp, hd,
      ⟨b1, b2, b3, rfl, n1 (by omega), n2 (by omega), n3 (by omega)⟩, ?_⟩
    rw [← hy]
    exact h6
  refine ⟨?_, ?_, ?_⟩
  · intro d h hl
    obtain ⟨a, rfl, ha, hd⟩ := date_strict ((parseDate_iff _ _).1 h) hs
    rw [List.append_nil] at hl ⊢
    exact hd hl
  · intro t h hl
    obtain ⟨a, b, y, m, d, hh, mi, sec, h1, h2⟩ := key t [] ((parseDateTime_iff _ _).1 h) (by simpa using hl)
    exact ⟨a, b, y, m, d, hh, mi, sec, by simpa using h1, h2⟩
  · intro t h hl
    exact key t.naive ['Z'] ((parseUtc_iff _ _).1 h) (by simpa using hl)

/-- **C107 (violated).** Texts that RFC 5545 does not allow are read as dates and times: with blanks, with missing
digits, with a signed year; the same day has several texts. -/
theorem only_rfc_dates_violated :
    parseDate c!"2024 1 5" = some ⟨2024, 1, 5⟩ ∧ parseDate c!" 2024\n 01\t05" = some ⟨2024, 1, 5⟩ ∧
    parseDate c!"2024115" = some ⟨2024, 11, 5⟩ ∧ parseDate c!"+12024 1 5" = some ⟨12024, 1, 5⟩ ∧
    parseDate c!"-1 1 5" = some ⟨-1, 1, 5⟩ ∧
    parseDateTime c!"20240105T1 2 3" = some ⟨⟨2024, 1, 5⟩, 1, 2, 3, 0⟩ ∧
    parseUtc c!"20240105T 1 2 3Z" = some ⟨⟨⟨2024, 1, 5⟩, 1, 2, 3, 0⟩⟩ := by decide +kernel

/-- nothing else is overlooked: text after a date, a small t, a missing Z, separators -/
example : parseDate c!"20240105 " = none ∧ parseDate c!"2024-01-05" = none ∧ parseDate c!"20240230" = none ∧
    parseDateTime c!"20240105t010203" = none ∧ parseDateTime c!"20240105 010203" = none ∧
    parseDateTime c!"20240105T0102" = none ∧ parseUtc c!"20240105T010203" = none ∧
    parseUtc c!"20240105T010203z" = none ∧ parseUtc c!"20240105T010203ZZ" = none := by decide +kernel

/-- a text with a blank, in the sense of the specification -/
example : LooseDate c!"2024 15" ⟨2024, 1, 5⟩ [] ↔ False := by
  rw [← parseDate_iff]
  decide +kernel

example : LooseDate c!"2024 1 5" ⟨2024, 1, 5⟩ [] := by
  refine ⟨c!" 1 5", c!" 5", ⟨[], _, rfl, by simp, .inl ⟨2024, rfl, c!"2024", rfl, by decide, by decide,
    ⟨rfl, by decide, by decide⟩, .inl rfl⟩⟩, ⟨[' '], _, rfl, by decide, ['1'], rfl, by decide, by decide,
    ⟨rfl, by decide, by decide⟩, .inr (by decide)⟩, ⟨[' '], _, rfl, by decide, ['5'], rfl, by decide, by decide,
    ⟨rfl, by decide, by decide⟩, .inr (by decide)⟩, by decide, by decide, by decide⟩

end Ical
