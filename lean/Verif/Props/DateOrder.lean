import Verif.Spec.DateOrder
import Verif.Props.Dates

/-!
C101: the order of the texts of dates and times.
-/

namespace Ical

open Spec

/-! ### Lexicographic order -/

theorem append_lt_append {α : Type} [LT α] {a b s t : List α} (h : a.length = b.length) :
    a ++ s < b ++ t ↔ a < b ∨ a = b ∧ s < t := by
  induction a generalizing b with
  | nil =>
    cases b with
    | nil => simp
    | cons => simp at h
  | cons x a ih =>
    cases b with
    | nil => simp at h
    | cons y b =>
      rw [List.cons_append, List.cons_append, List.cons_lt_cons_iff, List.cons_lt_cons_iff, ih (by simpa using h),
        List.cons.injEq]
      constructor
      · rintro (h1 | ⟨h1, h2 | ⟨h2, h3⟩⟩)
        · exact .inl (.inl h1)
        · exact .inl (.inr ⟨h1, h2⟩)
        · exact .inr ⟨⟨h1, h2⟩, h3⟩
      · rintro ((h1 | ⟨h1, h2⟩) | ⟨⟨h1, h2⟩, h3⟩)
        · exact .inl h1
        · exact .inr ⟨h1, .inl h2⟩
        · exact .inr ⟨h1, .inr ⟨h2, h3⟩⟩

theorem digitChar_lt {a b : Nat} (ha : a < 10) (hb : b < 10) : a.digitChar < b.digitChar ↔ a < b := by
  rw [Char.lt_def, UInt32.lt_iff_toNat_lt]
  show a.digitChar.toNat < b.digitChar.toNat ↔ a < b
  rw [Nat.toNat_digitChar_of_lt_ten ha, Nat.toNat_digitChar_of_lt_ten hb]
  omega

theorem digitChar_inj {a b : Nat} (ha : a < 10) (hb : b < 10) : a.digitChar = b.digitChar ↔ a = b := by
  refine ⟨fun h => ?_, fun h => by rw [h]⟩
  have := congrArg Char.toNat h
  rw [Nat.toNat_digitChar_of_lt_ten ha, Nat.toNat_digitChar_of_lt_ten hb] at this
  omega

theorem fmt2_lt {a b : Nat} (ha : a < 100) (hb : b < 100) : (fmt2 a < fmt2 b ↔ a < b) ∧ (fmt2 a = fmt2 b ↔ a = b) := by
  rw [fmt2_eq ha, fmt2_eq hb]
  simp only [List.cons_lt_cons_iff, List.cons.injEq, and_true, List.lt_irrefl, and_false, or_false]
  rw [digitChar_lt (by omega) (by omega), digitChar_lt (by omega) (by omega), digitChar_inj (by omega) (by omega),
    digitChar_inj (by omega) (by omega)]
  omega

theorem fmt4_lt {a b : Nat} (ha : a < 10000) (hb : b < 10000) :
    (fmt4 a < fmt4 b ↔ a < b) ∧ (fmt4 a = fmt4 b ↔ a = b) := by
  rw [fmt4_eq ha, fmt4_eq hb]
  simp only [List.cons_lt_cons_iff, List.cons.injEq, and_true, List.lt_irrefl, and_false, or_false]
  rw [digitChar_lt (by omega) (by omega), digitChar_lt (by omega) (by omega), digitChar_lt (by omega) (by omega),
    digitChar_lt (by omega) (by omega), digitChar_inj (by omega) (by omega), digitChar_inj (by omega) (by omega),
    digitChar_inj (by omega) (by omega), digitChar_inj (by omega) (by omega)]
  omega

/-- two texts of the same length, when the one is before the other and when they are the same -/
structure Compared (a b : Str) (p q : Prop) : Prop where
  length : a.length = b.length
  lt : a < b ↔ p
  eq : a = b ↔ q

theorem Compared.append {a b s t : Str} {p q p' q' : Prop} (h : Compared a b p q) (h' : Compared s t p' q') :
    Compared (a ++ s) (b ++ t) (p ∨ q ∧ p') (q ∧ q') where
  length := by simp [h.length, h'.length]
  lt := by rw [append_lt_append h.length, h.lt, h.eq, h'.lt]
  eq := by
    rw [← h.eq, ← h'.eq]
    exact ⟨fun e => List.append_inj e h.length, fun e => by rw [e.1, e.2]⟩

theorem Compared.same (a : Str) : Compared a a False True where
  length := rfl
  lt := ⟨fun h => absurd h (List.lt_irrefl a), fun h => h.elim⟩
  eq := ⟨fun _ => trivial, fun _ => rfl⟩

theorem compared_fmt2 {a b : Nat} (ha : a < 100) (hb : b < 100) : Compared (fmt2 a) (fmt2 b) (a < b) (a = b) where
  length := by rw [fmt2_eq ha, fmt2_eq hb]; rfl
  lt := (fmt2_lt ha hb).1
  eq := (fmt2_lt ha hb).2

theorem compared_year {a b : Int} (ha : 0 ≤ a ∧ a ≤ 9999) (hb : 0 ≤ b ∧ b ≤ 9999) :
    Compared (fmtYear a) (fmtYear b) (a < b) (a = b) := by
  have t1 : a.toNat < 10000 := by omega
  have t2 : b.toNat < 10000 := by omega
  unfold fmtYear
  rw [if_pos ha, if_pos hb]
  refine ⟨by rw [fmt4_eq t1, fmt4_eq t2]; rfl, ?_, ?_⟩
  · rw [(fmt4_lt t1 t2).1]; omega
  · rw [(fmt4_lt t1 t2).2]; omega

theorem day_lt {d : NaiveDate} (h : d.Valid) : d.month < 100 ∧ d.day < 100 := by
  obtain ⟨-, -, -, h1, -, h2⟩ := h
  have : daysInMonth d.year d.month ≤ 31 := by
    unfold daysInMonth
    split <;> first | omega | (split <;> omega)
  omega

theorem compared_date {a b : NaiveDate} (ha : a.Valid) (hb : b.Valid) (ya : FourDigitYear a) (yb : FourDigitYear b) :
    Compared (fmtDate a) (fmtDate b) (dateParts a < dateParts b) (a = b) := by
  obtain ⟨m1, d1⟩ := day_lt ha
  obtain ⟨m2, d2⟩ := day_lt hb
  have h := ((compared_year ya yb).append (compared_fmt2 m1 m2)).append (compared_fmt2 d1 d2)
  refine ⟨h.length, h.lt.trans ?_, h.eq.trans ?_⟩
  · unfold dateParts
    simp only [List.cons_lt_cons_iff, List.lt_irrefl, and_false, or_false]
    omega
  · obtain ⟨y, m, d⟩ := a
    obtain ⟨y', m', d'⟩ := b
    simp [and_assoc]

/-- the time to the second -/
theorem compared_time {a b : NaiveDateTime} (ha : a.Valid) (hb : b.Valid) (ya : FourDigitYear a.date)
    (yb : FourDigitYear b.date) :
    Compared (fmtDateTime a) (fmtDateTime b) (timeParts a < timeParts b) (timeParts a = timeParts b) := by
  obtain ⟨da, h1, h2, h3, h4⟩ := ha
  obtain ⟨db, g1, g2, g3, g4⟩ := hb
  have s1 : a.sec + a.nano / 1000000000 < 100 := by omega
  have s2 : b.sec + b.nano / 1000000000 < 100 := by omega
  have h := (compared_date da db ya yb).append ((Compared.same ['T']).append
    (((compared_fmt2 (a := a.hour) (b := b.hour) (by omega) (by omega)).append
      (compared_fmt2 (a := a.min) (b := b.min) (by omega) (by omega))).append (compared_fmt2 s1 s2)))
  have l3 : (dateParts a.date).length = (dateParts b.date).length := rfl
  have e : ∀ t, fmtDateTime t = fmtDate t.date ++ (['T'] ++ (fmt2 t.hour ++ fmt2 t.min ++ fmtSec t)) := fun _ => rfl
  have hd : dateParts a.date = dateParts b.date ↔ a.date = b.date := by
    obtain ⟨⟨y, m, d⟩, -⟩ := a
    obtain ⟨⟨y', m', d'⟩, -⟩ := b
    unfold dateParts
    simp
    omega
  rw [e, e]
  refine ⟨h.length, h.lt.trans ?_, h.eq.trans ?_⟩
  · unfold timeParts
    rw [append_lt_append l3, hd]
    simp only [List.cons_lt_cons_iff, List.lt_irrefl, and_false, or_false, false_or, true_and]
    have c1 : ∀ x y : Nat, ((x : Int) < (y : Int)) ↔ x < y := by omega
    have c2 : ∀ x y : Nat, ((x : Int) = (y : Int)) ↔ x = y := by omega
    simp only [c1, c2, and_or_left, and_assoc, or_assoc]
  · unfold timeParts
    rw [← hd]
    refine ⟨fun e => ?_, fun e => ?_⟩
    · rw [e.1, e.2.2.1.1, e.2.2.1.2, e.2.2.2]
    · obtain ⟨e1, e2⟩ := List.append_inj e l3
      simp only [List.cons.injEq, and_true] at e2
      exact ⟨e1, trivial, ⟨by omega, by omega⟩, by omega⟩

/-! ### C101 -/

/-- **C101.** Texts of dates in the years 0 to 9999 are in the order of the dates. -/
theorem date_text_order (a b : NaiveDate) (ha : a.Valid) (hb : b.Valid) (ya : FourDigitYear a) (yb : FourDigitYear b)
    (key : Str) :
    (((DatePerhapsTime.date a).toProperty key).val < ((DatePerhapsTime.date b).toProperty key).val ↔
      dateParts a < dateParts b) ∧
    (((DatePerhapsTime.date a).toProperty key).val = ((DatePerhapsTime.date b).toProperty key).val ↔ a = b) :=
  ⟨(compared_date ha hb ya yb).lt, (compared_date ha hb ya yb).eq⟩

/-- **C101.** Texts of times in UTC, and those of times without zone, in the years 0 to 9999 are in the order of the
times. -/
theorem time_text_order (a b : NaiveDateTime) (ha : a.Valid) (hb : b.Valid) (ya : FourDigitYear a.date)
    (yb : FourDigitYear b.date) (key : Str) (form : NaiveDateTime → CalDateTime)
    (hf : form = (fun t => .utc ⟨t⟩) ∨ form = .floating) :
    (((form a).toProperty key).val < ((form b).toProperty key).val ↔ timeParts a < timeParts b) ∧
    (((form a).toProperty key).val = ((form b).toProperty key).val ↔ timeParts a = timeParts b) := by
  have h := compared_time ha hb ya yb
  rcases hf with rfl | rfl
  · have h' := h.append (Compared.same ['Z'])
    exact ⟨h'.lt.trans (by simp), h'.eq.trans (by simp)⟩
  · exact ⟨h.lt, h.eq⟩

/-- **C101, what is violated.** Beyond the year 9999 the texts are longer and start with a sign, so that the year 10000
comes before the year 2026; before the year 0 the earlier of two years comes last. -/
theorem date_text_order_violated :
    (∃ a b : NaiveDate, a.Valid ∧ b.Valid ∧ FourDigitYear a ∧ dateParts a < dateParts b ∧ fmtDate b < fmtDate a) ∧
    (∃ a b : NaiveDate, a.Valid ∧ b.Valid ∧ FourDigitYear b ∧ dateParts a < dateParts b ∧ ¬ FourDigitYear a ∧
      ∃ a' : NaiveDate, a'.Valid ∧ dateParts a' < dateParts a ∧ fmtDate a < fmtDate a') := by
  refine ⟨⟨⟨2026, 11, 17⟩, ⟨10000, 1, 1⟩, ?_⟩, ⟨⟨-1, 1, 1⟩, ⟨2026, 11, 17⟩, ?_, ?_, ?_, ?_, ?_, ⟨-2, 1, 1⟩, ?_⟩⟩ <;>
    decide +kernel

example : (fmtDate ⟨2026, 2, 28⟩ < fmtDate ⟨2026, 11, 1⟩) ∧ fmtDate ⟨2026, 2, 28⟩ = c!"20260228" := by decide +kernel

example : ((CalDateTime.utc ⟨⟨⟨2026, 11, 17⟩, 9, 59, 59, 1000000000⟩⟩).toProperty c!"DTSTART").val = c!"20261117T095960Z" ∧
    ((CalDateTime.utc ⟨⟨⟨2026, 11, 17⟩, 9, 59, 59, 1000000000⟩⟩).toProperty c!"DTSTART").val <
      ((CalDateTime.utc ⟨⟨⟨2026, 11, 17⟩, 10, 0, 0, 0⟩⟩).toProperty c!"DTSTART").val := by decide +kernel

end Ical
