import Verif.Proofs.Digits
import Verif.Model.DateTime

/-!
Dates and times: printing and reading back.
-/

namespace Ical

theorem daysInMonth_le (y : Int) (m : Nat) : daysInMonth y m ≤ 31 := by
  unfold daysInMonth
  split <;> first | omega | (split <;> omega)

theorem fromYmd_valid {d : NaiveDate} (h : d.Valid) : fromYmd d.year d.month d.day = some d := by
  unfold fromYmd
  rw [if_pos h]

theorem scanDate_fmt {d : NaiveDate} (hv : d.Valid) (h0 : 0 ≤ d.year) (h1 : d.year ≤ 9999) (s : Str) :
    scanDate (fmtDate d ++ s) = some (d, s) := by
  have hday := daysInMonth_le d.year d.month
  have hv' := hv
  unfold NaiveDate.Valid at hv'
  unfold scanDate fmtDate fmtYear
  rw [if_pos ⟨h0, h1⟩, List.append_assoc, List.append_assoc, scanYear_fmt4 (by omega)]
  simp only [Option.bind_eq_bind, Option.bind_some]
  rw [scan2_fmt2 (by omega)]
  simp only [Option.bind_some]
  rw [scan2_fmt2 (by omega)]
  simp only [Option.bind_some]
  have : ((d.year.toNat : Nat) : Int) = d.year := by omega
  rw [this, fromYmd_valid hv]
  rfl

/-- the date-time at whole seconds; a leap second stays one -/
def NaiveDateTime.wholeSecond (t : NaiveDateTime) : NaiveDateTime :=
  { t with nano := t.nano / 1000000000 * 1000000000 }

theorem scanTime_fmt {t : NaiveDateTime} (hv : t.Valid) (s : Str) :
    scanTime t.date (fmt2 t.hour ++ fmt2 t.min ++ fmtSec t ++ s) = some (t.wholeSecond, s) := by
  unfold NaiveDateTime.Valid at hv
  unfold scanTime fmtSec
  rw [List.append_assoc, List.append_assoc, scan2_fmt2 (by omega)]
  simp only [Option.bind_eq_bind, Option.bind_some]
  rw [scan2_fmt2 (by omega)]
  simp only [Option.bind_some]
  rw [scan2_fmt2 (by omega)]
  simp only [Option.bind_some]
  rw [if_pos (by omega)]
  unfold NaiveDateTime.wholeSecond
  by_cases hl : t.nano < 1000000000
  · rw [if_neg (by omega)]
    have : t.nano / 1000000000 = 0 := by omega
    simp [this]
  · rw [if_pos (by omega)]
    have : t.nano / 1000000000 = 1 := by omega
    have h59 : t.sec = 59 := by omega
    simp [this, h59]

theorem parseDate_fmt {d : NaiveDate} (hv : d.Valid) (h0 : 0 ≤ d.year) (h1 : d.year ≤ 9999) :
    parseDate (fmtDate d) = some d := by
  unfold parseDate
  have := scanDate_fmt hv h0 h1 []
  rw [List.append_nil] at this
  rw [this]
  rfl

theorem parseDateTime_fmt {t : NaiveDateTime} (hv : t.Valid) (h0 : 0 ≤ t.date.year) (h1 : t.date.year ≤ 9999) :
    parseDateTime (fmtDateTime t) = some t.wholeSecond := by
  unfold parseDateTime fmtDateTime
  rw [scanDate_fmt hv.1 h0 h1]
  simp only [Option.bind_eq_bind, Option.bind_some, scanLit, if_true]
  have := scanTime_fmt hv []
  rw [List.append_nil] at this
  rw [this]
  rfl

theorem parseUtc_fmt {t : UtcDateTime} (hv : t.naive.Valid) (h0 : 0 ≤ t.naive.date.year)
    (h1 : t.naive.date.year ≤ 9999) : parseUtc (fmtUtc t) = some ⟨t.naive.wholeSecond⟩ := by
  unfold parseUtc fmtUtc fmtDateTime
  rw [List.append_assoc, scanDate_fmt hv.1 h0 h1]
  simp only [Option.bind_eq_bind, Option.bind_some, scanLit, if_true, List.cons_append]
  have := scanTime_fmt hv ['Z']
  rw [this]
  rfl

/-- the three formats exclude each other -/
theorem parseUtc_fmtDate {d : NaiveDate} (hv : d.Valid) (h0 : 0 ≤ d.year) (h1 : d.year ≤ 9999) :
    parseUtc (fmtDate d) = none := by
  unfold parseUtc
  have := scanDate_fmt hv h0 h1 []
  rw [List.append_nil] at this
  rw [this]
  rfl

theorem parseUtc_fmtDateTime {t : NaiveDateTime} (hv : t.Valid) (h0 : 0 ≤ t.date.year)
    (h1 : t.date.year ≤ 9999) : parseUtc (fmtDateTime t) = none := by
  unfold parseUtc fmtDateTime
  rw [scanDate_fmt hv.1 h0 h1]
  simp only [Option.bind_eq_bind, Option.bind_some, scanLit, if_true]
  have := scanTime_fmt hv []
  rw [List.append_nil] at this
  rw [this]
  rfl

theorem parseDate_fmtDateTime {t : NaiveDateTime} (hv : t.Valid) (h0 : 0 ≤ t.date.year)
    (h1 : t.date.year ≤ 9999) : parseDate (fmtDateTime t) = none := by
  unfold parseDate fmtDateTime
  rw [scanDate_fmt hv.1 h0 h1]
  rfl

theorem parseDateTime_fmtUtc {t : UtcDateTime} (hv : t.naive.Valid) (h0 : 0 ≤ t.naive.date.year)
    (h1 : t.naive.date.year ≤ 9999) : parseDateTime (fmtUtc t) = none := by
  unfold parseDateTime fmtUtc fmtDateTime
  rw [List.append_assoc, scanDate_fmt hv.1 h0 h1]
  simp only [Option.bind_eq_bind, Option.bind_some, scanLit, if_true, List.cons_append]
  have := scanTime_fmt hv ['Z']
  rw [this]
  rfl

/-! ### Years outside 0..=9999 -/

/-- the text does not continue a number -/
def NoDigit (s : Str) : Prop := s = [] ∨ ∃ r, s = 'T' :: r

theorem scan2_noDigit {s : Str} (h : NoDigit s) : scan2 s = none := by
  rcases h with rfl | ⟨r, rfl⟩
  · rfl
  · unfold scan2 trimStart
    have : isWhitespace 'T' = false := by decide
    rw [List.dropWhile_cons, this]
    rfl

theorem scanNumberGo_digits (n acc : Nat) (ds s : Str) (hd : ∀ c ∈ ds, IsDigit c) (hn : ds.length ≤ n)
    (hs : NoDigit s) : scanNumberGo n acc (ds ++ s) = none ∨ ∃ v, scanNumberGo n acc (ds ++ s) = some (v, s) := by
  induction ds generalizing n acc with
  | nil =>
    right
    rw [List.nil_append]
    rcases hs with rfl | ⟨r, rfl⟩
    · cases n <;> exact ⟨_, rfl⟩
    · cases n <;> exact ⟨_, rfl⟩
  | cons c ds ih =>
    cases n with
    | zero => simp at hn
    | succ n =>
      have hc := isDigit_iff.1 (hd c (by simp))
      rw [List.cons_append]
      unfold scanNumberGo
      cases hv : digitVal c with
      | none => rw [hv] at hc; cases hc
      | some d =>
        simp only
        split
        · exact ih n _ (fun x hx => hd x (by simp [hx])) (by simpa using hn)
        · exact .inl rfl

theorem scanNumber_digits (n : Nat) (ds s : Str) (hd : ∀ c ∈ ds, IsDigit c) (hn : ds.length ≤ n)
    (hs : NoDigit s) : scanNumber n (ds ++ s) = none ∨ ∃ v, scanNumber n (ds ++ s) = some (v, s) := by
  unfold scanNumber
  cases h : ds ++ s with
  | nil => exact .inl rfl
  | cons c r =>
    simp only
    split
    · rw [← h]
      exact scanNumberGo_digits n 0 ds s hd hn hs
    · exact .inl rfl

theorem fmt4_digits (n : Nat) : ∀ c ∈ fmt4 n, IsDigit c := by
  unfold fmt4
  intro c hc
  rw [List.mem_append, List.mem_replicate] at hc
  rcases hc with ⟨_, rfl⟩ | hc
  · decide
  · exact isDigit_natToStr n c hc

theorem fmt2_digits (n : Nat) : ∀ c ∈ fmt2 n, IsDigit c := by
  unfold fmt2
  intro c hc
  split at hc
  · rcases List.mem_cons.1 hc with rfl | hc
    · decide
    · exact isDigit_natToStr n c hc
  · exact isDigit_natToStr n c hc

/-- the year takes all digits of the date, so that no month is left -/
theorem scanDate_bigYear {d : NaiveDate} (h : ¬ (0 ≤ d.year ∧ d.year ≤ 9999)) {s : Str} (hs : NoDigit s) :
    scanDate (fmtDate d ++ s) = none := by
  have hds : ∀ n, ∀ c ∈ fmt4 n ++ fmt2 d.month ++ fmt2 d.day, IsDigit c := by
    intro n c hc
    simp only [List.mem_append] at hc
    rcases hc with (hc | hc) | hc
    · exact fmt4_digits _ c hc
    · exact fmt2_digits _ c hc
    · exact fmt2_digits _ c hc
  have key : ∀ n, scanNumber ((fmt4 n ++ fmt2 d.month ++ fmt2 d.day ++ s).length)
      (fmt4 n ++ fmt2 d.month ++ fmt2 d.day ++ s) = none ∨
      ∃ v, scanNumber ((fmt4 n ++ fmt2 d.month ++ fmt2 d.day ++ s).length)
        (fmt4 n ++ fmt2 d.month ++ fmt2 d.day ++ s) = some (v, s) := by
    intro n
    exact scanNumber_digits _ _ s (hds n) (by simp) hs
  have ws : ∀ c : Char, c = '+' ∨ c = '-' → ∀ t, trimStart (c :: t) = c :: t := by
    intro c hc t
    unfold trimStart
    rw [List.dropWhile_cons]
    rcases hc with rfl | rfl <;> rfl
  unfold scanDate fmtDate fmtYear
  rw [if_neg h]
  split
  · have e : '+' :: fmt4 d.year.toNat ++ fmt2 d.month ++ fmt2 d.day ++ s =
      '+' :: (fmt4 d.year.toNat ++ fmt2 d.month ++ fmt2 d.day ++ s) := by simp
    rw [e]
    unfold scanYear
    simp only [ws '+' (.inl rfl)]
    rcases key d.year.toNat with h | ⟨v, h⟩
    · simp only [h, Option.map_none, Option.bind_eq_bind, Option.bind_none]
    · simp only [h, Option.map_some, Option.bind_eq_bind, Option.bind_some, scan2_noDigit hs, Option.bind_none]
  · have e : '-' :: fmt4 (-d.year).toNat ++ fmt2 d.month ++ fmt2 d.day ++ s =
      '-' :: (fmt4 (-d.year).toNat ++ fmt2 d.month ++ fmt2 d.day ++ s) := by simp
    rw [e]
    unfold scanYear
    simp only [ws '-' (.inr rfl)]
    rcases key (-d.year).toNat with h | ⟨v, h⟩
    · simp only [h, Option.map_none, Option.bind_eq_bind, Option.bind_none]
    · simp only [h, Option.map_some, Option.bind_eq_bind, Option.bind_some, scan2_noDigit hs, Option.bind_none]

theorem parse_bigYear {d : NaiveDate} (h : ¬ (0 ≤ d.year ∧ d.year ≤ 9999)) {s : Str} (hs : NoDigit s) :
    parseDate (fmtDate d ++ s) = none ∧ parseDateTime (fmtDate d ++ s) = none ∧ parseUtc (fmtDate d ++ s) = none := by
  have := scanDate_bigYear h hs
  unfold parseDate parseDateTime parseUtc
  rw [this]
  exact ⟨rfl, rfl, rfl⟩

/-! ### Reading eight digits -/

theorem scanDate_eight {a b c d e f g h : Nat} (ha : a < 10) (hb : b < 10) (hc : c < 10) (hd : d < 10)
    (he : e < 10) (hf : f < 10) (hg : g < 10) (hh : h < 10) {s s' : Str} {x : NaiveDate}
    (hx : scanDate (a.digitChar :: b.digitChar :: c.digitChar :: d.digitChar :: e.digitChar :: f.digitChar ::
      g.digitChar :: h.digitChar :: s) = some (x, s')) :
    fmtDate x = [a.digitChar, b.digitChar, c.digitChar, d.digitChar, e.digitChar, f.digitChar, g.digitChar,
      h.digitChar] ∧ s' = s := by
  unfold scanDate at hx
  rw [scanYear_digits ha hb hc hd] at hx
  simp only [Option.bind_eq_bind, Option.bind_some] at hx
  rw [scan2_digits he hf] at hx
  simp only [Option.bind_some] at hx
  rw [scan2_digits hg hh] at hx
  simp only [Option.bind_some] at hx
  unfold fromYmd at hx
  split at hx
  · simp only [Option.bind_some, Option.pure_def, Option.some.injEq, Prod.mk.injEq] at hx
    obtain ⟨rfl, rfl⟩ := hx
    refine ⟨?_, rfl⟩
    unfold fmtDate fmtYear
    rw [if_pos (by constructor <;> simp only <;> omega), fmt4_eq (by simp only; omega), fmt2_eq (by simp only; omega),
      fmt2_eq (by simp only; omega)]
    simp only [Int.toNat_natCast, List.cons_append, List.nil_append]
    rw [show (a * 1000 + b * 100 + c * 10 + d) / 1000 = a by omega,
      show (a * 1000 + b * 100 + c * 10 + d) / 100 % 10 = b by omega,
      show (a * 1000 + b * 100 + c * 10 + d) / 10 % 10 = c by omega,
      show (a * 1000 + b * 100 + c * 10 + d) % 10 = d by omega,
      show (e * 10 + f) / 10 = e by omega, show (e * 10 + f) % 10 = f by omega,
      show (g * 10 + h) / 10 = g by omega, show (g * 10 + h) % 10 = h by omega]
  · cases hx

theorem digit_exists {c : Char} (h : IsDigit c) : ∃ d, d < 10 ∧ c = d.digitChar := by
  rw [isDigit_iff] at h
  cases hv : digitVal c with
  | none => rw [hv] at h; cases h
  | some d => exact ⟨d, digitVal_lt hv⟩

/-- a date read from text that starts with eight digits prints as these digits -/
theorem scanDate_take {v s' : Str} {x : NaiveDate} (hd : ∀ c ∈ v.take 8, IsDigit c) (hl : 8 ≤ v.length)
    (hx : scanDate v = some (x, s')) : fmtDate x = v.take 8 := by
  match v, hl with
  | c1 :: c2 :: c3 :: c4 :: c5 :: c6 :: c7 :: c8 :: s, _ =>
    obtain ⟨a, ha, rfl⟩ := digit_exists (hd c1 (by simp))
    obtain ⟨b, hb, rfl⟩ := digit_exists (hd c2 (by simp))
    obtain ⟨c, hc, rfl⟩ := digit_exists (hd c3 (by simp))
    obtain ⟨d, hd', rfl⟩ := digit_exists (hd c4 (by simp))
    obtain ⟨e, he, rfl⟩ := digit_exists (hd c5 (by simp))
    obtain ⟨f, hf, rfl⟩ := digit_exists (hd c6 (by simp))
    obtain ⟨g, hg, rfl⟩ := digit_exists (hd c7 (by simp))
    obtain ⟨h, hh, rfl⟩ := digit_exists (hd c8 (by simp))
    rw [(scanDate_eight ha hb hc hd' he hf hg hh hx).1]
    rfl

end Ical
