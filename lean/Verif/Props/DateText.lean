import Verif.Spec.DateText
import Verif.Props.Zones
import Verif.Props.Params

/-!
C74: what is read from the texts RFC 5545 defines for dates and times, and which kind of value is read.
C75: the two readers of dates agree.
-/

namespace Ical

open Spec

theorem lookup_mem {α : Type} {k : Str} {v : α} {l : List (Str × α)} (h : l.lookup k = some v) : (k, v) ∈ l := by
  induction l with
  | nil => cases h
  | cons x l ih =>
    rw [List.lookup_cons] at h
    split at h
    · rename_i hk
      cases h
      rw [beq_iff_eq.1 hk]
      exact .head _
    · exact .tail _ (ih h)

/-! ### numbers -/

theorem digitChar_val {d : Nat} (h : d < 10) : d.digitChar.toNat - '0'.toNat = d := by
  have := Nat.toNat_digitChar_of_lt_ten h
  have : '0'.toNat = 48 := by decide
  omega

theorem number2 {s : Str} {n : Nat} (h : Number 2 s n) :
    ∃ a b, a < 10 ∧ b < 10 ∧ s = [a.digitChar, b.digitChar] ∧ n = a * 10 + b := by
  obtain ⟨h1, h2, h3⟩ := h
  match s, h1 with
  | [x, y], _ =>
    obtain ⟨a, ha, rfl⟩ := digit_exists (h2 x (by simp))
    obtain ⟨b, hb, rfl⟩ := digit_exists (h2 y (by simp))
    refine ⟨a, b, ha, hb, rfl, ?_⟩
    rw [← h3]
    simp only [List.foldl_cons, List.foldl_nil]
    rw [digitChar_val ha, digitChar_val hb]
    omega

theorem number4 {s : Str} {n : Nat} (h : Number 4 s n) :
    ∃ a b c d, a < 10 ∧ b < 10 ∧ c < 10 ∧ d < 10 ∧ s = [a.digitChar, b.digitChar, c.digitChar, d.digitChar] ∧
      n = a * 1000 + b * 100 + c * 10 + d := by
  obtain ⟨h1, h2, h3⟩ := h
  match s, h1 with
  | [x, y, z, w], _ =>
    obtain ⟨a, ha, rfl⟩ := digit_exists (h2 x (by simp))
    obtain ⟨b, hb, rfl⟩ := digit_exists (h2 y (by simp))
    obtain ⟨c, hc, rfl⟩ := digit_exists (h2 z (by simp))
    obtain ⟨d, hd, rfl⟩ := digit_exists (h2 w (by simp))
    refine ⟨a, b, c, d, ha, hb, hc, hd, rfl, ?_⟩
    rw [← h3]
    simp only [List.foldl_cons, List.foldl_nil]
    rw [digitChar_val ha, digitChar_val hb, digitChar_val hc, digitChar_val hd]
    omega

theorem scan2_number {s : Str} {n : Nat} (h : Number 2 s n) (r : Str) : scan2 (s ++ r) = some (n, r) := by
  obtain ⟨a, b, ha, hb, rfl, rfl⟩ := number2 h
  exact scan2_digits ha hb r

theorem scanYear_number {s : Str} {n : Nat} (h : Number 4 s n) (r : Str) :
    scanYear (s ++ r) = some ((n : Int), r) ∧ n ≤ 9999 := by
  obtain ⟨a, b, c, d, ha, hb, hc, hd, rfl, rfl⟩ := number4 h
  exact ⟨scanYear_digits ha hb hc hd r, by omega⟩

theorem leap_iff (y : Int) : isLeap y = true ↔ 4 ∣ y ∧ (100 ∣ y → 400 ∣ y) := by
  unfold isLeap
  simp only [Bool.or_eq_true, Bool.and_eq_true, beq_iff_eq, bne_iff_ne]
  omega

/-- the dates chrono can represent are the days of the Gregorian calendar in its range of years -/
theorem valid_iff (y : Int) (m d : Nat) :
    (⟨y, m, d⟩ : NaiveDate).Valid ↔ -262143 ≤ y ∧ y ≤ 262142 ∧ DayExists y m d := by
  have hl := leap_iff y
  have key : 1 ≤ m → m ≤ 12 → 1 ≤ d → (d ≤ daysInMonth y m ↔ (d ≤ 28 ∨ m ≠ 2 ∧ d ≤ 30 ∨
      m ∈ [1, 3, 5, 7, 8, 10, 12] ∧ d = 31 ∨ m = 2 ∧ d = 29 ∧ 4 ∣ y ∧ (100 ∣ y → 400 ∣ y))) := by
    intro h1 h2 h3
    simp only [List.mem_cons, List.not_mem_nil, or_false]
    have : m = 1 ∨ m = 2 ∨ m = 3 ∨ m = 4 ∨ m = 5 ∨ m = 6 ∨ m = 7 ∨ m = 8 ∨ m = 9 ∨ m = 10 ∨ m = 11 ∨ m = 12 := by
      omega
    rcases this with rfl | rfl | rfl | rfl | rfl | rfl | rfl | rfl | rfl | rfl | rfl | rfl
    case inr.inl =>
      simp only [daysInMonth]
      by_cases h : isLeap y = true
      · have := hl.1 h
        rw [if_pos h]
        simp only [eq_true this, and_true, true_and, ne_eq, not_true, false_and, false_or]
        simp
        omega
      · have : ¬ (4 ∣ y ∧ (100 ∣ y → 400 ∣ y)) := fun x => h (hl.2 x)
        rw [if_neg h]
        simp only [this, and_false, or_false, ne_eq, not_true, false_and, false_or]
        omega
    all_goals simp [daysInMonth]; try omega
  unfold NaiveDate.Valid DayExists
  simp only
  constructor
  · rintro ⟨a, b, c, e, f, g⟩; exact ⟨a, b, c, e, f, (key c e f).1 g⟩
  · rintro ⟨a, b, c, e, f, g⟩; exact ⟨a, b, c, e, f, (key c e f).2 g⟩

instance (y : Int) (m d : Nat) : Decidable (DayExists y m d) := by unfold DayExists; infer_instance

instance (h m s : Nat) : Decidable (TimeExists h m s) := by unfold TimeExists; infer_instance

theorem scanDate_text {s : Str} {y m d : Nat} (h : DateText s y m d) (r : Str) :
    scanDate (s ++ r) = if DayExists y m d then some (⟨y, m, d⟩, r) else none := by
  obtain ⟨a, b, c, rfl, h1, h2, h3⟩ := h
  have hy := (scanYear_number h1 []).2
  unfold scanDate
  rw [List.append_assoc, List.append_assoc, (scanYear_number h1 _).1]
  simp only [Option.bind_eq_bind, Option.bind_some]
  rw [scan2_number h2]
  simp only [Option.bind_some]
  rw [scan2_number h3]
  simp only [Option.bind_some]
  unfold fromYmd
  by_cases hv : DayExists y m d
  · rw [if_pos ((valid_iff _ _ _).2 ⟨by omega, by omega, hv⟩), if_pos hv]
    rfl
  · rw [if_neg (fun x => hv ((valid_iff _ _ _).1 x).2.2), if_neg hv]
    rfl

theorem scanTime_text {s : Str} {h m sec : Nat} (ht : TimeText s h m sec) (date : NaiveDate) (r : Str) :
    scanTime date (s ++ r) = if TimeExists h m sec then some (timeOn date h m sec, r) else none := by
  obtain ⟨a, b, c, rfl, h1, h2, h3⟩ := ht
  unfold scanTime
  rw [List.append_assoc, List.append_assoc, scan2_number h1]
  simp only [Option.bind_eq_bind, Option.bind_some]
  rw [scan2_number h2]
  simp only [Option.bind_some]
  rw [scan2_number h3]
  simp only [Option.bind_some]
  by_cases hv : TimeExists h m sec
  · have hv' := hv
    unfold TimeExists at hv'
    rw [if_pos (by omega), if_pos hv]
    unfold timeOn
    split <;> rfl
  · have hv' := hv
    unfold TimeExists at hv'
    rw [if_neg (by omega), if_neg hv]

/-! ### the three forms -/

theorem date_parses {s : Str} {y m d : Nat} (h : DateText s y m d) :
    parseDate s = (if DayExists y m d then some ⟨y, m, d⟩ else none) ∧ parseDateTime s = none ∧ parseUtc s = none := by
  have e := scanDate_text h []
  rw [List.append_nil] at e
  unfold parseDate parseDateTime parseUtc
  rw [e]
  by_cases hv : DayExists y m d
  · rw [if_pos hv]; exact ⟨by rw [if_pos hv]; rfl, rfl, rfl⟩
  · rw [if_neg hv]; exact ⟨by rw [if_neg hv]; rfl, rfl, rfl⟩

theorem dateTime_parses {s t : Str} {y m d h mi sec : Nat} (hs : DateText s y m d) (ht : TimeText t h mi sec) :
    parseDate (s ++ 'T' :: t) = none ∧
    parseDateTime (s ++ 'T' :: t) =
      (if DayExists y m d ∧ TimeExists h mi sec then some (timeOn ⟨y, m, d⟩ h mi sec) else none) ∧
    parseUtc (s ++ 'T' :: t) = none := by
  have e := scanDate_text hs ('T' :: t)
  have e' := scanTime_text ht ⟨y, m, d⟩ []
  rw [List.append_nil] at e'
  unfold parseDate parseDateTime parseUtc
  rw [e]
  by_cases hv : DayExists y m d
  · rw [if_pos hv]
    simp only [Option.bind_eq_bind, Option.bind_some, scanLit, if_true, e']
    by_cases hw : TimeExists h mi sec
    · rw [if_pos hw]; exact ⟨rfl, by rw [if_pos ⟨hv, hw⟩]; rfl, rfl⟩
    · rw [if_neg hw]; exact ⟨rfl, by rw [if_neg (fun x => hw x.2)]; rfl, rfl⟩
  · rw [if_neg hv]; exact ⟨rfl, by rw [if_neg (fun x => hv x.1)]; rfl, rfl⟩

theorem utc_parses {s t : Str} {y m d h mi sec : Nat} (hs : DateText s y m d) (ht : TimeText t h mi sec) :
    parseDate (s ++ 'T' :: t ++ ['Z']) = none ∧ parseDateTime (s ++ 'T' :: t ++ ['Z']) = none ∧
    parseUtc (s ++ 'T' :: t ++ ['Z']) =
      (if DayExists y m d ∧ TimeExists h mi sec then some ⟨timeOn ⟨y, m, d⟩ h mi sec⟩ else none) := by
  have e := scanDate_text hs ('T' :: t ++ ['Z'])
  have e' := scanTime_text ht ⟨y, m, d⟩ ['Z']
  rw [List.append_assoc]
  unfold parseDate parseDateTime parseUtc
  rw [e]
  by_cases hv : DayExists y m d
  · rw [if_pos hv]
    simp only [Option.bind_eq_bind, Option.bind_some, List.cons_append, scanLit, if_true, e']
    by_cases hw : TimeExists h mi sec
    · rw [if_pos hw]; exact ⟨rfl, rfl, by rw [if_pos ⟨hv, hw⟩]; rfl⟩
    · rw [if_neg hw]; exact ⟨rfl, rfl, by rw [if_neg (fun x => hw x.2)]; rfl⟩
  · rw [if_neg hv]; exact ⟨rfl, rfl, by rw [if_neg (fun x => hv x.1)]; rfl⟩

variable [Uni]

theorem valueType_date_iff (p : Property) :
    p.valueType = some .date ↔ p.params.lookup c!"VALUE" = some c!"DATE" := by
  have t1 : ∀ s, ValueType.fromStr s = some .date ↔ s = c!"DATE" := by
    intro s
    unfold ValueType.fromStr fromStrTable
    constructor
    · intro h
      have := lookup_mem h
      simpa using this
    · rintro rfl
      rfl
  have t2 : ∀ s, ValueType.byName s ≠ some .date := by
    intro s
    unfold ValueType.byName
    split
    · simp
    · intro h
      have := lookup_mem h
      revert this
      simp [byNameTable]
  rw [lookup_eq_get]
  unfold Property.valueType
  cases hg : p.params.get c!"VALUE" with
  | none => simp [t2]
  | some v =>
    simp only [Option.bind_some, Option.some.injEq]
    rw [← t1 v]
    cases hf : ValueType.fromStr v with
    | none => simp [t2]
    | some w => simp

/-- **C74.** A text `YYYYMMDD` in a property with VALUE=DATE is read as that day if the day exists, and not at all
otherwise; without VALUE=DATE it is not read. -/
theorem date_value_read (p : Property) (y m d : Nat) (h : DateText p.val y m d) :
    DatePerhapsTime.fromProperty p =
      if p.params.lookup c!"VALUE" = some c!"DATE" ∧ DayExists y m d then some (.date ⟨y, m, d⟩) else none := by
  obtain ⟨h1, h2, h3⟩ := date_parses h
  unfold DatePerhapsTime.fromProperty
  by_cases hv : p.params.lookup c!"VALUE" = some c!"DATE"
  · rw [if_pos ((valueType_date_iff p).2 hv), h1]
    by_cases he : DayExists y m d
    · rw [if_pos he, if_pos ⟨hv, he⟩]
    · rw [if_neg he, if_neg (fun x => he x.2)]
  · rw [if_neg (fun x => hv ((valueType_date_iff p).1 x)), if_neg (fun x => hv x.1)]
    unfold CalDateTime.fromProperty CalDateTime.fromStr
    rw [h2, h3]
    cases p.params.get c!"TZID" <;> rfl

/-- **C74.** A text `YYYYMMDDTHHMMSS` in a property without VALUE=DATE is read as that time if it exists: a local time
in the zone the TZID parameter names, or a floating time if there is none. -/
theorem date_time_value_read (p : Property) (s t : Str) (y m d h mi sec : Nat) (hp : p.val = s ++ 'T' :: t)
    (hs : DateText s y m d) (ht : TimeText t h mi sec) :
    DatePerhapsTime.fromProperty p =
      if p.params.lookup c!"VALUE" ≠ some c!"DATE" ∧ DayExists y m d ∧ TimeExists h mi sec then
        match p.params.lookup c!"TZID" with
        | none => some (.dateTime (.floating (timeOn ⟨y, m, d⟩ h mi sec)))
        | some z => some (.dateTime (.zoned (timeOn ⟨y, m, d⟩ h mi sec) z))
      else none := by
  obtain ⟨h1, h2, h3⟩ := dateTime_parses hs ht
  rw [← hp] at h1 h2 h3
  rw [lookup_eq_get c!"TZID"]
  unfold DatePerhapsTime.fromProperty
  by_cases hv : p.params.lookup c!"VALUE" = some c!"DATE"
  · rw [if_pos ((valueType_date_iff p).2 hv), h1, if_neg (fun x => x.1 hv)]
  · rw [if_neg (fun x => hv ((valueType_date_iff p).1 x))]
    unfold CalDateTime.fromProperty CalDateTime.fromStr
    rw [h2, h3]
    by_cases he : DayExists y m d ∧ TimeExists h mi sec
    · rw [if_pos he, if_pos ⟨hv, he⟩]
      cases p.params.get c!"TZID" <;> rfl
    · rw [if_neg he, if_neg (fun x => he x.2)]
      cases p.params.get c!"TZID" <;> rfl

/-- **C74.** A text `YYYYMMDDTHHMMSSZ` in a property without VALUE=DATE and without TZID is read as that UTC time if
it exists; with a TZID it is not read. -/
theorem utc_value_read (p : Property) (s t : Str) (y m d h mi sec : Nat) (hp : p.val = s ++ 'T' :: t ++ ['Z'])
    (hs : DateText s y m d) (ht : TimeText t h mi sec) :
    DatePerhapsTime.fromProperty p =
      if p.params.lookup c!"VALUE" ≠ some c!"DATE" ∧ p.params.lookup c!"TZID" = none ∧ DayExists y m d ∧
          TimeExists h mi sec then
        some (.dateTime (.utc ⟨timeOn ⟨y, m, d⟩ h mi sec⟩))
      else none := by
  obtain ⟨h1, h2, h3⟩ := utc_parses hs ht
  rw [← hp] at h1 h2 h3
  rw [lookup_eq_get c!"TZID"]
  unfold DatePerhapsTime.fromProperty
  by_cases hv : p.params.lookup c!"VALUE" = some c!"DATE"
  · rw [if_pos ((valueType_date_iff p).2 hv), h1, if_neg (fun x => x.1 hv)]
  · rw [if_neg (fun x => hv ((valueType_date_iff p).1 x))]
    unfold CalDateTime.fromProperty CalDateTime.fromStr
    rw [h2, h3]
    cases hg : p.params.get c!"TZID" with
    | some z => simp
    | none =>
      by_cases he : DayExists y m d ∧ TimeExists h mi sec
      · rw [if_pos he, if_pos ⟨hv, rfl, he⟩]
      · rw [if_neg he, if_neg (fun x => he x.2.2)]

omit [Uni] in
theorem scanNumberGo_suffix (n acc : Nat) (s : Str) (v : Nat) (r : Str) (h : scanNumberGo n acc s = some (v, r)) :
    ∃ a, s = a ++ r ∧ ∀ c ∈ a, IsDigit c := by
  induction n generalizing acc s with
  | zero => cases h; exact ⟨[], rfl, by simp⟩
  | succ n ih =>
    cases s with
    | nil => cases h; exact ⟨[], rfl, by simp⟩
    | cons c s =>
      unfold scanNumberGo at h
      cases hd : digitVal c with
      | none => rw [hd] at h; cases h; exact ⟨[], rfl, by simp⟩
      | some d =>
        rw [hd] at h
        simp only at h
        split at h
        · obtain ⟨a, rfl, ha⟩ := ih _ _ h
          refine ⟨c :: a, rfl, ?_⟩
          intro x hx
          rcases List.mem_cons.1 hx with rfl | hx
          · rw [isDigit_iff, hd]; rfl
          · exact ha x hx
        · cases h

omit [Uni] in
/-- a two-digit number ends in a digit -/
theorem scan2_suffix {s r : Str} {v : Nat} (h : scan2 s = some (v, r)) : ∃ a c, s = a ++ c :: r ∧ IsDigit c := by
  unfold scan2 scanNumber at h
  have hs : s = s.takeWhile isWhitespace ++ trimStart s := (List.takeWhile_append_dropWhile).symm
  cases ht : trimStart s with
  | nil => rw [ht] at h; cases h
  | cons c t =>
    rw [ht] at h
    simp only at h
    split at h
    · rename_i hc
      cases hd : digitVal c with
      | none => rw [hd] at hc; cases hc
      | some d =>
        unfold scanNumberGo at h
        rw [hd] at h
        simp only at h
        split at h
        · obtain ⟨a, ha, hda⟩ := scanNumberGo_suffix _ _ _ _ _ h
          rw [hs, ht, ha]
          rcases List.eq_nil_or_concat a with rfl | ⟨l, x, rfl⟩
          · exact ⟨s.takeWhile isWhitespace, c, by simp, by rw [isDigit_iff]; exact hc⟩
          · exact ⟨s.takeWhile isWhitespace ++ c :: l, x, by simp, hda x (by simp)⟩
        · cases h
    · cases h

omit [Uni] in
theorem scanTime_suffix {date : NaiveDate} {s r : Str} {t : NaiveDateTime} (h : scanTime date s = some (t, r)) :
    ∃ a c, s = a ++ c :: r ∧ IsDigit c := by
  unfold scanTime at h
  cases h1 : scan2 s with
  | none => rw [h1] at h; cases h
  | some x =>
    rw [h1] at h
    simp only [Option.bind_eq_bind, Option.bind_some] at h
    cases h2 : scan2 x.2 with
    | none => rw [h2] at h; cases h
    | some y =>
      rw [h2] at h
      simp only [Option.bind_some] at h
      cases h3 : scan2 y.2 with
      | none => rw [h3] at h; cases h
      | some z =>
        rw [h3] at h
        simp only [Option.bind_some] at h
        have : z.2 = r := by
          split at h
          · split at h <;> (cases h; rfl)
          · cases h
        obtain ⟨a, c, e1, -⟩ := scan2_suffix h1
        obtain ⟨a', c', e2, -⟩ := scan2_suffix h2
        obtain ⟨a'', c'', e3, hc⟩ := scan2_suffix h3
        rw [this] at e3
        exact ⟨a ++ c :: a' ++ c' :: a'', c'', by rw [e1, e2, e3]; simp, hc⟩

omit [Uni] in
theorem scanDate_suffix {s r : Str} {d : NaiveDate} (h : scanDate s = some (d, r)) : ∃ a, s = a ++ r := by
  unfold scanDate at h
  cases h1 : scanYear s with
  | none => rw [h1] at h; cases h
  | some x =>
    rw [h1] at h
    simp only [Option.bind_eq_bind, Option.bind_some] at h
    cases h2 : scan2 x.2 with
    | none => rw [h2] at h; cases h
    | some y =>
      rw [h2] at h
      simp only [Option.bind_some] at h
      cases h3 : scan2 y.2 with
      | none => rw [h3] at h; cases h
      | some z =>
        rw [h3] at h
        simp only [Option.bind_some] at h
        have : z.2 = r := by
          cases hf : fromYmd x.1 y.1 z.1 with
          | none => rw [hf] at h; cases h
          | some q => rw [hf] at h; cases h; rfl
        obtain ⟨a', c', e2, -⟩ := scan2_suffix h2
        obtain ⟨a'', c'', e3, -⟩ := scan2_suffix h3
        rw [this] at e3
        have e1 : ∃ a, s = a ++ x.2 := by
          have num : ∀ n t, (∃ q, t = trimStart s ∨ trimStart s = q :: t) → ∀ v r, scanNumber n t = some (v, r) →
              ∃ a, s = a ++ r := by
            intro n t ht v r h
            have hs : s = s.takeWhile isWhitespace ++ trimStart s := (List.takeWhile_append_dropWhile).symm
            have : ∃ b, t = b ++ r := by
              unfold scanNumber at h
              cases t with
              | nil => cases h
              | cons c t =>
                simp only at h
                split at h
                · obtain ⟨b, hb, -⟩ := scanNumberGo_suffix _ _ _ _ _ h
                  exact ⟨b, hb⟩
                · cases h
            obtain ⟨b, rfl⟩ := this
            obtain ⟨q, hq | hq⟩ := ht
            · exact ⟨s.takeWhile isWhitespace ++ b, by rw [List.append_assoc, hq]; exact hs⟩
            · exact ⟨s.takeWhile isWhitespace ++ q :: b, by
                rw [List.append_assoc, List.cons_append, ← hq]; exact hs⟩
          unfold scanYear at h1
          simp only at h1
          split at h1
          · rename_i t ht
            cases hn : scanNumber t.length t with
            | none => rw [hn] at h1; cases h1
            | some w => rw [hn] at h1; cases h1; exact num _ _ ⟨_, .inr ht⟩ _ _ hn
          · rename_i t ht
            cases hn : scanNumber t.length t with
            | none => rw [hn] at h1; cases h1
            | some w => rw [hn] at h1; cases h1; exact num _ _ ⟨_, .inr ht⟩ _ _ hn
          · cases hn : scanNumber 4 (trimStart s) with
            | none => rw [hn] at h1; cases h1
            | some w => rw [hn] at h1; cases h1; exact num _ _ ⟨'0', .inl rfl⟩ _ _ hn
        obtain ⟨a, e1⟩ := e1
        exact ⟨a ++ (a' ++ c' :: (a'' ++ [c''])), by rw [e1, e2, e3]; simp⟩

omit [Uni] in
theorem scanLit_suffix {c : Char} {s r : Str} (h : scanLit c s = some r) : s = c :: r := by
  unfold scanLit at h
  split at h
  · split at h
    · rename_i e; cases h; rw [e]
    · cases h
  · cases h

omit [Uni] in
theorem parseUtc_z {s : Str} {t : UtcDateTime} (h : parseUtc s = some t) : ∃ r, s = r ++ ['Z'] := by
  unfold parseUtc at h
  cases h1 : scanDate s with
  | none => rw [h1] at h; cases h
  | some x =>
    rw [h1] at h
    simp only [Option.bind_eq_bind, Option.bind_some] at h
    cases h2 : scanLit 'T' x.2 with
    | none => rw [h2] at h; cases h
    | some y =>
      rw [h2] at h
      simp only [Option.bind_some] at h
      cases h3 : scanTime x.1 y with
      | none => rw [h3] at h; cases h
      | some z =>
        rw [h3] at h
        simp only [Option.bind_some] at h
        cases h4 : scanLit 'Z' z.2 with
        | none => rw [h4] at h; cases h
        | some w =>
          rw [h4] at h
          simp only [Option.bind_some] at h
          split at h
          · rename_i hw
            obtain ⟨a, e1⟩ := scanDate_suffix h1
            obtain ⟨b, c, e3, -⟩ := scanTime_suffix h3
            rw [List.isEmpty_iff] at hw
            refine ⟨a ++ 'T' :: (b ++ [c]), ?_⟩
            rw [e1, scanLit_suffix h2, e3, scanLit_suffix h4, hw]
            simp
          · cases h

omit [Uni] in
theorem parseDateTime_noZ {s : Str} {t : NaiveDateTime} (h : parseDateTime s = some t) : ¬ ∃ r, s = r ++ ['Z'] := by
  unfold parseDateTime at h
  cases h1 : scanDate s with
  | none => rw [h1] at h; cases h
  | some x =>
    rw [h1] at h
    simp only [Option.bind_eq_bind, Option.bind_some] at h
    cases h2 : scanLit 'T' x.2 with
    | none => rw [h2] at h; cases h
    | some y =>
      rw [h2] at h
      simp only [Option.bind_some] at h
      cases h3 : scanTime x.1 y with
      | none => rw [h3] at h; cases h
      | some z =>
        rw [h3] at h
        simp only [Option.bind_some] at h
        split at h
        · rename_i hw
          obtain ⟨a, e1⟩ := scanDate_suffix h1
          obtain ⟨b, c, e3, hc⟩ := scanTime_suffix h3
          rw [List.isEmpty_iff] at hw
          rintro ⟨r, hr⟩
          rw [e1, scanLit_suffix h2, e3, hw, show a ++ 'T' :: (b ++ [c]) = (a ++ 'T' :: b) ++ [c] by simp] at hr
          have := List.append_inj_right' hr rfl
          simp only [List.cons.injEq, and_true] at this
          rw [this] at hc
          exact absurd hc (by decide)
        · cases h

/-- **C74.** Which kind of value is read: a date only with VALUE=DATE; a local time in a zone only with the TZID
parameter that names it; a UTC time only without TZID and from a text that ends in Z; a floating time only without TZID
and from a text that does not. -/
theorem date_kind_read (p : Property) (x : DatePerhapsTime) (h : DatePerhapsTime.fromProperty p = some x) :
    match x with
    | .date _ => p.params.lookup c!"VALUE" = some c!"DATE"
    | .dateTime (.zoned _ z) => p.params.lookup c!"VALUE" ≠ some c!"DATE" ∧ p.params.lookup c!"TZID" = some z
    | .dateTime (.utc _) => p.params.lookup c!"VALUE" ≠ some c!"DATE" ∧ p.params.lookup c!"TZID" = none ∧
        ∃ r, p.val = r ++ ['Z']
    | .dateTime (.floating _) => p.params.lookup c!"VALUE" ≠ some c!"DATE" ∧ p.params.lookup c!"TZID" = none ∧
        ¬ ∃ r, p.val = r ++ ['Z'] := by
  unfold DatePerhapsTime.fromProperty at h
  split at h
  · rename_i hv
    split at h
    · cases h
      exact (valueType_date_iff p).1 hv
    · cases h
  · rename_i hv
    have hv' : p.params.lookup c!"VALUE" ≠ some c!"DATE" := fun x => hv ((valueType_date_iff p).2 x)
    rw [lookup_eq_get c!"TZID"]
    unfold CalDateTime.fromProperty CalDateTime.fromStr at h
    cases hg : p.params.get c!"TZID" with
    | some z =>
      rw [hg] at h
      cases hp : parseDateTime p.val with
      | none => rw [hp] at h; cases h
      | some t => rw [hp] at h; cases h; exact ⟨hv', rfl⟩
    | none =>
      rw [hg] at h
      cases hp : parseDateTime p.val with
      | some t => rw [hp] at h; cases h; exact ⟨hv', rfl, parseDateTime_noZ hp⟩
      | none =>
        rw [hp] at h
        cases hu : parseUtc p.val with
        | none => rw [hu] at h; cases h
        | some t => rw [hu] at h; cases h; exact ⟨hv', rfl, parseUtc_z hu⟩

/-! ### the low-level reader -/

omit [Uni] in
/-- **C74.** The low-level reader (`DatePerhapsTime::try_from` of a parsed property) tells the kinds apart by the text
alone: the three forms are read as the day, local or UTC time they write if it exists, and not at all otherwise. -/
theorem parsed_date_read (p : PProp) :
    (∀ y m d, DateText p.val y m d →
      DatePerhapsTime.tryFromParsed p = if DayExists y m d then some (.date ⟨y, m, d⟩) else none) ∧
    (∀ s t y m d h mi sec, p.val = s ++ 'T' :: t → DateText s y m d → TimeText t h mi sec →
      DatePerhapsTime.tryFromParsed p =
        if DayExists y m d ∧ TimeExists h mi sec then
          match p.params.find? (fun q => q.key == c!"TZID") with
          | none => some (.dateTime (.floating (timeOn ⟨y, m, d⟩ h mi sec)))
          | some q => q.val.map (fun z => .dateTime (.zoned (timeOn ⟨y, m, d⟩ h mi sec) z))
        else none) ∧
    (∀ s t y m d h mi sec, p.val = s ++ 'T' :: t ++ ['Z'] → DateText s y m d → TimeText t h mi sec →
      DatePerhapsTime.tryFromParsed p =
        if DayExists y m d ∧ TimeExists h mi sec then some (.dateTime (.utc ⟨timeOn ⟨y, m, d⟩ h mi sec⟩)) else none) := by
  refine ⟨?_, ?_, ?_⟩
  · intro y m d h
    obtain ⟨h1, h2, h3⟩ := date_parses h
    unfold DatePerhapsTime.tryFromParsed
    rw [h1, h2, h3]
    by_cases hv : DayExists y m d
    · rw [if_pos hv, if_pos hv]
    · rw [if_neg hv, if_neg hv]
  · intro s t y m d h mi sec hp hs ht
    obtain ⟨h1, h2, h3⟩ := dateTime_parses hs ht
    rw [← hp] at h1 h2 h3
    unfold DatePerhapsTime.tryFromParsed
    rw [h1, h2, h3]
    by_cases hv : DayExists y m d ∧ TimeExists h mi sec
    · rw [if_pos hv, if_pos hv]
      cases p.params.find? (fun q => q.key == c!"TZID") with
      | none => rfl
      | some q => cases hq : q.val <;> simp [hq]
    · rw [if_neg hv, if_neg hv]
  · intro s t y m d h mi sec hp hs ht
    obtain ⟨h1, h2, h3⟩ := utc_parses hs ht
    rw [← hp] at h1 h2 h3
    unfold DatePerhapsTime.tryFromParsed
    rw [h1, h2, h3]
    by_cases hv : DayExists y m d ∧ TimeExists h mi sec
    · rw [if_pos hv, if_pos hv]
    · rw [if_neg hv, if_neg hv]

/-! ### C75 -/

/-- The kind of a value is the one the parameters of the property ask for. -/
def Spec.KindAsked (params : List (Str × Str)) : DatePerhapsTime → Prop
  | .date _ => params.lookup c!"VALUE" = some c!"DATE"
  | .dateTime (.utc _) => params.lookup c!"VALUE" ≠ some c!"DATE" ∧ params.lookup c!"TZID" = none
  | .dateTime _ => params.lookup c!"VALUE" ≠ some c!"DATE"

omit [Uni] in
theorem parse_exclusive (s : Str) :
    (∀ d, parseDate s = some d → parseDateTime s = none ∧ parseUtc s = none) ∧
    (∀ t, parseDateTime s = some t → parseDate s = none ∧ parseUtc s = none) ∧
    (∀ t, parseUtc s = some t → parseDate s = none ∧ parseDateTime s = none) := by
  have hd : ∀ d, parseDate s = some d → scanDate s = some (d, []) := by
    intro d h
    unfold parseDate at h
    cases h1 : scanDate s with
    | none => rw [h1] at h; cases h
    | some x =>
      rw [h1] at h
      simp only [Option.bind_eq_bind, Option.bind_some] at h
      split at h
      · rename_i hw
        cases h
        rw [List.isEmpty_iff] at hw
        rw [← hw]
      · cases h
  have dn : ∀ d, parseDate s = some d → parseDateTime s = none ∧ parseUtc s = none := by
    intro d h
    unfold parseDateTime parseUtc
    rw [hd d h]
    exact ⟨rfl, rfl⟩
  have ex : ∀ t u, parseDateTime s = some t → parseUtc s = some u → False :=
    fun t u h1 h2 => parseDateTime_noZ h1 (parseUtc_z h2)
  refine ⟨dn, ?_, ?_⟩
  · intro t h
    constructor
    · cases hp : parseDate s with
      | none => rfl
      | some d => rw [(dn d hp).1] at h; cases h
    · cases hp : parseUtc s with
      | none => rfl
      | some u => exact (ex t u h hp).elim
  · intro u h
    constructor
    · cases hp : parseDate s with
      | none => rfl
      | some d => rw [(dn d hp).2] at h; cases h
    · cases hp : parseDateTime s with
      | none => rfl
      | some t => exact (ex t u hp h).elim

/-- **C75** (partial: only if the kind is the one the parameters ask for; a TZID occurs at most once and has a
value). A date is read from a converted property exactly if the low-level reader reads the same from the parsed one and
it is of the kind its parameters ask for. -/
theorem date_readers_agree_partial (p : PProp) (x : DatePerhapsTime)
    (hz : ∀ q ∈ p.params, q.key = c!"TZID" → q.val ≠ none)
    (h1 : (p.params.filter (fun q => q.key == c!"TZID")).length ≤ 1) :
    DatePerhapsTime.fromProperty p.toProperty = some x ↔
      DatePerhapsTime.tryFromParsed p = some x ∧ KindAsked p.toProperty.params x := by
  have tz : p.toProperty.params.get c!"TZID" = (p.params.find? (fun q => q.key == c!"TZID")).bind PParam.val ∧
      ∀ q, p.params.find? (fun q => q.key == c!"TZID") = some q → ∃ z, q.val = some z := by
    have h2 : ∀ q, p.params.find? (fun q => q.key == c!"TZID") = some q → ∃ z, q.val = some z := by
      intro q hq
      have hk := List.find?_some hq
      have := hz q (List.mem_of_find?_eq_some hq) (by simpa using hk)
      exact Option.ne_none_iff_exists'.1 this
    refine ⟨?_, h2⟩
    unfold PProp.toProperty
    simp only
    rw [BMap.get_ofList, ← List.map_reverse, List.find?_map]
    have e : ((fun x : Str × Str => x.1 == c!"TZID") ∘ PParam.toPair) = fun q : PParam => q.key == c!"TZID" := rfl
    have hr : p.params.reverse.find? (fun q => q.key == c!"TZID") = p.params.find? (fun q => q.key == c!"TZID") := by
      rw [← List.head?_filter, ← List.head?_filter, List.filter_reverse]
      generalize p.params.filter (fun q => q.key == c!"TZID") = l at h1
      match l, h1 with
      | [], _ => rfl
      | [a], _ => rfl
      | _ :: _ :: _, h => simp at h
    rw [e, hr]
    cases hf : p.params.find? (fun q => q.key == c!"TZID") with
    | none => rfl
    | some q =>
      obtain ⟨z, hq⟩ := h2 q hf
      simp [PParam.toPair, hq]
  obtain ⟨tz1, tz2⟩ := tz
  obtain ⟨e1, e2, e3⟩ := parse_exclusive p.val
  unfold DatePerhapsTime.fromProperty DatePerhapsTime.tryFromParsed CalDateTime.fromProperty CalDateTime.fromStr
  simp only [valueType_date_iff, tz1]
  have hval : p.toProperty.val = p.val := rfl
  rw [hval]
  unfold KindAsked
  simp only [lookup_eq_get c!"TZID", tz1]
  cases hd : parseDate p.val with
  | some d =>
    obtain ⟨a, b⟩ := e1 d hd
    simp only [a, b]
    by_cases hv : p.toProperty.params.lookup c!"VALUE" = some c!"DATE"
    · rw [if_pos hv]
      constructor
      · intro h; cases h; exact ⟨rfl, hv⟩
      · rintro ⟨h, -⟩; exact h
    · rw [if_neg hv]
      constructor
      · intro h; split at h <;> (rename_i h'; split at h' <;> simp at h' h)
      · rintro ⟨h, h'⟩; cases h; exact absurd h' hv
  | none =>
    cases ht : parseDateTime p.val with
    | some t =>
      obtain ⟨a, b⟩ := e2 t ht
      simp only [b]
      cases hf : p.params.find? (fun q => q.key == c!"TZID") with
      | none =>
        simp only [Option.bind_none]
        split
        · rename_i hv
          constructor
          · intro h; cases h
          · rintro ⟨h, h'⟩; cases h; exact absurd hv h'
        · rename_i hv
          constructor
          · intro h; cases h; exact ⟨rfl, hv⟩
          · rintro ⟨h, h'⟩; exact h
      | some q =>
        obtain ⟨z, hq⟩ := tz2 q hf
        simp only [Option.bind_some, hq]
        split
        · rename_i hv
          constructor
          · intro h; cases h
          · rintro ⟨h, h'⟩; cases h; exact absurd hv h'
        · rename_i hv
          constructor
          · intro h; cases h; exact ⟨rfl, hv⟩
          · rintro ⟨h, h'⟩; exact h
    | none =>
      cases hu : parseUtc p.val with
      | none =>
        constructor
        · intro h
          split at h
          · cases h
          · split at h <;> (rename_i h'; split at h' <;> simp at h' h)
        · rintro ⟨h, -⟩; cases h
      | some u =>
        simp only
        cases hf : (p.params.find? (fun q => q.key == c!"TZID")).bind PParam.val with
        | none =>
          split
          · rename_i hv
            constructor
            · intro h; cases h
            · rintro ⟨h, h'⟩; cases h; exact absurd hv h'.1
          · rename_i hv
            constructor
            · intro h; cases h; exact ⟨rfl, hv, rfl⟩
            · rintro ⟨h, h'⟩; exact h
        | some z =>
          split
          · rename_i hv
            constructor
            · intro h; cases h
            · rintro ⟨h, h'⟩; cases h; exact absurd hv h'.1
          · rename_i hv
            constructor
            · intro h; cases h
            · rintro ⟨h, h'⟩; cases h; cases h'.2

/-- a zone, a date and a UTC time, read alike by both -/
example : let z : PProp := ⟨c!"DTSTART", c!"20260228T235960", [⟨c!"X", none⟩, ⟨c!"TZID", some c!"Europe/Berlin"⟩]⟩
    (∀ q ∈ z.params, q.key = c!"TZID" → q.val ≠ none) ∧
    (z.params.filter (fun q => q.key == c!"TZID")).length ≤ 1 ∧
    KindAsked z.toProperty.params (.dateTime (.zoned ⟨⟨2026, 2, 28⟩, 23, 59, 59, 1000000000⟩ c!"Europe/Berlin")) ∧
    DatePerhapsTime.tryFromParsed z =
      some (.dateTime (.zoned ⟨⟨2026, 2, 28⟩, 23, 59, 59, 1000000000⟩ c!"Europe/Berlin")) := by
  refine ⟨by decide, by decide, ?_, by decide +kernel⟩
  show _ ≠ _
  decide +kernel

omit [Uni] in
/-- **C75, what is missing.** A date without VALUE=DATE, a time with VALUE=DATE and a UTC time with a TZID are read by
the low-level reader, but not from the converted property. -/
theorem date_readers_violated :
    ∃ a b c : PProp, a.val = c!"20260131" ∧ a.params = [] ∧ b.val = c!"20260131T120000" ∧
      b.params = [⟨c!"VALUE", some c!"DATE"⟩] ∧ c.val = c!"20260131T120000Z" ∧
      c.params = [⟨c!"TZID", some c!"Europe/Berlin"⟩] ∧
      ∀ p ∈ [a, b, c], @DatePerhapsTime.fromProperty Uni.ascii p.toProperty = none ∧
        (DatePerhapsTime.tryFromParsed p).isSome := by
  refine ⟨⟨c!"DTSTART", c!"20260131", []⟩, ⟨c!"DTSTART", c!"20260131T120000", [⟨c!"VALUE", some c!"DATE"⟩]⟩,
    ⟨c!"DTSTART", c!"20260131T120000Z", [⟨c!"TZID", some c!"Europe/Berlin"⟩]⟩, rfl, rfl, rfl, rfl, rfl, rfl, ?_⟩
  decide +kernel

omit [Uni] in
/-- **C74.** `from_ymd_hm_tzid` accepts exactly the days of the Gregorian calendar, in chrono's range of years, and
the times of day. -/
theorem from_ymd_hm_tzid_days {db : TzDb} (names : TzNames db) (y : Int) (m d h mi : Nat) (tz : db.Tz) :
    (CalDateTime.fromYmdHmTzid names y m d h mi tz).isSome ↔
      -262143 ≤ y ∧ y ≤ 262142 ∧ DayExists y m d ∧ TimeExists h mi 0 := by
  rw [Option.isSome_iff_exists]
  simp only [from_ymd_hm_tzid_spec, valid_iff]
  unfold TimeExists
  constructor
  · rintro ⟨_, ⟨a, b, c⟩, e, f, -⟩; exact ⟨a, b, c, by omega, by omega, by omega⟩
  · rintro ⟨a, b, c, e, f, -⟩; exact ⟨_, ⟨a, b, c⟩, by omega, by omega, rfl⟩

end Ical

namespace Ical

open Spec

/-- leap days, a leap second and texts for days and times that do not exist -/
example : DateText c!"20240229" 2024 2 29 ∧ DayExists 2024 2 29 ∧ ¬ DayExists 2023 2 29 ∧ ¬ DayExists 1900 2 29 ∧
    DayExists 2000 2 29 ∧ ¬ DayExists 2026 4 31 ∧ ¬ DayExists 2026 13 1 ∧ TimeText c!"235960" 23 59 60 ∧
    TimeExists 23 59 60 ∧ ¬ TimeExists 24 0 0 := by
  refine ⟨⟨c!"2024", c!"02", c!"29", rfl, ⟨rfl, by decide, rfl⟩, ⟨rfl, by decide, rfl⟩, ⟨rfl, by decide, rfl⟩⟩,
    by decide, by decide, by decide, by decide, by decide, by decide,
    ⟨c!"23", c!"59", c!"60", rfl, ⟨rfl, by decide, rfl⟩, ⟨rfl, by decide, rfl⟩, ⟨rfl, by decide, rfl⟩⟩,
    by decide, by decide⟩

example : @DatePerhapsTime.fromProperty Uni.ascii ⟨c!"DTEND", c!"20240229", [(c!"VALUE", c!"DATE")]⟩ =
      some (.date ⟨2024, 2, 29⟩) ∧
    @DatePerhapsTime.fromProperty Uni.ascii ⟨c!"DTEND", c!"20230229", [(c!"VALUE", c!"DATE")]⟩ = none ∧
    @DatePerhapsTime.fromProperty Uni.ascii ⟨c!"DTEND", c!"20240229T235960", [(c!"TZID", c!"Mars")]⟩ =
      some (.dateTime (.zoned ⟨⟨2024, 2, 29⟩, 23, 59, 59, 1000000000⟩ c!"Mars")) := by
  decide +kernel

end Ical
