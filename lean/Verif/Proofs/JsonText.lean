import Verif.Model.JsonText
import Verif.Spec.JsonText

/-!
Reading JSON texts.
-/

namespace Ical

open Spec

/-! ### Strings -/

theorem hexVal_of {h : Char} {v : Nat} (hv : HexDigit h v) : hexVal h = some v ∧ v < 16 := by
  have key : ∀ p ∈ (c!"0123456789abcdef").zip (List.range 16) ++ (c!"0123456789ABCDEF").zip (List.range 16),
      hexVal p.1 = some p.2 ∧ p.2 < 16 := by decide +kernel
  exact key (h, v) (List.mem_append.2 hv)

theorem hex4_of {t : Str} {n : Nat} (h : Hex4 t n) :
    ∃ a b c d, t = [a, b, c, d] ∧ hex4 a b c d = some n := by
  obtain ⟨a, b, c, d, va, vb, vc, vd, rfl, ha, hb, hc, hd, rfl⟩ := h
  refine ⟨a, b, c, d, rfl, ?_⟩
  simp only [hex4, (hexVal_of ha).1, (hexVal_of hb).1, (hexVal_of hc).1, (hexVal_of hd).1, bind, Option.bind, pure,
    Option.some.injEq]
  omega

theorem char_ofNat_toNat (c : Char) : Char.ofNat c.toNat = c := by simp

theorem char_not_surrogate (c : Char) : c.toNat < 0xD800 ∨ 0xDFFF < c.toNat := by
  have := c.valid
  simp only [UInt32.isValidChar, Nat.isValidChar] at this
  simp only [Char.toNat]
  omega

theorem strStep_spelt {c : Char} {t : Str} (h : SpeltChar c t) (r : Str) :
    strStep (t ++ r) = some (some c, r) := by
  cases h with
  | plain _ h1 h2 h3 =>
    have : ¬ c.toNat < 32 := by omega
    simp [strStep, h2, h3, this]
  | quote => rfl
  | backslash => rfl
  | slash => rfl
  | backspace => rfl
  | formFeed => rfl
  | lineFeed => rfl
  | «return» => rfl
  | tab => rfl
  | code _ t h =>
    obtain ⟨a, b, d, e, rfl, h'⟩ := hex4_of h
    have := char_not_surrogate c
    simp [strStep, escStep, codeStep, h', this]
  | pair _ hi lo t u h1 h2 h3 h4 h5 =>
    obtain ⟨a, b, d, e, rfl, k4⟩ := hex4_of h4
    obtain ⟨a', b', d', e', rfl, k5⟩ := hex4_of h5
    have e1 : ¬ (0xD800 + hi < 0xD800 ∨ 0xDFFF < 0xD800 + hi) := by omega
    have e2 : ¬ 0xDBFF < 0xD800 + hi := by omega
    have e3 : 0xDC00 ≤ 0xDC00 + lo ∧ 0xDC00 + lo ≤ 0xDFFF := by omega
    have e4 : 0x10000 + (0xD800 + hi - 0xD800) * 0x400 + (0xDC00 + lo - 0xDC00) = c.toNat := by omega
    simp only [List.cons_append, List.nil_append, strStep, escStep, codeStep, pairStep, k4, k5, if_neg e1, if_neg e2,
      if_pos e3, e4, char_ofNat_toNat]
    simp

theorem speltChar_ne {c : Char} {t : Str} (h : SpeltChar c t) : 1 ≤ t.length := by
  cases h <;> simp

theorem spelt_length {s t : Str} (h : Spelt s t) : s.length ≤ t.length := by
  induction h with
  | nil => simp
  | cons c t s u hc _ ih =>
    have := speltChar_ne hc
    simp only [List.length_cons, List.length_append]
    omega

theorem strBodyF_spelt {s t : Str} (h : Spelt s t) (n : Nat) (hn : s.length < n) (r : Str) :
    strBodyF n (t ++ '"' :: r) = some (s, r) := by
  induction h generalizing n with
  | nil =>
    obtain ⟨n, rfl⟩ := Nat.exists_eq_add_of_lt hn
    simp [strBodyF, strStep]
  | cons c t s u hc _ ih =>
    cases n with
    | zero => simp at hn
    | succ n =>
      simp only [List.length_cons] at hn
      rw [strBodyF, List.append_assoc, strStep_spelt hc]
      simp only [ih n (by omega)]

theorem strBody_spelt {s t : Str} (h : Spelt s t) (r : Str) : strBody (t ++ '"' :: r) = some (s, r) := by
  have := spelt_length h
  exact strBodyF_spelt h _ (by simp; omega) r

/-! ### Numbers -/

theorem jsonDigit_iff (c : Char) : c ∈ c!"0123456789" ↔ (decide (0x30 ≤ c.toNat) && decide (c.toNat ≤ 0x39)) = true := by
  constructor
  · have : ∀ x ∈ c!"0123456789", (decide (0x30 ≤ x.toNat) && decide (x.toNat ≤ 0x39)) = true := by decide
    exact this c
  · intro h
    have h' : 0x30 ≤ c.toNat ∧ c.toNat ≤ 0x39 := by simpa using h
    have : ∀ n, 0x30 ≤ n → n ≤ 0x39 → Char.ofNat n ∈ c!"0123456789" := by
      intro n h1 h2
      have : n = 48 ∨ n = 49 ∨ n = 50 ∨ n = 51 ∨ n = 52 ∨ n = 53 ∨ n = 54 ∨ n = 55 ∨ n = 56 ∨ n = 57 := by omega
      rcases this with h | h | h | h | h | h | h | h | h | h <;> subst h <;> decide
    have := this c.toNat h'.1 h'.2
    rwa [char_ofNat_toNat] at this

theorem isDigits_iff (s : Str) : isDigits s = true ↔ JsonDigits s := by
  simp only [isDigits, JsonDigits, Bool.and_eq_true, List.all_eq_true, jsonDigit_iff]
  simp

theorem isExp_iff (s : Str) : isExp s = true ↔ s = [] ∨ ∃ e sg d, s = e ++ sg ++ d ∧ (e = ['e'] ∨ e = ['E']) ∧
    (sg = [] ∨ sg = ['+'] ∨ sg = ['-']) ∧ JsonDigits d := by
  cases s with
  | nil => simp [isExp]
  | cons c r =>
    simp only [isExp, Bool.and_eq_true, Bool.or_eq_true, beq_iff_eq, reduceCtorEq, false_or]
    constructor
    · rintro ⟨hc, h⟩
      refine ⟨[c], ?_⟩
      have hc' : [c] = ['e'] ∨ [c] = ['E'] := by simpa using hc
      split at h
      · next d => exact ⟨['+'], d, by simp, hc', .inr (.inl rfl), (isDigits_iff _).1 h⟩
      · next d => exact ⟨['-'], d, by simp, hc', .inr (.inr rfl), (isDigits_iff _).1 h⟩
      · next d _ _ => exact ⟨[], r, by simp, hc', .inl rfl, (isDigits_iff _).1 h⟩
    · rintro ⟨e, sg, d, heq, he, hs, hd⟩
      have hd' := (isDigits_iff _).2 hd
      have hh : ∀ x, d.head? = some x → x ≠ '+' ∧ x ≠ '-' := by
        intro x hx
        have := hd.2 x (List.mem_of_head? hx)
        constructor <;> (rintro rfl; revert this; decide)
      have main : ∀ r, r = sg ++ d → (match r with
          | '+' :: d => isDigits d
          | '-' :: d => isDigits d
          | d => isDigits d) = true := by
        rintro r rfl
        rcases hs with rfl | rfl | rfl
        · simp only [List.nil_append]
          split
          · exact absurd rfl (hh '+' rfl).1
          · exact absurd rfl (hh '-' rfl).2
          · exact hd'
        · exact hd'
        · exact hd'
      rcases he with rfl | rfl
      · obtain ⟨h1, h2⟩ := List.cons.inj (heq.trans (show _ = 'e' :: (sg ++ d) from by simp))
        exact ⟨.inl h1, main r h2⟩
      · obtain ⟨h1, h2⟩ := List.cons.inj (heq.trans (show _ = 'E' :: (sg ++ d) from by simp))
        exact ⟨.inr h1, main r h2⟩

theorem numberSpan {p : Char → Bool} {a r : Str} (ha : ∀ c ∈ a, p c = true) (hr : ∀ c, r.head? = some c → p c = false) :
    (a ++ r).takeWhile p = a ∧ (a ++ r).dropWhile p = r := by
  induction a with
  | nil =>
    cases r with
    | nil => simp
    | cons c r => simp [hr c rfl]
  | cons c a ih =>
    have := ih (fun x hx => ha x (by simp [hx]))
    simp [ha c (by simp), this.1, this.2]

theorem isNumber_iff (s : Str) : isNumber s = true ↔ NumberText s := by
  have key : ∀ s : Str, (((s.takeWhile fun c : Char => 0x30 ≤ c.toNat && c.toNat ≤ 0x39) == ['0'] ||
        (isDigits (s.takeWhile fun c : Char => 0x30 ≤ c.toNat && c.toNat ≤ 0x39) &&
          (s.takeWhile fun c : Char => 0x30 ≤ c.toNat && c.toNat ≤ 0x39).head? != some '0')) &&
        match s.dropWhile fun c : Char => 0x30 ≤ c.toNat && c.toNat ≤ 0x39 with
        | '.' :: r =>
          isDigits (r.takeWhile fun c : Char => 0x30 ≤ c.toNat && c.toNat ≤ 0x39) &&
            isExp (r.dropWhile fun c : Char => 0x30 ≤ c.toNat && c.toNat ≤ 0x39)
        | r => isExp r) = true ↔
      ∃ whole frac exp, s = whole ++ frac ++ exp ∧ (whole = ['0'] ∨ JsonDigits whole ∧ whole.head? ≠ some '0') ∧
        (frac = [] ∨ ∃ d, frac = ['.'] ++ d ∧ JsonDigits d) ∧ isExp exp = true := by
    intro s
    constructor
    · intro h
      simp only [Bool.and_eq_true, Bool.or_eq_true, beq_iff_eq, bne_iff_ne, isDigits_iff] at h
      obtain ⟨hw, h⟩ := h
      have e := List.takeWhile_append_dropWhile (p := fun c : Char => decide (0x30 ≤ c.toNat) && decide (c.toNat ≤ 0x39)) (l := s)
      split at h
      · next r hr =>
        obtain ⟨h1, h2⟩ := (Bool.and_eq_true _ _).mp h
        refine ⟨_, ['.'] ++ _, _, ?_, hw, .inr ⟨_, rfl, (isDigits_iff _).1 h1⟩, h2⟩
        rw [hr] at e
        rw [List.append_assoc, List.append_assoc, List.takeWhile_append_dropWhile]
        exact e.symm
      · exact ⟨_, [], _, by rw [List.append_nil]; exact e.symm, hw, .inl rfl, h⟩
    · rintro ⟨whole, frac, exp, rfl, hw, hf, he⟩
      have dig : ∀ d : Str, JsonDigits d → ∀ c ∈ d, (decide (0x30 ≤ c.toNat) && decide (c.toNat ≤ 0x39)) = true :=
        fun d hd c hc => (jsonDigit_iff c).1 (hd.2 c hc)
      have hexp : ∀ c, exp.head? = some c →
          (decide (0x30 ≤ c.toNat) && decide (c.toNat ≤ 0x39)) = false ∧ c ≠ '.' := by
        intro c hc
        rcases (isExp_iff exp).1 he with rfl | ⟨e, sg, d, rfl, h1, _, _⟩
        · simp at hc
        · rcases h1 with rfl | rfl
          · obtain rfl : 'e' = c := by simpa using hc
            decide
          · obtain rfl : 'E' = c := by simpa using hc
            decide
      have hwd : JsonDigits whole := by
        rcases hw with rfl | ⟨h, _⟩
        · exact ⟨by simp, by decide⟩
        · exact h
      have hstop : ∀ c, (frac ++ exp).head? = some c →
          (decide (0x30 ≤ c.toNat) && decide (c.toNat ≤ 0x39)) = false := by
        intro c hc
        rcases hf with rfl | ⟨d, rfl, _⟩
        · exact (hexp c hc).1
        · obtain rfl : '.' = c := by simpa using hc
          decide
      obtain ⟨e1, e2⟩ := numberSpan (dig _ hwd) hstop
      rw [List.append_assoc, e1, e2]
      simp only [Bool.and_eq_true, Bool.or_eq_true, beq_iff_eq, bne_iff_ne, isDigits_iff]
      refine ⟨hw, ?_⟩
      rcases hf with rfl | ⟨d, rfl, hd⟩
      · simp only [List.nil_append]
        split
        · exact absurd rfl (hexp '.' rfl).2
        · exact he
      · obtain ⟨f1, f2⟩ := numberSpan (dig _ hd) (fun c hc => (hexp c hc).1)
        show (isDigits (List.takeWhile _ (d ++ exp)) && isExp (List.dropWhile _ (d ++ exp))) = true
        rw [f1, f2]
        simp [(isDigits_iff d).2 hd, he]
  have start : ∀ whole frac exp : Str, (whole = ['0'] ∨ JsonDigits whole ∧ whole.head? ≠ some '0') →
      ∀ r, whole ++ frac ++ exp ≠ '-' :: r := by
    intro whole frac exp hw r h
    have hwd : JsonDigits whole := by
      rcases hw with rfl | ⟨h, _⟩
      · exact ⟨by simp, by decide⟩
      · exact h
    cases whole with
    | nil => exact hwd.1 rfl
    | cons c w =>
      have h1 : c = '-' := by simp only [List.cons_append, List.cons.injEq] at h; exact h.1
      have := hwd.2 c (by simp)
      subst h1
      revert this
      decide
  constructor
  · intro h
    unfold isNumber at h
    simp only at h
    split at h
    · next r =>
      obtain ⟨whole, frac, exp, rfl, hw, hf, he⟩ := (key r).1 h
      exact ⟨['-'], whole, frac, exp, by simp, .inr rfl, hw, hf, (isExp_iff _).1 he⟩
    · obtain ⟨whole, frac, exp, rfl, hw, hf, he⟩ := (key s).1 h
      exact ⟨[], whole, frac, exp, by simp, .inl rfl, hw, hf, (isExp_iff _).1 he⟩
  · rintro ⟨sign, whole, frac, exp, rfl, hs, hw, hf, he⟩
    have := (key _).2 ⟨whole, frac, exp, rfl, hw, hf, (isExp_iff _).2 he⟩
    unfold isNumber
    rcases hs with rfl | rfl
    · simp only [List.nil_append]
      split
      · next r heq => exact absurd heq (start _ _ _ hw r)
      · exact this
    · exact this

theorem numberText_chars {t : Str} (h : NumberText t) : ∀ c ∈ t, isNumChar c = true := by
  obtain ⟨sign, whole, frac, exp, rfl, hs, hw, hf, he⟩ := h
  have dig : ∀ d : Str, JsonDigits d → ∀ c ∈ d, isNumChar c = true := by
    intro d hd c hc
    have := (jsonDigit_iff c).1 (hd.2 c hc)
    simp only [isNumChar, this, Bool.true_or]
  intro c hc
  simp only [List.mem_append] at hc
  rcases hc with ((hc | hc) | hc) | hc
  · rcases hs with rfl | rfl
    · simp at hc
    · obtain rfl : c = '-' := by simpa using hc
      decide
  · rcases hw with rfl | ⟨h, _⟩
    · obtain rfl : c = '0' := by simpa using hc
      decide
    · exact dig _ h c hc
  · rcases hf with rfl | ⟨d, rfl, hd⟩
    · simp at hc
    · rcases List.mem_append.1 hc with hc | hc
      · obtain rfl : c = '.' := by simpa using hc
        decide
      · exact dig _ hd c hc
  · rcases he with rfl | ⟨e, sg, d, rfl, h1, h2, hd⟩
    · simp at hc
    · simp only [List.mem_append] at hc
      rcases hc with (hc | hc) | hc
      · rcases h1 with rfl | rfl
        · obtain rfl : c = 'e' := by simpa using hc
          decide
        · obtain rfl : c = 'E' := by simpa using hc
          decide
      · rcases h2 with rfl | rfl | rfl
        · simp at hc
        · obtain rfl : c = '+' := by simpa using hc
          decide
        · obtain rfl : c = '-' := by simpa using hc
          decide
      · exact dig _ hd c hc

theorem numberText_head {t : Str} (h : NumberText t) : ∃ c r, t = c :: r ∧ isNumChar c = true := by
  have hc := numberText_chars h
  cases t with
  | nil =>
    obtain ⟨sign, whole, frac, exp, heq, _, hw, _⟩ := h
    have : whole = [] := by
      have := congrArg List.length heq
      simp only [List.length_append, List.length_nil] at this
      exact List.length_eq_zero_iff.1 (by omega)
    subst this
    rcases hw with h | ⟨h, _⟩
    · simp at h
    · exact absurd rfl h.1
  | cons c r => exact ⟨c, r, rfl, hc c (by simp)⟩

/-- Nothing that could continue a number. -/
def NumStop (r : Str) : Prop := ∀ c, r.head? = some c → isNumChar c = false

theorem readNumber_text {t : Str} (h : NumberText t) {r : Str} (hr : NumStop r) :
    readNumber (t ++ r) = some (.number t, r) := by
  obtain ⟨e1, e2⟩ := numberSpan (numberText_chars h) hr
  rw [readNumber, e1, e2, if_pos ((isNumber_iff t).2 h)]

/-! ### White space -/

theorem skipWs_blank {w : Str} (h : JsonSpace w) (r : Str) : skipWs (w ++ r) = skipWs r := by
  induction w with
  | nil => rfl
  | cons c w ih =>
    have hc : isJsonWs c = true := by
      rcases h c (by simp) with rfl | rfl | rfl | rfl <;> rfl
    have := ih (fun x hx => h x (by simp [hx]))
    simp only [skipWs, List.cons_append, List.dropWhile_cons, hc, if_true] at this ⊢
    exact this

theorem skipWs_cons {c : Char} (h : isJsonWs c = false) (r : Str) : skipWs (c :: r) = c :: r := by
  simp [skipWs, h]

theorem skipWs_self_blank {w : Str} (h : JsonSpace w) : skipWs w = [] := by
  have := skipWs_blank h []
  simpa [skipWs] using this

/-- A text of a value starts with one of six characters. -/
theorem textOf_head {j : Json} {t : Str} (h : TextOf j t) :
    ∃ c r, t = c :: r ∧ isJsonWs c = false ∧ c ≠ ']' ∧ c ≠ '}' := by
  cases h with
  | number t h =>
    obtain ⟨c, r, rfl, hc⟩ := numberText_head h
    refine ⟨c, r, rfl, ?_, ?_, ?_⟩
    · cases hw : isJsonWs c
      · rfl
      · simp only [isJsonWs, Bool.or_eq_true, beq_iff_eq] at hw
        rcases hw with ((rfl | rfl) | rfl) | rfl <;> exact absurd hc (by decide)
    · rintro rfl; exact absurd hc (by decide)
    · rintro rfl; exact absurd hc (by decide)
  | _ => exact ⟨_, _, rfl, by decide, by decide, by decide⟩

theorem itemsOf_head {l : List Json} {t : Str} (h : ItemsOf l t) :
    ∃ w u, t = w ++ u ∧ JsonSpace w ∧ ∃ c v, u = c :: v ∧ isJsonWs c = false ∧ c ≠ ']' := by
  cases h with
  | one j w t w' hw ht _ =>
    obtain ⟨c, v, rfl, h1, h2, _⟩ := textOf_head ht
    exact ⟨w, c :: v ++ w', by simp, hw, c, v ++ w', by simp, h1, h2⟩
  | cons j l w t w' u hw ht _ _ =>
    obtain ⟨c, v, rfl, h1, h2, _⟩ := textOf_head ht
    exact ⟨w, c :: v ++ w' ++ [','] ++ u, by simp, hw, c, v ++ w' ++ [','] ++ u, by simp, h1, h2⟩

theorem entriesOf_head {l : List (Str × Json)} {t : Str} (h : EntriesOf l t) :
    ∃ w v, t = w ++ '"' :: v ∧ JsonSpace w := by
  cases h with
  | one k j w s w' v t w'' hw => exact ⟨w, s ++ ['"'] ++ w' ++ [':'] ++ v ++ t ++ w'', by simp, hw⟩
  | cons k j l w s w' v t w'' u hw => exact ⟨w, s ++ ['"'] ++ w' ++ [':'] ++ v ++ t ++ w'' ++ [','] ++ u, by simp, hw⟩

/-! ### Values -/

/-- The reader of elements does not care whether white space has been skipped. -/
theorem jsonValueF_skip (n : Nat) (s : Str) : jsonValueF n (skipWs s) = jsonValueF n s := by
  have hh : skipWs (skipWs s) = skipWs s := by
    unfold skipWs
    induction s with
    | nil => rfl
    | cons c s ih =>
      rw [List.dropWhile_cons]
      split
      · exact ih
      · next h => rw [List.dropWhile_cons, if_neg h]
  cases n with
  | zero => rfl
  | succ n => rw [jsonValueF, jsonValueF, hh]

theorem jsonItemsF_skip (n : Nat) (s : Str) : jsonItemsF n (skipWs s) = jsonItemsF n s := by
  cases n with
  | zero => rfl
  | succ n => rw [jsonItemsF, jsonItemsF, jsonValueF_skip]

theorem jsonEntriesF_skip (n : Nat) (s : Str) : jsonEntriesF n (skipWs s) = jsonEntriesF n s := by
  have hh : skipWs (skipWs s) = skipWs s := by
    unfold skipWs
    induction s with
    | nil => rfl
    | cons c s ih =>
      rw [List.dropWhile_cons]
      split
      · exact ih
      · next h => rw [List.dropWhile_cons, if_neg h]
  cases n with
  | zero => rfl
  | succ n => rw [jsonEntriesF, jsonEntriesF, hh]

theorem jsonValueF_number (n : Nat) (s : Str) {c : Char} {r : Str} (hs : skipWs s = c :: r) (hc : isNumChar c = true) :
    jsonValueF (n + 1) s = readNumber (c :: r) := by
  rw [jsonValueF, hs]
  split
  all_goals first
    | rfl
    | (next heq => obtain ⟨rfl, _⟩ := List.cons.inj heq; exact absurd hc (by decide))

theorem numStop_space {w : Str} (hw : JsonSpace w) : NumStop w := by
  cases w with
  | nil => intro c h; simp at h
  | cons x w =>
    intro c h
    obtain rfl : x = c := by simpa using h
    rcases hw x (by simp) with rfl | rfl | rfl | rfl <;> decide

theorem numStop_cons {w : Str} (hw : JsonSpace w) {x : Char} (hx : isNumChar x = false) (r : Str) :
    NumStop (w ++ x :: r) := by
  cases w with
  | nil =>
    intro c h
    obtain rfl : x = c := by simpa using h
    exact hx
  | cons y w =>
    have := numStop_space hw
    exact fun c h => this c (by simpa using h)

mutual
theorem jsonValueF_text {j : Json} {t : Str} (h : TextOf j t) (n : Nat) (hn : 2 * t.length + 1 ≤ n) (w r : Str)
    (hw : JsonSpace w) (hr : NumStop r) : jsonValueF n (w ++ t ++ r) = some (j, r) := by
  cases n with
  | zero => omega
  | succ n =>
    by_cases hnum : ∃ t, j = .number t
    · obtain ⟨t, rfl⟩ := hnum
      cases h with
      | number _ ht =>
        obtain ⟨c, v, rfl, h1, _⟩ := textOf_head (TextOf.number t ht)
        have hc := numberText_chars ht c (by simp)
        have e : skipWs (w ++ c :: v ++ r) = c :: (v ++ r) := by
          rw [List.append_assoc, skipWs_blank hw, List.cons_append, skipWs_cons h1]
        rw [jsonValueF_number n _ e hc]
        exact readNumber_text ht hr
    rw [jsonValueF, List.append_assoc, skipWs_blank hw]
    cases h with
    | number t _ => exact absurd ⟨t, rfl⟩ hnum
    | null => rfl
    | true => rfl
    | false => rfl
    | string s t hs =>
      rw [List.append_assoc, List.append_assoc, List.singleton_append, skipWs_cons (by decide)]
      simp only [List.singleton_append, strBody_spelt hs, Option.map_some]
    | emptyArray w hw =>
      rw [List.append_assoc, List.append_assoc, List.singleton_append, skipWs_cons (by decide)]
      simp only [skipWs_blank hw, List.singleton_append, skipWs_cons (c := ']') (by decide)]
    | emptyObject w hw =>
      rw [List.append_assoc, List.append_assoc, List.singleton_append, skipWs_cons (by decide)]
      simp only [skipWs_blank hw, List.singleton_append, skipWs_cons (c := '}') (by decide)]
    | array l t hl =>
      rw [List.append_assoc, List.append_assoc, List.singleton_append, skipWs_cons (by decide)]
      have hi := jsonItemsF_text hl n (by simp at hn; omega) r
      rw [← jsonItemsF_skip] at hi
      obtain ⟨w, u, rfl, hw, c, v, rfl, h1, h2⟩ := itemsOf_head hl
      have e : skipWs (w ++ c :: v ++ ([']'] ++ r)) = c :: (v ++ ([']'] ++ r)) := by
        rw [List.append_assoc, skipWs_blank hw, List.cons_append, skipWs_cons h1]
      have e' : w ++ c :: v ++ ([']'] ++ r) = w ++ c :: v ++ ']' :: r := rfl
      rw [← e', e] at hi
      simp only [e]
      split
      · next heq => simp at heq; exact absurd heq.1 h2
      · next heq => rw [hi]; rfl
    | object l t hl =>
      rw [List.append_assoc, List.append_assoc, List.singleton_append, skipWs_cons (by decide)]
      have hi := jsonEntriesF_text hl n (by simp at hn; omega) r
      rw [← jsonEntriesF_skip] at hi
      obtain ⟨w, v, rfl, hw⟩ := entriesOf_head hl
      have e : skipWs (w ++ '"' :: v ++ (['}'] ++ r)) = '"' :: (v ++ (['}'] ++ r)) := by
        rw [List.append_assoc, skipWs_blank hw, List.cons_append, skipWs_cons (by decide)]
      have e' : w ++ '"' :: v ++ (['}'] ++ r) = w ++ '"' :: v ++ '}' :: r := rfl
      rw [← e', e] at hi
      simp only [e]
      split
      · next heq => simp at heq
      · next heq => rw [hi]; rfl
theorem jsonItemsF_text {l : List Json} {t : Str} (h : ItemsOf l t) (n : Nat) (hn : 2 * t.length + 2 ≤ n) (r : Str) :
    jsonItemsF n (t ++ ']' :: r) = some (l, r) := by
  cases n with
  | zero => omega
  | succ n =>
    cases h with
    | one j w t w' hw ht hw' =>
      have := jsonValueF_text ht n (by simp at hn; omega) w (w' ++ ']' :: r) hw (numStop_cons hw' (by decide) _)
      rw [jsonItemsF, List.append_assoc, this]
      simp only [skipWs_blank hw', skipWs_cons (c := ']') (by decide)]
    | cons j l w t w' u hw ht hw' hu =>
      have := jsonValueF_text ht n (by simp at hn; omega) w (w' ++ ([','] ++ (u ++ ']' :: r))) hw
        (numStop_cons hw' (by decide) _)
      have hi := jsonItemsF_text hu n (by simp at hn; omega) r
      rw [jsonItemsF, List.append_assoc, List.append_assoc, List.append_assoc, this]
      simp only [skipWs_blank hw', List.singleton_append, skipWs_cons (c := ',') (by decide), hi, Option.map_some]
theorem jsonEntriesF_text {l : List (Str × Json)} {t : Str} (h : EntriesOf l t) (n : Nat) (hn : 2 * t.length + 2 ≤ n)
    (r : Str) : jsonEntriesF n (t ++ '}' :: r) = some (l, r) := by
  cases n with
  | zero => omega
  | succ n =>
    cases h with
    | one k j w s w' v t w'' hw hs hw' hv ht hw'' =>
      have := jsonValueF_text ht n (by simp at hn; omega) v (w'' ++ '}' :: r) hv (numStop_cons hw'' (by decide) _)
      rw [jsonEntriesF]
      simp only [List.append_assoc, List.cons_append, List.nil_append] at this ⊢
      rw [skipWs_blank hw, skipWs_cons (by decide)]
      simp only [strBody_spelt hs, skipWs_blank hw', skipWs_cons (c := ':') (by decide), this, skipWs_blank hw'',
        skipWs_cons (c := '}') (by decide)]
    | cons k j l w s w' v t w'' u hw hs hw' hv ht hw'' hu =>
      have := jsonValueF_text ht n (by simp at hn; omega) v (w'' ++ ',' :: (u ++ '}' :: r)) hv
        (numStop_cons hw'' (by decide) _)
      have hi := jsonEntriesF_text hu n (by simp at hn; omega) r
      rw [jsonEntriesF]
      simp only [List.append_assoc, List.cons_append, List.nil_append] at this ⊢
      rw [skipWs_blank hw, skipWs_cons (by decide)]
      simp only [strBody_spelt hs, skipWs_blank hw', skipWs_cons (c := ':') (by decide), this, skipWs_blank hw'',
        skipWs_cons (c := ',') (by decide), hi, Option.map_some]
end

/-- Every JSON text of a value is read as that value. -/
theorem jsonOfText_text {j : Json} {s : Str} (h : JsonTextOf j s) : jsonOfText s = some j := by
  obtain ⟨w, t, w', rfl, hw, ht, hw'⟩ := h
  have := jsonValueF_text ht (2 * (w ++ t ++ w').length + 2) (by simp; omega) w w' hw (numStop_space hw')
  simp only [jsonOfText, this, skipWs_self_blank hw']
  rfl

/-! ### Only JSON texts are read -/

theorem hexVal_some {h : Char} {v : Nat} (hv : hexVal h = some v) : HexDigit h v ∧ v < 16 := by
  have lower : ∀ n, 0x61 ≤ n → n ≤ 0x66 → HexDigit (Char.ofNat n) (n - 0x57) := by
    intro n h1 h2
    have : n = 97 ∨ n = 98 ∨ n = 99 ∨ n = 100 ∨ n = 101 ∨ n = 102 := by omega
    unfold HexDigit
    rcases this with h | h | h | h | h | h <;> subst h <;> decide
  have upper : ∀ n, 0x41 ≤ n → n ≤ 0x46 → HexDigit (Char.ofNat n) (n - 0x37) := by
    intro n h1 h2
    have : n = 65 ∨ n = 66 ∨ n = 67 ∨ n = 68 ∨ n = 69 ∨ n = 70 := by omega
    unfold HexDigit
    rcases this with h | h | h | h | h | h <;> subst h <;> decide
  have digit : ∀ n, 0x30 ≤ n → n ≤ 0x39 → HexDigit (Char.ofNat n) (n - 0x30) := by
    intro n h1 h2
    have : n = 48 ∨ n = 49 ∨ n = 50 ∨ n = 51 ∨ n = 52 ∨ n = 53 ∨ n = 54 ∨ n = 55 ∨ n = 56 ∨ n = 57 := by omega
    unfold HexDigit
    rcases this with h | h | h | h | h | h | h | h | h | h <;> subst h <;> decide
  unfold hexVal at hv
  split at hv
  · next k =>
    have := digit _ k.1 k.2
    rw [char_ofNat_toNat] at this
    obtain rfl := Option.some.inj hv
    exact ⟨this, by omega⟩
  split at hv
  · next k =>
    have := upper _ k.1 k.2
    rw [char_ofNat_toNat] at this
    obtain rfl := Option.some.inj hv
    exact ⟨this, by omega⟩
  split at hv
  · next k =>
    have := lower _ k.1 k.2
    rw [char_ofNat_toNat] at this
    obtain rfl := Option.some.inj hv
    exact ⟨this, by omega⟩
  · simp at hv

theorem hex4_some {a b c d : Char} {n : Nat} (h : hex4 a b c d = some n) : Hex4 [a, b, c, d] n ∧ n < 0x10000 := by
  simp only [hex4, bind, Option.bind_eq_some_iff, pure, Option.some.injEq] at h
  obtain ⟨va, ha, vb, hb, vc, hc, vd, hd, h'⟩ := h
  have ha := hexVal_some ha
  have hb := hexVal_some hb
  have hc := hexVal_some hc
  have hd := hexVal_some hd
  exact ⟨⟨a, b, c, d, va, vb, vc, vd, rfl, ha.1, hb.1, hc.1, hd.1, by omega⟩, by omega⟩

theorem toNat_ofNat_valid {n : Nat} (h : n < 0xD800 ∨ 0xDFFF < n ∧ n < 0x110000) : (Char.ofNat n).toNat = n := by
  have : n.isValidChar := by
    rcases h with h | h
    · exact .inl h
    · exact .inr h
  simp [Char.ofNat, this, Char.toNat, Char.ofNatAux]

theorem escStep_some {s : Str} {c : Option Char} {r : Str} (h : escStep s = some (c, r)) :
    ∃ x t, c = some x ∧ '\\' :: s = t ++ r ∧ SpeltChar x t := by
  cases s with
  | nil => simp [escStep] at h
  | cons e s =>
    simp only [escStep] at h
    split at h
    · next he => subst he; obtain ⟨rfl, rfl⟩ := Prod.mk.inj (Option.some.inj h); exact ⟨_, _, rfl, rfl, .quote⟩
    split at h
    · next he => subst he; obtain ⟨rfl, rfl⟩ := Prod.mk.inj (Option.some.inj h); exact ⟨_, _, rfl, rfl, .backslash⟩
    split at h
    · next he => subst he; obtain ⟨rfl, rfl⟩ := Prod.mk.inj (Option.some.inj h); exact ⟨_, _, rfl, rfl, .slash⟩
    split at h
    · next he => subst he; obtain ⟨rfl, rfl⟩ := Prod.mk.inj (Option.some.inj h); exact ⟨_, _, rfl, rfl, .backspace⟩
    split at h
    · next he => subst he; obtain ⟨rfl, rfl⟩ := Prod.mk.inj (Option.some.inj h); exact ⟨_, _, rfl, rfl, .formFeed⟩
    split at h
    · next he => subst he; obtain ⟨rfl, rfl⟩ := Prod.mk.inj (Option.some.inj h); exact ⟨_, _, rfl, rfl, .lineFeed⟩
    split at h
    · next he => subst he; obtain ⟨rfl, rfl⟩ := Prod.mk.inj (Option.some.inj h); exact ⟨_, _, rfl, rfl, .return⟩
    split at h
    · next he => subst he; obtain ⟨rfl, rfl⟩ := Prod.mk.inj (Option.some.inj h); exact ⟨_, _, rfl, rfl, .tab⟩
    split at h
    · next he =>
      subst he
      unfold codeStep at h
      split at h
      · next a b d e r' =>
        split at h
        · simp at h
        · next n hn =>
          obtain ⟨hx, hlt⟩ := hex4_some hn
          split at h
          · next hs =>
            obtain ⟨rfl, rfl⟩ := Prod.mk.inj (Option.some.inj h)
            refine ⟨_, c!"\\u" ++ [a, b, d, e], rfl, rfl, .code _ _ ?_⟩
            rw [toNat_ofNat_valid (by omega)]
            exact hx
          split at h
          · simp at h
          · next hs1 hs2 =>
            unfold pairStep at h
            split at h
            · next a' b' d' e' r'' =>
              split at h
              · simp at h
              · next m hm =>
                obtain ⟨hy, _⟩ := hex4_some hm
                split at h
                · next hs3 =>
                  obtain ⟨rfl, rfl⟩ := Prod.mk.inj (Option.some.inj h)
                  refine ⟨_, c!"\\u" ++ [a, b, d, e] ++ c!"\\u" ++ [a', b', d', e'], rfl, rfl,
                    .pair _ (n - 0xD800) (m - 0xDC00) _ _ (by omega) (by omega) (toNat_ofNat_valid (by omega)) ?_ ?_⟩
                  · rw [show 0xD800 + (n - 0xD800) = n from by omega]; exact hx
                  · rw [show 0xDC00 + (m - 0xDC00) = m from by omega]; exact hy
                · simp at h
            · simp at h
      · simp at h
    · simp at h

theorem strStep_some {s : Str} {c : Option Char} {r : Str} (h : strStep s = some (c, r)) :
    (c = none ∧ s = '"' :: r) ∨ ∃ x t, c = some x ∧ s = t ++ r ∧ SpeltChar x t := by
  cases s with
  | nil => simp [strStep] at h
  | cons e s =>
    simp only [strStep] at h
    split at h
    · next he => subst he; obtain ⟨rfl, rfl⟩ := Prod.mk.inj (Option.some.inj h); exact .inl ⟨rfl, rfl⟩
    split at h
    · next he => subst he; exact .inr (escStep_some h)
    split at h
    · simp at h
    · next h1 h2 h3 =>
      obtain ⟨rfl, rfl⟩ := Prod.mk.inj (Option.some.inj h)
      exact .inr ⟨e, [e], rfl, rfl, .plain e (by omega) h1 h2⟩

theorem strBodyF_some {n : Nat} {s k r : Str} (h : strBodyF n s = some (k, r)) :
    ∃ t, s = t ++ '"' :: r ∧ Spelt k t := by
  induction n generalizing s k with
  | zero => simp [strBodyF] at h
  | succ n ih =>
    rw [strBodyF] at h
    split at h
    · simp at h
    · next r' hs =>
      obtain ⟨rfl, rfl⟩ := Prod.mk.inj (Option.some.inj h)
      rcases strStep_some hs with ⟨_, rfl⟩ | ⟨x, t, hx, _⟩
      · exact ⟨[], rfl, .nil⟩
      · simp at hx
    · next c r' hs =>
      split at h
      · simp at h
      · next t r'' hb =>
        obtain ⟨rfl, rfl⟩ := Prod.mk.inj (Option.some.inj h)
        obtain ⟨u, rfl, hu⟩ := ih hb
        rcases strStep_some hs with ⟨hx, _⟩ | ⟨x, v, hx, rfl, hv⟩
        · simp at hx
        · obtain rfl := Option.some.inj hx
          exact ⟨v ++ u, by simp, .cons _ _ _ _ hv hu⟩

theorem skipWs_split (s : Str) : ∃ w, s = w ++ skipWs s ∧ JsonSpace w := by
  refine ⟨s.takeWhile isJsonWs, List.takeWhile_append_dropWhile.symm, fun c hc => ?_⟩
  have := List.all_eq_true.1 (List.all_takeWhile (p := isJsonWs) (l := s)) c hc
  simpa [isJsonWs, or_assoc] using this

theorem readNumber_some {s : Str} {j : Json} {r : Str} (h : readNumber s = some (j, r)) :
    ∃ t, s = t ++ r ∧ TextOf j t := by
  unfold readNumber at h
  split at h
  · next hn =>
    obtain ⟨rfl, rfl⟩ := Prod.mk.inj (Option.some.inj h)
    exact ⟨_, List.takeWhile_append_dropWhile.symm, .number _ ((isNumber_iff _).1 hn)⟩
  · simp at h

/-- What the readers of values, elements and entries read are such texts. -/
theorem jsonF_some (n : Nat) :
    (∀ s j r, jsonValueF n s = some (j, r) → ∃ w t, s = w ++ t ++ r ∧ JsonSpace w ∧ TextOf j t) ∧
    (∀ s l r, jsonItemsF n s = some (l, r) → ∃ t, s = t ++ ']' :: r ∧ ItemsOf l t) ∧
    (∀ s l r, jsonEntriesF n s = some (l, r) → ∃ t, s = t ++ '}' :: r ∧ EntriesOf l t) := by
  induction n with
  | zero => simp [jsonValueF, jsonItemsF, jsonEntriesF]
  | succ n ih =>
    obtain ⟨ihv, ihi, ihe⟩ := ih
    refine ⟨fun s j r h => ?_, fun s l r h => ?_, fun s l r h => ?_⟩
    · obtain ⟨w, hs, hw⟩ := skipWs_split s
      suffices ∃ t, skipWs s = t ++ r ∧ TextOf j t by
        obtain ⟨t, ht, hj⟩ := this
        exact ⟨w, t, by rw [List.append_assoc, ← ht]; exact hs, hw, hj⟩
      rw [jsonValueF] at h
      split at h
      · next r' he => obtain ⟨rfl, rfl⟩ := Prod.mk.inj (Option.some.inj h); exact ⟨_, he, .null⟩
      · next r' he => obtain ⟨rfl, rfl⟩ := Prod.mk.inj (Option.some.inj h); exact ⟨_, he, .true⟩
      · next r' he => obtain ⟨rfl, rfl⟩ := Prod.mk.inj (Option.some.inj h); exact ⟨_, he, .false⟩
      · next r' he =>
        cases hb : strBody r' with
        | none => simp [hb] at h
        | some x =>
          obtain ⟨k, r''⟩ := x
          simp only [hb, Option.map_some] at h
          obtain ⟨rfl, rfl⟩ := Prod.mk.inj (Option.some.inj h)
          obtain ⟨t, rfl, ht⟩ := strBodyF_some hb
          exact ⟨_, by rw [he]; simp, .string _ _ ht⟩
      · next r' he =>
        obtain ⟨w', hw', hwb⟩ := skipWs_split r'
        split at h
        · next r'' he' =>
          obtain ⟨rfl, rfl⟩ := Prod.mk.inj (Option.some.inj h)
          exact ⟨_, by rw [he, hw', he']; simp, .emptyArray w' hwb⟩
        · next hne =>
          cases hb : jsonItemsF n (skipWs r') with
          | none => simp [hb] at h
          | some x =>
            obtain ⟨l, r''⟩ := x
            simp only [hb, Option.map_some] at h
            obtain ⟨rfl, rfl⟩ := Prod.mk.inj (Option.some.inj h)
            rw [jsonItemsF_skip] at hb
            obtain ⟨t, rfl, ht⟩ := ihi _ _ _ hb
            exact ⟨_, by rw [he]; simp, .array _ _ ht⟩
      · next r' he =>
        obtain ⟨w', hw', hwb⟩ := skipWs_split r'
        split at h
        · next r'' he' =>
          obtain ⟨rfl, rfl⟩ := Prod.mk.inj (Option.some.inj h)
          exact ⟨_, by rw [he, hw', he']; simp, .emptyObject w' hwb⟩
        · next hne =>
          cases hb : jsonEntriesF n (skipWs r') with
          | none => simp [hb] at h
          | some x =>
            obtain ⟨l, r''⟩ := x
            simp only [hb, Option.map_some] at h
            obtain ⟨rfl, rfl⟩ := Prod.mk.inj (Option.some.inj h)
            rw [jsonEntriesF_skip] at hb
            obtain ⟨t, rfl, ht⟩ := ihe _ _ _ hb
            exact ⟨_, by rw [he]; simp, .object _ _ ht⟩
      · exact readNumber_some h
    · rw [jsonItemsF] at h
      split at h
      · simp at h
      · next j r' hv =>
        obtain ⟨w, t, rfl, hw, ht⟩ := ihv _ _ _ hv
        obtain ⟨w', hw', hwb⟩ := skipWs_split r'
        split at h
        · next r'' he =>
          obtain ⟨rfl, rfl⟩ := Prod.mk.inj (Option.some.inj h)
          exact ⟨_, by rw [hw', he]; simp, .one j w t w' hw ht hwb⟩
        · next r'' he =>
          cases hb : jsonItemsF n r'' with
          | none => simp [hb] at h
          | some x =>
            obtain ⟨l', r3⟩ := x
            simp only [hb, Option.map_some] at h
            obtain ⟨rfl, rfl⟩ := Prod.mk.inj (Option.some.inj h)
            obtain ⟨u, rfl, hu⟩ := ihi _ _ _ hb
            exact ⟨_, by rw [hw', he]; simp, .cons j l' w t w' u hw ht hwb hu⟩
        · simp at h
    · obtain ⟨w, hs, hw⟩ := skipWs_split s
      rw [jsonEntriesF] at h
      split at h
      · next r1 he =>
        split at h
        · simp at h
        · next k r2 hb =>
          obtain ⟨sp, rfl, hsp⟩ := strBodyF_some hb
          obtain ⟨w', hs', hw'⟩ := skipWs_split r2
          split at h
          · next r3 he' =>
            split at h
            · simp at h
            · next j r4 hv =>
              obtain ⟨v, t, rfl, hvb, ht⟩ := ihv _ _ _ hv
              obtain ⟨w'', hs'', hw''⟩ := skipWs_split r4
              split at h
              · next r5 he'' =>
                obtain ⟨rfl, rfl⟩ := Prod.mk.inj (Option.some.inj h)
                exact ⟨_, by rw [hs, he, hs', he', hs'', he'']; simp, .one k j w sp w' v t w'' hw hsp hw' hvb ht hw''⟩
              · next r5 he'' =>
                cases hb : jsonEntriesF n r5 with
                | none => simp [hb] at h
                | some x =>
                  obtain ⟨l', r6⟩ := x
                  simp only [hb, Option.map_some] at h
                  obtain ⟨rfl, rfl⟩ := Prod.mk.inj (Option.some.inj h)
                  obtain ⟨u, rfl, hu⟩ := ihe _ _ _ hb
                  exact ⟨_, by rw [hs, he, hs', he', hs'', he'']; simp,
                    .cons k j l' w sp w' v t w'' u hw hsp hw' hvb ht hw'' hu⟩
              · simp at h
          · simp at h
      · simp at h

/-- The texts that are read as a value are its JSON texts. -/
theorem jsonOfText_iff (j : Json) (s : Str) : jsonOfText s = some j ↔ JsonTextOf j s := by
  refine ⟨fun h => ?_, jsonOfText_text⟩
  unfold jsonOfText at h
  split at h
  · next j' r hv =>
    split at h
    · next he =>
      obtain rfl := Option.some.inj h
      obtain ⟨w, t, rfl, hw, ht⟩ := (jsonF_some _).1 _ _ _ hv
      obtain ⟨w', hr, hw'⟩ := skipWs_split r
      rw [List.isEmpty_iff.1 he, List.append_nil] at hr
      subst hr
      exact ⟨w, t, _, rfl, hw, ht, hw'⟩
    · simp at h
  · simp at h

end Ical
