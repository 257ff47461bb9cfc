import Verif.Props.Report
import Verif.Props.SimpleErrors
import Verif.Props.Durations
import Verif.Props.FoldFill
import Verif.Proofs.Unfold

/-!
C135: error messages are at most proportional to the text. Every open component around the place of an error is on a line of
its own, so the lines quoted in a message are mostly different ones.
-/

namespace Ical

open Nom Spec

/-! ### Lines -/

/-- the part after the last line break -/
def lastLine (s : Str) : Str := (s.reverse.takeWhile (· != '\n')).reverse

/-- the part before the first line break -/
def firstLine (s : Str) : Str := s.takeWhile (· != '\n')

/-- the part from the first line break on -/
def afterLine (s : Str) : Str := s.dropWhile (· != '\n')

theorem first_after (s : Str) : blen (firstLine s) + blen (afterLine s) = blen s := by
  rw [← blen_append]
  exact congrArg blen List.takeWhile_append_dropWhile

theorem takeWhile_halt {p : Char → Bool} {a b : Str} (h : ∃ c ∈ a, p c = false) :
    (a ++ b).takeWhile p = a.takeWhile p := by
  induction a with
  | nil => simp at h
  | cons x a ih =>
    simp only [List.cons_append, List.takeWhile_cons]
    split
    · rename_i hx
      rw [ih]
      obtain ⟨c, hc, hp⟩ := h
      rcases List.mem_cons.1 hc with rfl | hc
      · rw [hx] at hp; cases hp
      · exact ⟨c, hc, hp⟩
    · rfl

theorem takeWhile_over {p : Char → Bool} {a b : Str} (h : ∀ c ∈ a, p c = true) :
    (a ++ b).takeWhile p = a ++ b.takeWhile p := by
  induction a with
  | nil => rfl
  | cons x a ih =>
    rw [List.cons_append, List.takeWhile_cons, if_pos (h x List.mem_cons_self),
      ih (fun c hc => h c (List.mem_cons_of_mem _ hc))]
    rfl

theorem lastLine_break (p : Str) {q : Str} (h : '\n' ∈ q) : lastLine (p ++ q) = lastLine q := by
  unfold lastLine
  rw [List.reverse_append, takeWhile_halt ⟨'\n', List.mem_reverse.2 h, by decide⟩]

theorem lastLine_same (p : Str) {q : Str} (h : '\n' ∉ q) : lastLine (p ++ q) = lastLine p ++ q := by
  unfold lastLine
  rw [List.reverse_append, takeWhile_over, List.reverse_append, List.reverse_reverse]
  intro c hc
  have : c ≠ '\n' := fun e => h (e ▸ List.mem_reverse.1 hc)
  simpa using this

theorem lastLine_le (q : Str) : blen (lastLine q) ≤ blen q := by
  by_cases h : '\n' ∈ q
  · induction q with
    | nil => cases h
    | cons c q ih =>
      by_cases hq : '\n' ∈ q
      · have := lastLine_break [c] hq
        rw [List.singleton_append] at this
        rw [this]
        have := ih hq
        simp only [blen]; omega
      · have := lastLine_same [c] hq
        rw [List.singleton_append] at this
        rw [this]
        have hc : c = '\n' := by
          rcases List.mem_cons.1 h with h | h
          · exact h.symm
          · exact absurd h hq
        subst hc
        have : lastLine ['\n'] = [] := rfl
        rw [this]
        simp only [List.nil_append, blen]; omega
  · have := lastLine_same [] h
    rw [List.nil_append] at this
    rw [this]
    exact Nat.le_refl _

theorem lastLine_append (p q : Str) : blen (lastLine (p ++ q)) ≤ blen (lastLine p) + blen q := by
  by_cases h : '\n' ∈ q
  · rw [lastLine_break p h]
    have := lastLine_le q
    omega
  · rw [lastLine_same p h, blen_append]
    exact Nat.le_refl _

/-- after the last line break is after the first one -/
theorem lastLine_after {q : Str} (h : '\n' ∈ q) (f : Str) : blen (lastLine q) + blen f ≤ blen (afterLine (q ++ f)) := by
  induction q with
  | nil => cases h
  | cons c q ih =>
    by_cases hc : c = '\n'
    · subst hc
      have e : afterLine ('\n' :: q ++ f) = '\n' :: q ++ f := rfl
      rw [e, blen_append]
      have := lastLine_le ('\n' :: q)
      omega
    · have hq : '\n' ∈ q := by
        rcases List.mem_cons.1 h with h | h
        · exact absurd h.symm hc
        · exact h
      have e : afterLine (c :: q ++ f) = afterLine (q ++ f) := by
        unfold afterLine
        rw [List.cons_append, List.dropWhile_cons, if_pos (by simpa using hc)]
      rw [e]
      have := lastLine_break [c] hq
      rw [List.singleton_append] at this
      rw [this]
      exact ih hq

/-! ### Places -/

/-- the octets that are written for a place: its line and the blanks before the caret -/
def placeSize (p rest : Str) : Nat := 2 * blen (lastLine p) + blen (firstLine rest)

theorem blen_prefix {a b : Str} (h : a <+: b) : blen a ≤ blen b := by
  obtain ⟨c, rfl⟩ := h
  rw [blen_append]; omega

theorem isPlace_size {p rest line : Str} {n col : Nat} (h : IsPlace (p ++ rest) rest n line col) :
    blen line + (col - 1) ≤ placeSize p rest ∧ n ≤ p.length + 1 := by
  obtain ⟨above, before, after, below, white, h1, h2, h3, h4, h5, h6, h7, h8, h9, -, -⟩ := h
  have hp : p = above ++ before := List.append_cancel_right h1
  have e1 : lastLine p = before := by
    rw [hp, lastLine_same above h4]
    rcases h2 with rfl | ⟨a, rfl⟩
    · rfl
    · rw [lastLine_break a (by simp)]; rfl
  have e2 : firstLine rest = after := by
    unfold firstLine
    rw [h6, takeWhile_over (fun c hc => by
      have : c ≠ '\n' := fun e => h7 (e ▸ hc)
      simpa using this)]
    rcases h8 with rfl | ⟨b, rfl⟩
    · simp
    · simp
  have e3 := congrArg blen h9
  rw [blen_append, blen_append] at e3
  rw [blen_utf8] at h5
  have e4 := List.length_filter_le (· = '\n') above
  unfold placeSize
  rw [e1, e2]
  refine ⟨by omega, ?_⟩
  rw [h3, hp, List.length_append]
  omega

/-- the sum of the sizes of the places in a text that follows another one -/
def placesSize (i : Str) : List Entry → Nat
  | [] => 0
  | e :: l => placeSize (i.take (i.length - e.1.length)) e.1 + placesSize i l

theorem placesSize_append (i : Str) (a b : List Entry) : placesSize i (a ++ b) = placesSize i a + placesSize i b := by
  induction a with
  | nil => simp [placesSize]
  | cons e a ih => simp only [List.cons_append, placesSize, ih]; omega

theorem take_before (p rest : Str) : (p ++ rest).take ((p ++ rest).length - rest.length) = p := by
  rw [List.length_append, Nat.add_sub_cancel, List.take_left]

theorem digit_size {c : Char} (h : IsDigit c) : c.utf8Size = 1 := by
  have h2 : c.val.toNat ≤ '9'.val.toNat := UInt32.le_iff_toNat_le.1 h.2
  have h3 : '9'.val.toNat = 57 := rfl
  exact Char.utf8Size_eq_one_iff.2 (UInt32.le_iff_toNat_le.2 (by have : (127 : UInt32).toNat = 127 := rfl; omega))

theorem digits_size {n k : Nat} (h : n < 10 ^ (k + 1)) : blen (Nat.toDigits 10 n) ≤ k + 1 := by
  have h1 : blen (natToStr n) = (natToStr n).length := blen_ascii (fun c hc => digit_size (isDigit_natToStr n c hc))
  have h2 := natToStr_length h
  unfold natToStr at h1 h2
  omega

theorem replicate_size (n : Nat) : blen (List.replicate n ' ') = n := by
  induction n with
  | zero => rfl
  | succ n ih =>
    rw [List.replicate_succ]
    simp only [blen, ih]
    have : ' '.utf8Size = 1 := by decide
    omega

theorem message_size {i : Str} {k : Nat} {l : List Entry} {text : Str} (h : Message i k l text)
    (hi : i.length < 10 ^ 19) (hk : k + l.length < 10 ^ 20) (hs : ∀ e ∈ l, blen e.2.says ≤ 32) :
    blen text ≤ placesSize i l + 93 * l.length := by
  induction h with
  | nil => simp [blen]
  | @cons k rest what l n col line text h1 h2 ih =>
    have ih := ih (by simp only [List.length_cons] at hk; omega) (fun e he => hs e (List.mem_cons_of_mem _ he))
    have hw := hs _ List.mem_cons_self
    have hr : ∃ p, i = p ++ rest := by
      obtain ⟨above, before, -, -, -, h, -⟩ := h1
      exact ⟨_, h⟩
    obtain ⟨p, rfl⟩ := hr
    obtain ⟨h3, h4⟩ := isPlace_size h1
    simp only [List.length_append] at hi
    have d1 : blen (Nat.toDigits 10 k) ≤ 20 := digits_size (k := 19) (by omega)
    have d2 : blen (Nat.toDigits 10 n) ≤ 20 := digits_size (k := 19) (by omega)
    simp only [placesSize, take_before, blen_append, List.length_cons, replicate_size]
    have c1 : blen c!": at line " = 10 := rfl
    have c2 : blen c!", in " = 5 := rfl
    have c3 : blen c!":\n" = 2 := rfl
    have c4 : blen c!"\n" = 1 := rfl
    have c5 : blen c!"^\n\n" = 3 := rfl
    dsimp only at hw
    omega

/-! ### Reports -/

variable [Uni]

theorem body_last_line {props : List PProp} {comps : List PComp} {body f : Str} (h : BodyIs props comps body f)
    (hb : body ≠ []) (hf : f ≠ []) (hn : First (fun c => ¬ NameChar c) (body ++ f)) : '\n' ∈ body := by
  cases h with
  | nil => exact absurd rfl hb
  | @prop p props comps t trail rest f h1 h2 h3 ht h4 h5 h6 =>
    obtain ⟨k1, k2, ⟨white, params, raw, br, a1, a2, a3, a4, rfl⟩ | ⟨b1, b2, b3, br, rfl, b5, b6⟩⟩ := h3
    · rcases a3 with ⟨rfl, -⟩ | ⟨rfl, -⟩ | ⟨-, -, he⟩
      · simp
      · simp
      · simp only [List.append_eq_nil_iff] at he
        exact absurd he.2.2 hf
    · have hk : p.name = [] := by
        cases hm : p.name with
        | nil => rfl
        | cons c k =>
          rw [hm] at hn
          exact absurd (k1 c (by rw [hm]; exact List.mem_cons_self)) (hn c rfl)
      rcases b6 with rfl | rfl | ⟨rfl, -⟩
      · simp
      · simp
      · rw [hk] at ht; exact absurd rfl ht
  | @stuck p props comps t trail rest f h1 h3 ht h4 h5 h6 =>
    rw [List.append_assoc, List.append_assoc] at hn
    exact absurd (stuck_begins h1) (nameless hn).1
  | @comp c props comps t rest f h1 h2 =>
    rw [List.append_assoc] at hn
    exact absurd (compIs_begins h1).1 (nameless hn).1

omit [Uni] in
theorem blank_break_mem {s : Str} (h : Blank s) (hs : s ≠ []) : '\n' ∈ s := by
  obtain ⟨bs, rfl⟩ := h
  cases bs with
  | nil => exact absurd rfl hs
  | cons b bs => cases b <;> simp [Break.text]

/-- the text between the name of a component and a keyword has a line break -/
theorem opening_last_line {props : List PProp} {comps : List PComp} {gap body f : Str} (hg : Blank gap)
    (h : BodyIs props comps body f) (hn : First (fun c => ¬ NameChar c) (gap ++ (body ++ f)))
    (hf : Begins c!"begin:" f ∨ Begins c!"end:" f) : '\n' ∈ gap ++ body := by
  by_cases hgap : gap = []
  · subst hgap
    rw [List.nil_append] at hn ⊢
    refine body_last_line h ?_ ?_ hn
    · rintro rfl
      rw [List.nil_append] at hn
      have := nameless hn
      rcases hf with hf | hf
      · exact this.1 hf
      · exact this.2 hf
    · rintro rfl
      rcases hf with ⟨b, r, e, hb⟩ | ⟨b, r, e, hb⟩
      all_goals
        obtain ⟨rfl, -⟩ := List.append_eq_nil_iff.1 e.symm
        cases hb
  · exact List.mem_append_left _ (blank_break_mem hg hgap)

omit [Uni] in
theorem keyword_size {b k : Str} (h : b.map lowerAscii = k) : k.length ≤ blen b := by
  rw [← h, List.length_map]
  exact length_le_blen b

theorem reports_size {j : Str} {l : List Entry} (h : Reports j l) :
    7 * l.length ≤ 28 + blen j ∧ (∀ e ∈ l, blen e.2.says ≤ 32) ∧
    ∀ p, placesSize (p ++ j) l ≤ 8 * (blen (lastLine p) + blen j) ∨ placesSize (p ++ j) l ≤ 10 * blen (afterLine j) := by
  induction h with
  | @close n props comps b gap body e f h1 h2 h3 h4 h5 h6 h7 h8 =>
    refine ⟨by simp; omega, by intro e he; simp at he; rcases he with rfl | rfl <;> exact Nat.le_of_ble_eq_true rfl, fun p => .inr ?_⟩
    have hq : '\n' ∈ b ++ n ++ (gap ++ body) ++ e :=
      List.mem_append_left _ (List.mem_append_right _ (opening_last_line h4 h6 h3 (.inr ⟨e, f, rfl, h7⟩)))
    have e1 : b ++ (n ++ (gap ++ (body ++ (e ++ f)))) = (b ++ n ++ (gap ++ body) ++ e) ++ f := by simp
    have h9 := lastLine_after hq f
    have h10 := first_after f
    rw [e1, ← List.append_assoc]
    simp only [placesSize, take_before, placeSize, lastLine_break p hq]
    omega
  | @word n props comps b gap body white s h1 h2 h3 h4 h5 h6 h7 h8 h9 h10 =>
    refine ⟨by simp, by intro e he; simp at he; rcases he with rfl | rfl | rfl | rfl <;> exact Nat.le_of_ble_eq_true rfl, fun p => .inl ?_⟩
    have e1 : p ++ (b ++ (n ++ (gap ++ (body ++ (white ++ s))))) = p ++ (b ++ n ++ (gap ++ body)) ++ (white ++ s) := by simp
    have e2 : p ++ (b ++ (n ++ (gap ++ (body ++ (white ++ s))))) = p ++ (b ++ n ++ (gap ++ body) ++ white) ++ s := by simp
    have t1 := take_before (p ++ (b ++ n ++ (gap ++ body))) (white ++ s)
    have t2 := take_before (p ++ (b ++ n ++ (gap ++ body) ++ white)) s
    rw [← e1] at t1
    rw [← e2] at t2
    have l1 := lastLine_append p (b ++ n ++ (gap ++ body))
    have l2 := lastLine_append p (b ++ n ++ (gap ++ body) ++ white)
    have f1 := first_after (white ++ s)
    have f2 := first_after s
    simp only [blen_append] at l1 l2 f1
    simp only [placesSize, t1, t2, placeSize, blen_append]
    omega
  | @inner n props comps b gap body f l h1 h2 h3 h4 h5 h6 h7 ih =>
    obtain ⟨i1, i2, i3⟩ := ih
    have hf := broken_begins (reports_broken h7)
    have hg := opening_last_line h4 h6 h3 (.inl hf)
    have hq : '\n' ∈ b ++ n ++ (gap ++ body) := List.mem_append_right _ hg
    have e1 : b ++ (n ++ (gap ++ (body ++ f))) = (b ++ n ++ (gap ++ body)) ++ f := by simp
    refine ⟨?_, ?_, fun p => .inr ?_⟩
    · have hb := keyword_size h1
      have hgb : 1 ≤ blen (gap ++ body) := by
        have := length_le_blen (gap ++ body)
        have := List.length_pos_of_mem hg
        omega
      rw [blen_append] at hgb
      have : (c!"begin:").length = 6 := rfl
      simp only [blen_append, List.length_append, List.length_singleton]
      omega
    · intro e he
      rcases List.mem_append.1 he with he | he
      · exact i2 e he
      · rw [List.mem_singleton.1 he]; exact Nat.le_of_ble_eq_true rfl
    · have h9 := lastLine_after hq f
      have h10 := first_after f
      have ih := i3 (p ++ (b ++ n ++ (gap ++ body)))
      rw [e1, ← List.append_assoc, placesSize_append]
      rw [lastLine_break p hq] at ih
      simp only [placesSize, take_before, placeSize, lastLine_break p hq]
      omega

/-! ### C135 -/

omit [Uni] in
theorem places_few {i : Str} {l : List Entry} (h : ∀ e ∈ l, e.1 <:+ i) : placesSize i l ≤ l.length * (2 * blen i) := by
  induction l with
  | nil => simp [placesSize]
  | cons e l ih =>
    obtain ⟨p, hp⟩ := h e List.mem_cons_self
    have ih := ih fun x hx => h x (List.mem_cons_of_mem _ hx)
    have h1 := lastLine_le p
    have h2 := first_after e.1
    have h3 : placeSize (i.take (i.length - e.1.length)) e.1 ≤ 2 * blen i := by
      rw [← hp, take_before, blen_append]
      unfold placeSize
      omega
    have h4 : (e :: l).length * (2 * blen i) = l.length * (2 * blen i) + 2 * blen i := Nat.succ_mul _ _
    rw [h4]
    simp only [placesSize]
    omega

theorem report_size {lead j text : Str} {l : List Entry} (h : Reports j l) (ht : Message (lead ++ j) 0 l text)
    (hi : blen (lead ++ j) < 10 ^ 19) : blen (c!"error: " ++ text) ≤ 24 * blen (lead ++ j) + 380 := by
  obtain ⟨h1, h2, h3⟩ := reports_size h
  have h4 := length_le_blen (lead ++ j)
  have h5 := lastLine_le lead
  have h6 := first_after j
  have h7 : blen c!"error: " = 7 := rfl
  have h10 := blen_append lead j
  have h8 := message_size ht (by omega) (by omega) h2
  have h9 := h3 lead
  rw [blen_append]
  omega

omit [Uni] in
theorem few_size {i text : Str} {l : List Entry} (hl : l.length ≤ 3) (hp : ∀ e ∈ l, e.1 <:+ i)
    (hs : ∀ e ∈ l, blen e.2.says ≤ 32) (ht : Message i 0 l text) (hi : blen i < 10 ^ 19) :
    blen (c!"error: " ++ text) ≤ 24 * blen i + 380 := by
  have h4 := length_le_blen i
  have h7 : blen c!"error: " = 7 := rfl
  have h8 := message_size ht (by omega) (by omega) hs
  have h9 := places_few hp
  have h10 := Nat.mul_le_mul_right (2 * blen i) hl
  rw [blen_append]
  omega

/-- **C135.** The message for a rejected calendar is at most proportional to the text. -/
theorem calendar_message_size {i m : Str} (h : readCalendarError i = some m) (hi : blen i < 10 ^ 19) :
    blen m ≤ 24 * blen i + 380 := by
  obtain ⟨lead, j, l, text, rfl, -, h1, h2, rfl⟩ := calendar_report_iff.1 h
  exact report_size h1 h2 hi

/-- **C135.** The message for a rejected component is at most proportional to the text. -/
theorem component_message_size {i m : Str} (h : readComponentError i = some m) (hi : blen i < 10 ^ 19) :
    blen m ≤ 24 * blen i + 380 := by
  by_cases hne : i = []
  · subst hne
    rw [component_error_empty, Option.some.injEq] at h
    subst h
    exact Nat.le_of_ble_eq_true rfl
  · obtain ⟨lead, j, l, text, rfl, -, -, h1, h2, rfl⟩ := (component_report_iff hne).1 h
    rcases h1 with ⟨-, rfl⟩ | ⟨hb, hn, h3, h4, h5, h6, h7⟩ | h1
    · refine few_size (by simp) ?_ ?_ h2 hi
      · intro e he; rw [List.mem_singleton.1 he]; exact ⟨lead, rfl⟩
      · intro e he; rw [List.mem_singleton.1 he]; exact Nat.le_of_ble_eq_true rfl
    · rename_i n props comps b gap body f
      refine few_size (by simp) ?_ ?_ h2 hi
      · intro e he; rw [List.mem_singleton.1 he]; exact ⟨lead ++ (b ++ (n ++ (gap ++ body))), by simp only [List.append_assoc]⟩
      · intro e he; rw [List.mem_singleton.1 he]; exact Nat.le_of_ble_eq_true rfl
    · exact report_size h1 h2 hi

/-- **C135.** The message for a rejected property is at most proportional to the text. -/
theorem property_message_size {i m : Str} (h : readPropertyError i = some m) (hi : blen i < 10 ^ 19) :
    blen m ≤ 24 * blen i + 380 := by
  obtain ⟨space, s, text, rfl, -, -, h2, rfl⟩ := (property_error_message i).2 m h
  refine few_size (by simp) ?_ ?_ h2 hi
  · intro e he
    simp only [List.mem_cons, List.not_mem_nil, or_false] at he
    rcases he with rfl | rfl | rfl
    · exact ⟨space, rfl⟩
    · exact List.suffix_refl _
    · exact List.suffix_refl _
  · intro e he
    simp only [List.mem_cons, List.not_mem_nil, or_false] at he
    rcases he with rfl | rfl | rfl <;> exact Nat.le_of_ble_eq_true rfl

/-- **C135.** What the error of the simple reader shows is little more than the rest of the text. -/
theorem simple_message_size {i : Str} {e : SErr} (h : readCalendarSimple i = .error e) :
    blen e.show ≤ blen i + 18 := by
  have h1 : blen c!"error " = 6 := rfl
  have h2 : blen c!" at: " = 5 := rfl
  unfold SErr.show
  simp only [blen_append]
  rcases simple_error_place i e h with ⟨hc, before, kw, rfl, -⟩ | ⟨hc, -, before, rfl⟩
  · have : blen e.code = 3 := by rw [hc]; rfl
    simp only [blen_append]; omega
  · have : blen e.code = 7 := by rw [hc]; rfl
    simp only [blen_append]; omega

omit [Uni] in
theorem unfold_size (s : Str) : blen (unfold s) ≤ blen s := by
  rw [unfold_eq_spec]
  fun_induction unfoldSpec s <;> simp_all only [blen] <;> omega

/-- **C135.** The same for files that are unfolded before they are read. -/
theorem file_message_size {s m : Str} (h : readCalendarError (unfold s) = some m ∨ readComponentError (unfold s) = some m)
    (hs : blen s < 10 ^ 19) : blen m ≤ 24 * blen s + 380 := by
  have hu := unfold_size s
  rcases h with h | h
  · have := calendar_message_size h (by omega); omega
  · have := component_message_size h (by omega); omega

/-! Sample rejected texts: the message quotes the line of the error and those of the components around it. -/

def rejected : Str := c!"BEGIN:A\r\nBEGIN:B\r\nX:1\r\nEND:C\r\nEND:A\r\n"

example : ∃ m, @readCalendarError Uni.ascii rejected = some m ∧ blen m ≤ 24 * blen rejected + 380 := by
  have h : (@readCalendarError Uni.ascii rejected).isSome = true := by decide +kernel
  obtain ⟨m, hm⟩ := Option.isSome_iff_exists.1 h
  exact ⟨m, hm, @calendar_message_size Uni.ascii _ _ hm (by decide +kernel)⟩

example : ∃ m, @readComponentError Uni.ascii rejected = some m ∧ blen m ≤ 24 * blen rejected + 380 := by
  have h : (@readComponentError Uni.ascii rejected).isSome = true := by decide +kernel
  obtain ⟨m, hm⟩ := Option.isSome_iff_exists.1 h
  exact ⟨m, hm, @component_message_size Uni.ascii _ _ hm (by decide +kernel)⟩

example : ∃ m, @readPropertyError Uni.ascii c!" ENDING:1" = some m ∧ blen m ≤ 24 * 9 + 380 := by
  have h : (@readPropertyError Uni.ascii c!" ENDING:1").isSome = true := by decide +kernel
  obtain ⟨m, hm⟩ := Option.isSome_iff_exists.1 h
  exact ⟨m, hm, @property_message_size Uni.ascii _ _ hm (by decide +kernel)⟩

example : ∃ e, @readCalendarSimple Uni.ascii rejected = .error e ∧ blen e.show ≤ blen rejected + 18 := by
  have h : (@readCalendarSimple Uni.ascii rejected).toOption.isNone = true := by decide +kernel
  cases hr : @readCalendarSimple Uni.ascii rejected with
  | ok x => rw [hr] at h; simp [Except.toOption] at h
  | error e => exact ⟨e, rfl, @simple_message_size Uni.ascii _ _ hr⟩

example : ∃ m, @readCalendarError Uni.ascii (unfold rejected) = some m ∧ blen m ≤ 24 * blen rejected + 380 := by
  have h : (@readCalendarError Uni.ascii (unfold rejected)).isSome = true := by decide +kernel
  obtain ⟨m, hm⟩ := Option.isSome_iff_exists.1 h
  exact ⟨m, hm, @file_message_size Uni.ascii _ _ (.inl hm) (by decide +kernel)⟩

end Ical
