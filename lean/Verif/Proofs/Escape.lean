import Verif.Model.Text
import Verif.Spec.Text

/-!
Escaping and unescaping as single passes.
-/

namespace Ical

open Spec

/-- replace backslash-`y` by `z` -/
def rep2 (y z : Char) : Str → Str
  | [] => []
  | [c] => [c]
  | a :: b :: s => if a = '\\' ∧ b = y then z :: rep2 y z s else a :: rep2 y z (b :: s)

theorem replaceAll_rep2 (y z : Char) (s : Str) : replaceAll ['\\', y] [z] s = rep2 y z s := by
  unfold replaceAll
  fun_induction rep2 y z s with
  | case1 => rfl
  | case2 c => simp [replaceGo, List.isPrefixOf]
  | case3 a b s h ih =>
    obtain ⟨rfl, rfl⟩ := h
    rw [replaceGo, if_pos (by simp [List.isPrefixOf]), ← ih]
    rfl
  | case4 a b s h ih =>
    rw [replaceGo, if_neg, ih]
    intro hp
    obtain ⟨t, ht⟩ := List.isPrefixOf_iff_prefix.1 hp
    simp only [List.cons_append, List.cons.injEq] at ht
    exact h ⟨ht.1.symm, ht.2.1.symm⟩

theorem containsStr_iff {pat s : Str} : containsStr pat s = true ↔ pat <:+: s := by
  induction s with
  | nil => simp [containsStr]
  | cons c s ih => simp [containsStr, ih, List.infix_cons_iff, List.isPrefixOf_iff_prefix]

theorem rep2_of_not_infix {y z : Char} {s : Str} (h : ¬ ['\\', y] <:+: s) : rep2 y z s = s := by
  fun_induction rep2 y z s with
  | case1 => rfl
  | case2 => rfl
  | case3 a b s hab ih => exact absurd ⟨[], s, by simp [hab]⟩ h
  | case4 a b s hab ih =>
    rw [ih]
    intro hi
    exact h (List.infix_cons hi)

/-- `unescapeText` is its six replacements, with or without the guard -/
theorem unescapeText_eq (s : Str) : unescapeText s =
    rep2 'n' '\n' (rep2 'N' '\n' (rep2 ':' ':' (rep2 ';' ';' (rep2 ',' ',' (rep2 '\\' '\\' s))))) := by
  unfold unescapeText
  split
  · simp only [replaceAll_rep2]
  · rename_i h
    simp only [Bool.or_eq_true, containsStr_iff, not_or] at h
    obtain ⟨⟨⟨⟨⟨h1, h2⟩, h3⟩, h4⟩, h5⟩, h6⟩ := h
    rw [rep2_of_not_infix h1, rep2_of_not_infix h2, rep2_of_not_infix h3, rep2_of_not_infix h4,
      rep2_of_not_infix h5, rep2_of_not_infix h6]

/-- one character of `escapeText` -/
def escChar (c : Char) : Str :=
  if c = '\\' then ['\\', '\\'] else if c = ',' then ['\\', ','] else if c = ';' then ['\\', ';']
  else if c = '\n' then ['\\', 'N'] else [c]

theorem replaceChar_append (p : Char) (to a b : Str) :
    replaceChar p to (a ++ b) = replaceChar p to a ++ replaceChar p to b := by
  induction a with
  | nil => rfl
  | cons c a ih => simp [replaceChar, ih]

theorem escapeText_eq (s : Str) : escapeText s = s.flatMap escChar := by
  unfold escapeText
  induction s with
  | nil => rfl
  | cons c s ih =>
    rw [replaceChar, replaceChar_append, replaceChar_append, replaceChar_append, ih, List.flatMap_cons]
    congr 1
    unfold escChar
    by_cases h1 : c = '\\'
    · subst h1; decide
    · rw [if_neg h1, if_neg h1]
      by_cases h2 : c = ','
      · subst h2; decide
      · by_cases h3 : c = ';'
        · subst h3; decide
        · by_cases h4 : c = '\n'
          · subst h4; decide
          · simp [replaceChar, h2, h3, h4]

theorem rep2_cons_ne {y z c : Char} (s : Str) (h : c ≠ '\\') : rep2 y z (c :: s) = c :: rep2 y z s := by
  cases s with
  | nil => rfl
  | cons d s => simp [rep2, h]

theorem rep2_bs_ne {y z : Char} (s : Str) (h : s.head? ≠ some y) :
    rep2 y z ('\\' :: s) = '\\' :: rep2 y z s := by
  cases s with
  | nil => rfl
  | cons d s =>
    rw [rep2, if_neg]
    rintro ⟨_, rfl⟩
    exact h rfl

theorem rep2_bs_eq {y z : Char} (s : Str) : rep2 y z ('\\' :: y :: s) = z :: rep2 y z s := by
  simp [rep2]

theorem rep2_bs_lit {y z d : Char} (s : Str) (h : d ≠ y) (hd : d ≠ '\\') :
    rep2 y z ('\\' :: d :: s) = '\\' :: d :: rep2 y z s := by
  rw [rep2_bs_ne _ (by simpa using h), rep2_cons_ne _ hd]

/-- partially undone escapes -/
def esc1 (c : Char) : Str :=
  if c = ',' then ['\\', ','] else if c = ';' then ['\\', ';'] else if c = '\n' then ['\\', 'N'] else [c]
/-- partially undone escapes -/
def esc2 (c : Char) : Str := if c = ';' then ['\\', ';'] else if c = '\n' then ['\\', 'N'] else [c]
/-- partially undone escapes -/
def esc3 (c : Char) : Str := if c = '\n' then ['\\', 'N'] else [c]

theorem flatMap_head {f : Char → Str} {y : Char} (h : ∀ c, (f c).head? ≠ some y) (hn : ∀ c, f c ≠ [])
    (s : Str) : (s.flatMap f).head? ≠ some y := by
  cases s with
  | nil => simp
  | cons c s =>
    rw [List.flatMap_cons]
    have := h c
    cases hf : f c with
    | nil => exact absurd hf (hn c)
    | cons d t => rw [hf] at this; simpa using this

theorem stage1 (s : Str) : rep2 '\\' '\\' (s.flatMap escChar) = s.flatMap esc1 := by
  induction s with
  | nil => rfl
  | cons c s ih =>
    rw [List.flatMap_cons, List.flatMap_cons]
    unfold escChar esc1 at *
    by_cases h1 : c = '\\'
    · subst h1
      simp [rep2_bs_eq, ih]
    · by_cases h2 : c = ','
      · subst h2; simp [rep2_bs_lit, ih]
      · by_cases h3 : c = ';'
        · subst h3; simp [rep2_bs_lit, ih]
        · by_cases h4 : c = '\n'
          · subst h4; simp [rep2_bs_lit, ih]
          · simp [h1, h2, h3, h4, rep2_cons_ne, ih]

theorem stage2 (s : Str) : rep2 ',' ',' (s.flatMap esc1) = s.flatMap esc2 := by
  have hh : ∀ s : Str, (s.flatMap esc1).head? ≠ some ',' := by
    refine flatMap_head ?_ ?_ <;> intro c <;> unfold esc1 <;> (repeat' split) <;> simp_all
  induction s with
  | nil => rfl
  | cons c s ih =>
    rw [List.flatMap_cons, List.flatMap_cons]
    by_cases h1 : c = '\\'
    · subst h1
      have : esc1 '\\' = ['\\'] := by decide
      rw [this, List.singleton_append, rep2_bs_ne _ (hh s), ih]
      rfl
    · unfold esc1 esc2 at *
      by_cases h2 : c = ','
      · subst h2; simp [rep2_bs_eq, ih]
      · by_cases h3 : c = ';'
        · subst h3; simp [rep2_bs_lit, ih]
        · by_cases h4 : c = '\n'
          · subst h4; simp [rep2_bs_lit, ih]
          · simp [h1, h2, h3, h4, rep2_cons_ne, ih]

theorem stage3 (s : Str) : rep2 ';' ';' (s.flatMap esc2) = s.flatMap esc3 := by
  have hh : ∀ s : Str, (s.flatMap esc2).head? ≠ some ';' := by
    refine flatMap_head ?_ ?_ <;> intro c <;> unfold esc2 <;> (repeat' split) <;> simp_all
  induction s with
  | nil => rfl
  | cons c s ih =>
    rw [List.flatMap_cons, List.flatMap_cons]
    by_cases h1 : c = '\\'
    · subst h1
      have : esc2 '\\' = ['\\'] := by decide
      rw [this, List.singleton_append, rep2_bs_ne _ (hh s), ih]
      rfl
    · unfold esc2 esc3 at *
      by_cases h3 : c = ';'
      · subst h3; simp [rep2_bs_eq, ih]
      · by_cases h4 : c = '\n'
        · subst h4; simp [rep2_bs_lit, ih]
        · simp [h1, h3, h4, rep2_cons_ne, ih]

theorem esc3_head (s : Str) (y : Char) (h1 : y ≠ '\\') (h2 : y ≠ '\n') :
    (s.flatMap esc3).head? = some y ↔ s.head? = some y := by
  cases s with
  | nil => simp
  | cons c s =>
    rw [List.flatMap_cons]
    unfold esc3
    split
    · rename_i h; subst h; simp [h1.symm, h2.symm]
    · simp

theorem stage4 (s : Str) : rep2 ':' ':' (s.flatMap esc3) = (rep2 ':' ':' s).flatMap esc3 := by
  fun_induction rep2 ':' ':' s with
  | case1 => rfl
  | case2 c =>
    by_cases h : c = '\n'
    · subst h; decide
    · simp [esc3, h, rep2]
  | case3 a b s h ih =>
    obtain ⟨rfl, rfl⟩ := h
    simp only [List.flatMap_cons, ← ih]
    show rep2 ':' ':' ('\\' :: ':' :: _) = _
    rw [rep2_bs_eq]; rfl
  | case4 a b s h ih =>
    have e : ∀ x, (a :: x : Str).flatMap esc3 = esc3 a ++ x.flatMap esc3 := fun x => List.flatMap_cons
    rw [e, e, ← ih]
    by_cases h4 : a = '\n'
    · subst h4
      show rep2 ':' ':' ('\\' :: 'N' :: _) = _
      rw [rep2_bs_ne _ (by simp), rep2_cons_ne _ (by decide)]
      rfl
    · have : esc3 a = [a] := by simp [esc3, h4]
      rw [this, List.singleton_append, List.singleton_append]
      by_cases h1 : a = '\\'
      · subst h1
        rw [rep2_bs_ne]
        rw [Ne, esc3_head _ _ (by decide) (by decide)]
        intro hb
        simp at hb
        exact h ⟨rfl, hb⟩
      · rw [rep2_cons_ne _ h1]

theorem stage5 (s : Str) : rep2 'N' '\n' (s.flatMap esc3) = rep2 'N' '\n' s := by
  fun_induction rep2 'N' '\n' s with
  | case1 => rfl
  | case2 c =>
    by_cases h : c = '\n'
    · subst h; decide
    · simp [esc3, h, rep2]
  | case3 a b s h ih =>
    obtain ⟨rfl, rfl⟩ := h
    rw [← ih]
    exact rep2_bs_eq _
  | case4 a b s h ih =>
    rw [List.flatMap_cons, ← ih]
    by_cases h4 : a = '\n'
    · subst h4
      exact rep2_bs_eq _
    · have : esc3 a = [a] := by simp [esc3, h4]
      rw [this, List.singleton_append]
      by_cases h1 : a = '\\'
      · subst h1
        rw [rep2_bs_ne]
        rw [Ne, esc3_head _ _ (by decide) (by decide)]
        intro hb
        simp at hb
        exact h ⟨rfl, hb⟩
      · rw [rep2_cons_ne _ h1]

/-- what reading back an escaped text does to it -/
theorem unescape_escape_eq (s : Str) :
    unescapeText (escapeText s) = rep2 'n' '\n' (rep2 'N' '\n' (rep2 ':' ':' s)) := by
  rw [unescapeText_eq, escapeText_eq, stage1, stage2, stage3, stage4, stage5]

theorem rep2_length_le (y z : Char) (s : Str) : (rep2 y z s).length ≤ s.length := by
  fun_induction rep2 y z s <;> simp_all <;> omega

theorem rep2_length_lt {y z : Char} {s : Str} (h : ['\\', y] <:+: s) : (rep2 y z s).length < s.length := by
  fun_induction rep2 y z s with
  | case1 => simp at h
  | case2 c =>
    have := h.length_le
    simp at this
  | case3 a b s hab ih =>
    have := rep2_length_le y z s
    simp; omega
  | case4 a b s hab ih =>
    have : ['\\', y] <:+: b :: s := by
      rcases List.infix_cons_iff.1 h with h | h
      · exfalso
        obtain ⟨t, ht⟩ := h
        simp at ht
        exact hab ⟨ht.1.symm, ht.2.1.symm⟩
      · exact h
    have := ih this
    simp at this ⊢; omega

/-! ### the reader on arbitrary text -/

/-- the second part of `unescapeText` as one pass: escapes other than the escaped backslash -/
def pass2 : Str → Str
  | [] => []
  | [c] => [c]
  | a :: b :: s =>
    if a = '\\' ∧ b = ',' then ',' :: pass2 s
    else if a = '\\' ∧ b = ';' then ';' :: pass2 s
    else if a = '\\' ∧ b = ':' then ':' :: pass2 s
    else if a = '\\' ∧ b = 'N' then '\n' :: pass2 s
    else if a = '\\' ∧ b = 'n' then '\n' :: pass2 s
    else a :: pass2 (b :: s)

theorem rep2_head {y z x : Char} (hx : x ≠ '\\') (hz : x ≠ z) (s : Str) :
    (rep2 y z s).head? = some x ↔ s.head? = some x := by
  fun_cases rep2 y z s with
  | case1 => simp
  | case2 c => simp
  | case3 a b s h => simp [h.1, hz.symm, hx.symm]
  | case4 a b s h => simp

theorem pass2_eq (s : Str) :
    rep2 'n' '\n' (rep2 'N' '\n' (rep2 ':' ':' (rep2 ';' ';' (rep2 ',' ',' s)))) = pass2 s := by
  fun_induction pass2 s with
  | case1 => rfl
  | case2 c => rfl
  | case3 a b s h ih =>
    obtain ⟨rfl, rfl⟩ := h
    rw [rep2_bs_eq, rep2_cons_ne _ (by decide), rep2_cons_ne _ (by decide), rep2_cons_ne _ (by decide),
      rep2_cons_ne _ (by decide), ih]
  | case4 a b s _ h ih =>
    obtain ⟨rfl, rfl⟩ := h
    rw [rep2_bs_lit _ (by decide) (by decide), rep2_bs_eq, rep2_cons_ne _ (by decide),
      rep2_cons_ne _ (by decide), rep2_cons_ne _ (by decide), ih]
  | case5 a b s _ _ h ih =>
    obtain ⟨rfl, rfl⟩ := h
    rw [rep2_bs_lit _ (by decide) (by decide), rep2_bs_lit _ (by decide) (by decide), rep2_bs_eq,
      rep2_cons_ne _ (by decide), rep2_cons_ne _ (by decide), ih]
  | case6 a b s _ _ _ h ih =>
    obtain ⟨rfl, rfl⟩ := h
    rw [rep2_bs_lit _ (by decide) (by decide), rep2_bs_lit _ (by decide) (by decide),
      rep2_bs_lit _ (by decide) (by decide), rep2_bs_eq, rep2_cons_ne _ (by decide), ih]
  | case7 a b s _ _ _ _ h ih =>
    obtain ⟨rfl, rfl⟩ := h
    rw [rep2_bs_lit _ (by decide) (by decide), rep2_bs_lit _ (by decide) (by decide),
      rep2_bs_lit _ (by decide) (by decide), rep2_bs_lit _ (by decide) (by decide), rep2_bs_eq, ih]
  | case8 a b s h1 h2 h3 h4 h5 ih =>
    rw [← ih]
    by_cases h : a = '\\'
    · subst h
      simp only [true_and] at h1 h2 h3 h4 h5
      -- the head of the remaining text never becomes one of the five letters
      by_cases hb : b = '\\'
      · subst hb
        rw [rep2_bs_ne _ (by simp), rep2_bs_ne, rep2_bs_ne, rep2_bs_ne, rep2_bs_ne]
        all_goals
          intro hh
          repeat rw [rep2_head (by decide) (by decide)] at hh
          simp at hh
      · rw [rep2_bs_lit _ h1 hb, rep2_bs_lit _ h2 hb, rep2_bs_lit _ h3 hb, rep2_bs_lit _ h4 hb,
          rep2_bs_lit _ h5 hb, rep2_cons_ne _ hb, rep2_cons_ne _ hb, rep2_cons_ne _ hb, rep2_cons_ne _ hb,
          rep2_cons_ne _ hb]
    · rw [rep2_cons_ne _ h, rep2_cons_ne _ h, rep2_cons_ne _ h, rep2_cons_ne _ h, rep2_cons_ne _ h]

/-- the reader is two passes -/
theorem unescapeText_passes (s : Str) : unescapeText s = pass2 (rep2 '\\' '\\' s) := by
  rw [unescapeText_eq, pass2_eq]

theorem pass2_cons_ne {c : Char} (s : Str) (h : c ≠ '\\') : pass2 (c :: s) = c :: pass2 s := by
  cases s <;> simp [pass2, h]

theorem pass2_bs {c : Char} (s : Str) (h : c ≠ '\\') :
    pass2 ('\\' :: c :: s) = match escapeMeaning c with
      | some m => m :: pass2 s
      | none => '\\' :: c :: pass2 s := by
  rw [pass2]
  unfold escapeMeaning
  simp only [h, if_false, true_and]
  by_cases h1 : c = ','
  · simp [h1]
  · by_cases h2 : c = ';'
    · simp [h2]
    · by_cases h3 : c = ':'
      · simp [h3]
      · by_cases h4 : c = 'N'
        · simp [h4]
        · by_cases h5 : c = 'n'
          · simp [h5]
          · simp [h1, h2, h3, h4, h5, pass2_cons_ne _ h]

theorem pass2_bs_ne (s : Str) (h : ∀ c ∈ s.head?, c ≠ ',' ∧ c ≠ ';' ∧ c ≠ ':' ∧ c ≠ 'n' ∧ c ≠ 'N') :
    pass2 ('\\' :: s) = '\\' :: pass2 s := by
  cases s with
  | nil => rfl
  | cons c s =>
    have := h c (by simp)
    simp [pass2, this]

theorem escapeMeaning_of_ne_bs {c : Char} :
    (∃ m, escapeMeaning c = some m) ↔ c = '\\' ∨ c = ',' ∨ c = ';' ∨ c = ':' ∨ c = 'n' ∨ c = 'N' := by
  unfold escapeMeaning
  repeat' split
  all_goals simp_all

/-- the reader against the left-to-right reading: never longer, equal exactly when nothing is read twice -/
theorem unescape_vs_readText (s : Str) :
    (pass2 (rep2 '\\' '\\' s)).length ≤ (readText s).length ∧
    (NoDoubleRead s → pass2 (rep2 '\\' '\\' s) = readText s) ∧
    (¬ NoDoubleRead s → (pass2 (rep2 '\\' '\\' s)).length < (readText s).length) := by
  fun_induction readText s with
  | case1 => simp [rep2, pass2, NoDoubleRead]
  | case2 c s m hm ih =>
    by_cases hc : c = '\\'
    · subst hc
      obtain rfl : m = '\\' := by simp [escapeMeaning] at hm; exact hm.symm
      rw [rep2_bs_eq, NoDoubleRead]
      by_cases hg : ∀ c ∈ s.head?, c ≠ ',' ∧ c ≠ ';' ∧ c ≠ ':' ∧ c ≠ 'n' ∧ c ≠ 'N'
      · rw [pass2_bs_ne]
        · simp only [List.length_cons, List.cons.injEq, true_and]
          refine ⟨by omega, fun h => ih.2.1 h.2, fun h => ?_⟩
          have := ih.2.2 (fun h' => h ⟨hg, h'⟩)
          omega
        · intro d hd
          by_cases hdb : d = '\\'
          · subst hdb; decide
          · rw [Option.mem_def, rep2_head hdb hdb] at hd
            exact hg d hd
      · have hstrict : (pass2 ('\\' :: rep2 '\\' '\\' s)).length < (readText s).length + 1 := by
          cases s with
          | nil => simp at hg
          | cons d s =>
            have hd : ¬ (d ≠ ',' ∧ d ≠ ';' ∧ d ≠ ':' ∧ d ≠ 'n' ∧ d ≠ 'N') := by simpa using hg
            have hdb : d ≠ '\\' := by rintro rfl; exact hd (by decide)
            have ⟨m, hm'⟩ : ∃ m, escapeMeaning d = some m := by
              rw [escapeMeaning_of_ne_bs]
              apply Classical.byContradiction
              intro hh
              simp only [not_or] at hh
              exact hd hh.2
            have h1 := ih.1
            rw [rep2_cons_ne _ hdb, pass2_cons_ne _ hdb] at h1
            rw [rep2_cons_ne _ hdb, pass2_bs _ hdb, hm']
            simp only [List.length_cons] at *
            omega
        simp only [List.length_cons]
        exact ⟨by omega, fun h => absurd h.1 hg, fun _ => hstrict⟩
    · rw [rep2]
      rw [if_neg (by simp [hc]), rep2_cons_ne _ hc, pass2_bs _ hc, hm, NoDoubleRead.eq_3 _ _ hc, hm]
      simpa using ih
  | case3 c s hm ih =>
    have hc : c ≠ '\\' := by rintro rfl; simp [escapeMeaning] at hm
    rw [rep2, if_neg (by simp [hc]), rep2_cons_ne _ hc, pass2_bs _ hc, hm, NoDoubleRead.eq_3 _ _ hc, hm]
    rw [rep2_cons_ne _ hc, pass2_cons_ne _ hc] at ih
    simpa using ih
  | case4 c s h ih =>
    by_cases hc : c = '\\'
    · cases s with
      | nil => simp [rep2, pass2, readText, NoDoubleRead]
      | cons d s => exact absurd rfl (h d s hc)
    · rw [rep2_cons_ne _ hc, pass2_cons_ne _ hc]
      have : NoDoubleRead (c :: s) = NoDoubleRead s := by
        rw [NoDoubleRead.eq_4] <;> intros <;> simp_all
      rw [this]
      simpa using ih

/-! ### the reader as one pass over the text -/

theorem rep2_run (k : Nat) {s : Str} (h : s.head? ≠ some '\\') :
    rep2 '\\' '\\' (List.replicate k '\\' ++ s) = List.replicate ((k + 1) / 2) '\\' ++ rep2 '\\' '\\' s := by
  induction k using Nat.strongRecOn with
  | ind k ih =>
    match k with
    | 0 => rfl
    | 1 => exact rep2_bs_ne s h
    | k + 2 =>
      rw [List.replicate_succ, List.replicate_succ, List.cons_append, List.cons_append, rep2_bs_eq, ih k (by omega),
        show (k + 2 + 1) / 2 = (k + 1) / 2 + 1 by omega, List.replicate_succ, List.cons_append]

theorem pass2_run (k : Nat) (s : Str) :
    pass2 (List.replicate (k + 1) '\\' ++ s) = List.replicate k '\\' ++ pass2 ('\\' :: s) := by
  induction k with
  | zero => rfl
  | succ k ih =>
    rw [List.replicate_succ, List.cons_append, pass2_bs_ne, ih, List.replicate_succ (n := k), List.cons_append]
    rw [List.replicate_succ]
    simp

theorem unescaped_run (k : Nat) (s : Str) :
    pass2 (rep2 '\\' '\\' (List.replicate k '\\' ++ s)) = unescapedRun k s := by
  induction s generalizing k with
  | nil =>
    rw [rep2_run k (by simp), unescapedRun]
    match h : (k + 1) / 2 with
    | 0 => rfl
    | j + 1 =>
      show pass2 (List.replicate (j + 1) '\\' ++ []) = _
      rw [pass2_run]
      show List.replicate j '\\' ++ ['\\'] = _
      rw [List.replicate_succ']
  | cons c s ih =>
    rw [unescapedRun]
    by_cases hc : c = '\\'
    · subst hc
      rw [if_pos rfl, ← ih (k + 1), List.replicate_succ', List.append_assoc]
      rfl
    · rw [if_neg hc, rep2_run k (by simpa using hc), rep2_cons_ne _ hc]
      have ih0 := ih 0
      rw [List.replicate_zero, List.nil_append] at ih0
      match k with
      | 0 =>
        show pass2 (c :: _) = _
        rw [pass2_cons_ne _ hc, ih0, if_pos rfl]
      | k + 1 =>
        rw [if_neg (by omega), show (k + 1 + 1) / 2 = k / 2 + 1 by omega, pass2_run, pass2_bs _ hc, ih0]
        cases escapeMeaning c with
        | some m => rfl
        | none =>
          show _ = List.replicate (k / 2 + 1) '\\' ++ _
          rw [List.replicate_succ', List.append_assoc]
          rfl

/-- the reader in one pass -/
theorem unescapeText_unescaped (s : Str) : unescapeText s = unescaped s := by
  rw [unescapeText_passes]
  exact unescaped_run 0 s

end Ical
