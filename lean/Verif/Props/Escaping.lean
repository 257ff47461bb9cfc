import Verif.Proofs.Escape

/-!
C08-C10, C57, C83: escaping and unescaping of TEXT values.
-/

namespace Ical

open Spec

/-! ### C08 -/

/-- **C08** (partial: exactly the texts that survive). What is written for a TEXT value is read back as the
same text if and only if the text has no backslash directly before a colon, `n` or `N`. -/
theorem text_roundtrip_partial (t : Str) :
    unescapeText (escapeText t) = t ↔
      ¬ ['\\', ':'] <:+: t ∧ ¬ ['\\', 'n'] <:+: t ∧ ¬ ['\\', 'N'] <:+: t := by
  rw [unescape_escape_eq]
  constructor
  · intro h
    have hl := congrArg List.length h
    have l1 := rep2_length_le ':' ':' t
    have l2 := rep2_length_le 'N' '\n' (rep2 ':' ':' t)
    have l3 := rep2_length_le 'n' '\n' (rep2 'N' '\n' (rep2 ':' ':' t))
    have h1 : ¬ ['\\', ':'] <:+: t := by
      intro hi
      have := rep2_length_lt (z := ':') hi
      omega
    rw [rep2_of_not_infix h1] at h hl l2 l3
    have h2 : ¬ ['\\', 'N'] <:+: t := by
      intro hi
      have := rep2_length_lt (z := '\n') hi
      omega
    rw [rep2_of_not_infix h2] at h hl l3
    have h3 : ¬ ['\\', 'n'] <:+: t := by
      intro hi
      have := rep2_length_lt (z := '\n') hi
      omega
    exact ⟨h1, h3, h2⟩
  · rintro ⟨h1, h2, h3⟩
    rw [rep2_of_not_infix h1, rep2_of_not_infix h3, rep2_of_not_infix h2]

/-- a text with every special character, including backslashes, that survives -/
example : unescapeText (escapeText c!"a\\\\b,c;d:e\nf\\,\\;\\\n") = c!"a\\\\b,c;d:e\nf\\,\\;\\\n" :=
  (text_roundtrip_partial _).2 (by decide)

/-- **C08, what is missing.** The path `C:\new` is read back with a line feed in place of backslash-n. -/
theorem text_roundtrip_violated : unescapeText (escapeText c!"C:\\new") = c!"C:\new" := by decide

/-! ### C57 -/

theorem readText_escChar (c : Char) (s : Str) : readText (escChar c ++ s) = c :: readText s := by
  unfold escChar
  by_cases h1 : c = '\\'
  · subst h1; simp [readText, escapeMeaning]
  · by_cases h2 : c = ','
    · subst h2; simp [readText, escapeMeaning]
    · by_cases h3 : c = ';'
      · subst h3; simp [readText, escapeMeaning]
      · by_cases h4 : c = '\n'
        · subst h4; simp [readText, escapeMeaning]
        · simp only [h1, h2, h3, h4, if_false, List.singleton_append]
          rw [readText.eq_3]
          intro c' s' h
          exact absurd h h1

/-- **C57.** A conforming reader (the left-to-right reading of RFC 5545) recovers every TEXT value from
what is written. -/
theorem escape_conforming (t : Str) : readText (escapeText t) = t := by
  rw [escapeText_eq]
  induction t with
  | nil => rfl
  | cons c t ih => rw [List.flatMap_cons, readText_escChar, ih]

/-- **C57.** Different texts are written differently. -/
theorem escape_injective (t u : Str) (h : escapeText t = escapeText u) : t = u := by
  rw [← escape_conforming t, h, escape_conforming]

/-! ### C09 -/

/-- **C09.** Escaped text contains no line feed, and commas, semicolons and backslashes occur in it only as
part of an escape sequence. -/
theorem escape_inert (t : Str) : Inert (escapeText t) ∧ '\n' ∉ escapeText t := by
  rw [escapeText_eq]
  constructor
  · induction t with
    | nil => trivial
    | cons c t ih =>
      rw [List.flatMap_cons]
      unfold escChar at *
      by_cases h1 : c = '\\'
      · subst h1; simpa [Inert] using ih
      · by_cases h2 : c = ','
        · subst h2; simpa [Inert] using ih
        · by_cases h3 : c = ';'
          · subst h3; simpa [Inert] using ih
          · by_cases h4 : c = '\n'
            · subst h4; simpa [Inert] using ih
            · simp only [h1, h2, h3, h4, if_false, List.singleton_append]
              rw [Inert.eq_3 _ _ (by intro _ _ h; exact absurd h h1)]
              exact ⟨h1, h2, h3, h4, ih⟩
  · intro h
    obtain ⟨c, -, hc⟩ := List.mem_flatMap.1 h
    revert hc
    unfold escChar
    repeat' split
    all_goals simp_all [eq_comm]

example : escapeText c!"a,b;c\nd\\e" = c!"a\\,b\\;c\\Nd\\\\e" := by decide

/-! ### C10 -/

/-- **C10** (partial: exactly the inputs that are read correctly). The reader agrees with the left-to-right
reading if and only if no escaped backslash is directly followed by a plain comma, semicolon, colon, `n`
or `N`. -/
theorem unescape_rfc_partial (s : Str) : unescapeText s = readText s ↔ NoDoubleRead s := by
  rw [unescapeText_passes]
  obtain ⟨h1, h2, h3⟩ := unescape_vs_readText s
  constructor
  · intro h
    apply Classical.byContradiction
    intro hn
    have := h3 hn
    rw [h] at this
    omega
  · exact h2

/-- the same text from another producer, read correctly -/
example : NoDoubleRead c!"a\\\\b\\,c\\\\\\n\\:" := by
  simp [NoDoubleRead, escapeMeaning]

/-- **C10, what is missing.** The escaped backslash followed by `n` is read as a line feed. -/
theorem unescape_rfc_violated :
    readText c!"C:\\\\new" = c!"C:\\new" ∧ unescapeText c!"C:\\\\new" = c!"C:\new" := by decide

/-! ### C83 -/

/-- **C83.** What the reader makes of any TEXT value, character by character: of a run of backslashes half remain,
rounded up, and one less if the run is followed by a character with a meaning, which then stands for it. -/
theorem unescape_exact (s : Str) : unescapeText s = unescaped s := unescapeText_unescaped s

example : unescapeText c!"\\\\\\\\\\,\\\\n\\x\\" = c!"\\\\,\n\\x\\" := by
  rw [unescape_exact]
  decide

theorem rereadText_eq (s : Str) : rep2 'n' '\n' (rep2 'N' '\n' (rep2 ':' ':' s)) = rereadText s := by
  fun_induction rereadText s with
  | case1 => rfl
  | case2 c => rfl
  | case3 a b s h ih =>
    obtain ⟨rfl, rfl⟩ := h
    rw [rep2_bs_eq, rep2_cons_ne _ (by decide), rep2_cons_ne _ (by decide), ih]
  | case4 a b s _ h ih =>
    obtain ⟨rfl, rfl | rfl⟩ := h
    · rw [rep2_bs_lit _ (by decide) (by decide), rep2_bs_lit _ (by decide) (by decide), rep2_bs_eq, ih]
    · rw [rep2_bs_lit _ (by decide) (by decide), rep2_bs_eq, rep2_cons_ne _ (by decide), ih]
  | case5 a b s h1 h2 ih =>
    rw [← ih]
    by_cases h : a = '\\'
    · subst h
      simp only [true_and, not_or] at h1 h2
      have hd : ∀ x, x = 'n' ∨ x = 'N' → (rep2 ':' ':' (b :: s)).head? ≠ some x := by
        rintro x hx hh
        rw [rep2_head (by rcases hx with rfl | rfl <;> decide) (by rcases hx with rfl | rfl <;> decide)] at hh
        simp only [List.head?_cons, Option.some.injEq] at hh
        rcases hx with rfl | rfl
        · exact h2.1 hh
        · exact h2.2 hh
      rw [rep2_bs_ne _ (by simpa using h1), rep2_bs_ne _ (hd 'N' (.inr rfl)), rep2_bs_ne]
      rw [Ne, rep2_head (by decide) (by decide)]
      exact hd 'n' (.inl rfl)
    · rw [rep2_cons_ne _ h, rep2_cons_ne _ h, rep2_cons_ne _ h]

/-- **C83.** What any text is read back as when it is written as a TEXT value. -/
theorem text_reread (t : Str) : unescapeText (escapeText t) = rereadText t := by
  rw [unescape_escape_eq, rereadText_eq]

example : unescapeText (escapeText c!"\\\\:\\\\n\\,;\\") = c!"\\:\\\n\\,;\\" := by
  rw [text_reread]
  decide

end Ical
