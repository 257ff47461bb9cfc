import Verif.Props.PropertyRoundtrip
import Verif.Props.Acceptance
import Verif.Props.ContentLine

/-!
C115: the text of a property read without unfolding it, as `Property::from_str` does.
-/

namespace Ical

open Nom Spec

/-! ### TEXT values that are cut -/

/-- a text cut into two after being escaped: between two characters or between the backslash and what follows it -/
theorem escape_cut {val a b : Str} (h : a ++ b = val.flatMap escChar) (hb : b ≠ []) :
    ∃ t u, val = t ++ u ∧ u ≠ [] ∧ (a = t.flatMap escChar ∨
      ∃ d e u', u = d :: u' ∧ escChar d = ['\\', e] ∧ a = t.flatMap escChar ++ ['\\'] ∧ b = e :: u'.flatMap escChar) := by
  induction val generalizing a with
  | nil => simp [hb] at h
  | cons c val ih =>
    cases a with
    | nil => exact ⟨[], c :: val, rfl, by simp, .inl rfl⟩
    | cons x a =>
      rw [List.flatMap_cons] at h
      have hc : escChar c = [c] ∨ ∃ e, escChar c = ['\\', e] := by
        unfold escChar
        repeat' split
        all_goals simp
      rcases hc with hc | ⟨e, hc⟩
      · rw [hc] at h
        simp only [List.cons_append, List.nil_append, List.cons.injEq] at h
        obtain ⟨t, u, rfl, hu, ht⟩ := ih h.2
        refine ⟨c :: t, u, rfl, hu, ?_⟩
        rcases ht with rfl | ⟨d, e', u', h1, h2, h3, h4⟩
        · left; simp [hc, h.1]
        · right; exact ⟨d, e', u', h1, h2, by simp [hc, h.1, h3], h4⟩
      · rw [hc] at h
        simp only [List.cons_append, List.nil_append, List.cons.injEq] at h
        cases a with
        | nil =>
          refine ⟨[], c :: val, rfl, by simp, .inr ⟨c, e, val, rfl, hc, ?_, ?_⟩⟩
          · simp [h.1]
          · simpa using h.2
        | cons y a =>
          simp only [List.cons_append, List.cons.injEq] at h
          obtain ⟨t, u, rfl, hu, ht⟩ := ih h.2.2
          refine ⟨c :: t, u, rfl, hu, ?_⟩
          rcases ht with rfl | ⟨d, e', u', h1, h2, h3, h4⟩
          · left; simp [hc, h.1, h.2.1]
          · right; exact ⟨d, e', u', h1, h2, by simp [hc, h.1, h.2.1, h3], h4⟩

theorem readText_cut (t : Str) : readText (t.flatMap escChar ++ ['\\']) = t ++ ['\\'] := by
  induction t with
  | nil => rfl
  | cons c t ih => rw [List.flatMap_cons, List.append_assoc, readText_escChar, ih]; rfl

theorem noDoubleRead_cut (t : Str) (h : NoDoubleRead (t.flatMap escChar)) :
    NoDoubleRead (t.flatMap escChar ++ ['\\']) := by
  induction t with
  | nil => simp [NoDoubleRead]
  | cons c t ih =>
    rw [List.flatMap_cons] at h ⊢
    rw [List.append_assoc]
    generalize t.flatMap escChar = s at h ih ⊢
    have key : NoDoubleRead s → NoDoubleRead (s ++ ['\\']) := ih
    revert h
    unfold escChar
    repeat' split
    all_goals subst_vars
    · intro h
      simp only [List.cons_append, List.nil_append, NoDoubleRead] at h ⊢
      refine ⟨?_, key h.2⟩
      have h1 := h.1
      cases s with
      | nil => simp
      | cons x s => simpa using h1
    · intro h
      simp only [List.cons_append, List.nil_append, NoDoubleRead] at h ⊢
      exact key h
    · intro h
      simp only [List.cons_append, List.nil_append, NoDoubleRead] at h ⊢
      exact key h
    · intro h
      simp only [List.cons_append, List.nil_append] at h ⊢
      exact key h
    · rename_i hc _ _ _
      intro h
      simp only [List.cons_append, List.nil_append] at h ⊢
      rw [NoDoubleRead] at h ⊢
      · exact key h
      all_goals simp [hc]

/-- a safe TEXT value that is cut after escaping is read as what is left of it, maybe with a backslash -/
theorem text_cut {val a b : Str} (hs : TextSafe val) (h : a ++ b = escapeText val) (hb : b ≠ []) :
    ∃ t u, val = t ++ u ∧ u ≠ [] ∧ ((a = escapeText t ∧ unescapeText a = t) ∨
      (a = escapeText t ++ ['\\'] ∧ unescapeText a = t ++ ['\\'] ∧
        ∃ d e u', u = d :: u' ∧ escapeText [d] = ['\\', e] ∧ b = e :: escapeText u')) := by
  rw [escapeText_eq] at h
  obtain ⟨t, u, rfl, hu, ht⟩ := escape_cut h hb
  have hts : TextSafe t := by
    obtain ⟨h1, h2, h3⟩ := hs
    exact ⟨fun hc => h1 (hc.trans (List.prefix_append t u).isInfix),
      fun hc => h2 (hc.trans (List.prefix_append t u).isInfix),
      fun hc => h3 (hc.trans (List.prefix_append t u).isInfix)⟩
  have hr := (text_roundtrip_partial t).2 hts
  refine ⟨t, u, rfl, hu, ?_⟩
  rcases ht with rfl | ⟨d, e, u', rfl, h2, rfl, rfl⟩
  · left; rw [← escapeText_eq]; exact ⟨rfl, hr⟩
  · right
    refine ⟨by rw [escapeText_eq], ?_, d, e, u', rfl, by simp [escapeText_eq, h2], by rw [escapeText_eq]⟩
    have hn : NoDoubleRead (t.flatMap escChar) := by
      have := (unescape_rfc_partial (escapeText t)).1 (by rw [hr, escape_conforming])
      rwa [escapeText_eq] at this
    rw [(unescape_rfc_partial _).2 (noDoubleRead_cut t hn), readText_cut]

/-! ### Parameters that are cut -/

theorem until_unique {P : Char → Prop} {n k x y : Str} (hn : ∀ c ∈ n, P c) (hk : ∀ c ∈ k, P c)
    (hx : ∀ c, x.head? = some c → ¬ P c) (hy : ∀ c, y.head? = some c → ¬ P c) (h : n ++ x = k ++ y) : n = k ∧ x = y := by
  induction n generalizing k with
  | nil =>
    cases k with
    | nil => exact ⟨rfl, h⟩
    | cons c k =>
      rw [List.nil_append] at h
      exact absurd (hk c (by simp)) (hx c (by rw [h]; rfl))
  | cons d n ih =>
    cases k with
    | nil =>
      rw [List.nil_append] at h
      exact absurd (hn d (by simp)) (hy d (by rw [← h]; rfl))
    | cons c k =>
      simp only [List.cons_append, List.cons.injEq] at h
      obtain ⟨rfl, rfl⟩ := ih (fun c hc => hn c (by simp [hc])) (fun c hc => hk c (by simp [hc])) h.2
      exact ⟨by rw [h.1], rfl⟩

theorem until_prefix {P : Char → Prop} {n k x y : Str} (hk : ∀ c ∈ k, P c)
    (hx : ∃ c x', x = c :: x' ∧ ¬ P c) (h : n ++ x = k ++ y) : k <+: n := by
  induction k generalizing n with
  | nil => exact List.nil_prefix
  | cons c k ih =>
    cases n with
    | nil =>
      obtain ⟨d, x', rfl, hd⟩ := hx
      simp only [List.nil_append, List.cons_append, List.cons.injEq] at h
      exact absurd (h.1 ▸ hk c (by simp)) hd
    | cons d n =>
      simp only [List.cons_append, List.cons.injEq] at h
      rw [h.1, List.cons_prefix_cons]
      exact ⟨rfl, ih (fun c hc => hk c (by simp [hc])) h.2⟩

theorem two_prefixes {a b c d : Str} (h : a ++ b = c ++ d) :
    (∃ e, c = a ++ e ∧ b = e ++ d) ∨ ∃ e, a = c ++ e ∧ d = e ++ b := by
  rw [List.append_eq_append_iff] at h
  rcases h with ⟨e, h1, h2⟩ | ⟨e, h1, h2⟩
  · exact .inl ⟨e, h1, h2⟩
  · exact .inr ⟨e, h1, h2⟩

variable [Uni]

theorem paramsAre_head {ps : List PParam} {t f : Str} (h : ParamsAre ps t (':' :: f)) :
    ∃ c s, t ++ ':' :: f = c :: s ∧ (c = ':' ∨ c = ';') := by
  cases ps with
  | nil =>
    obtain ⟨rfl, -⟩ := h
    exact ⟨':', f, rfl, .inl rfl⟩
  | cons p ps =>
    obtain ⟨a, b, hp, -, rfl⟩ := h
    obtain ⟨-, blanks, form, -, rfl, -⟩ := hp
    exact ⟨';', _, rfl, .inr rfl⟩

theorem not_colon_head {ps : List PParam} {t f r : Str} {c : Char} (h : ParamsAre ps t (':' :: f))
    (he : t ++ ':' :: f = c :: r) : c = ':' ∨ c = ';' := by
  obtain ⟨d, s, h1, h2⟩ := paramsAre_head h
  rw [h1] at he
  cases he
  exact h2

omit [Uni] in
theorem prefix_infix {a m v : Str} (h : a ++ m <+: v) : m <:+: v := by
  obtain ⟨s, rfl⟩ := h
  exact ⟨a, s, by simp⟩

/-- If the text of parameters is cut by a line break and what there is then is still read as parameters and a colon, the
line break is part of a value. -/
theorem cut_params {l : List (Str × Str)} (hl : ∀ x ∈ l, IsName x.1 ∧ Quotable x.2) {c d R : Str}
    (hc : paramsText l = c ++ d) (hne : c ≠ []) (hq : '"' ∈ d → '"' ∈ R) {ps : List PParam} {t f : Str}
    (hps : ParamsAre ps t (':' :: f)) (he : t ++ ':' :: f = c ++ '\r' :: '\n' :: ' ' :: R) :
    ∃ x ∈ ps, ∃ v, x.val = some v ∧ ['\r', '\n', ' '] <:+: v := by
  induction l generalizing c t ps with
  | nil =>
    simp only [paramsText] at hc
    exact absurd (List.append_eq_nil_iff.1 hc.symm).1 hne
  | cons kv l ih =>
    obtain ⟨k, v⟩ := kv
    obtain ⟨hk, hv⟩ := hl (k, v) (by simp)
    have ih := fun {c : Str} => ih (fun x hx => hl x (by simp [hx])) (c := c)
    simp only [paramsText, List.append_assoc, List.cons_append, List.nil_append] at hc
    cases c with
    | nil => exact absurd rfl hne
    | cons c0 c =>
    simp only [List.cons_append, List.cons.injEq] at hc
    obtain ⟨rfl, hc⟩ := hc
    cases ps with
    | nil =>
      obtain ⟨rfl, -⟩ := hps
      simp at he
    | cons x ps =>
    obtain ⟨a, b, ⟨hxk, blanks, form, hbl, rfl, -, hF, hm⟩, hps', rfl⟩ := hps
    have again : ∀ {c1 : Str}, paramsText l = c1 ++ d → b ++ ':' :: f = c1 ++ '\r' :: '\n' :: ' ' :: R →
        ∃ x' ∈ x :: ps, ∃ v, x'.val = some v ∧ ['\r', '\n', ' '] <:+: v := by
      intro c1 h1 h2
      have hn1 : c1 ≠ [] := by
        rintro rfl
        have := not_colon_head hps' h2
        simp at this
      obtain ⟨x', hx', h⟩ := ih h1 hn1 hps' h2
      exact ⟨x', by simp [hx'], h⟩
    have found : ∀ {v' : Str}, x.val = some v' → ['\r', '\n', ' '] <:+: v' →
        ∃ x' ∈ x :: ps, ∃ v, x'.val = some v ∧ ['\r', '\n', ' '] <:+: v :=
      fun h1 h2 => ⟨x, by simp, _, h1, h2⟩
    simp only [List.cons_append, List.append_assoc, List.cons.injEq, true_and] at he
    have hblank : blanks = [] := by
      cases blanks with
      | nil => rfl
      | cons y bl =>
        exfalso
        have hy := hbl y (by simp)
        cases c with
        | nil =>
          simp only [List.cons_append, List.nil_append, List.cons.injEq] at he
          rw [he.1] at hy
          simp at hy
        | cons z c =>
          simp only [List.cons_append, List.cons.injEq] at he
          cases k with
          | nil =>
            simp only [List.nil_append, List.cons_append, List.cons.injEq] at hc
            rw [he.1, ← hc.1] at hy
            simp at hy
          | cons k0 k =>
            simp only [List.cons_append, List.cons.injEq] at hc
            have hk0 := name_keyChar hk k0 (by simp)
            rw [hc.1, ← he.1] at hk0
            rcases hy with rfl | rfl
            · rw [isKeyChar_sp] at hk0; cases hk0
            · rw [isKeyChar_tab] at hk0; cases hk0
    subst hblank
    simp only [List.nil_append] at he
    have hF' : ∀ ch, (form ++ (b ++ ':' :: f)).head? = some ch → ¬ NameChar ch := hF
    have hcr : ¬ NameChar '\r' := by rw [← isKeyChar_iff, isKeyChar_cr]; simp
    have heq : ¬ NameChar '=' := by rw [← isKeyChar_iff, isKeyChar_eq]; simp
    rcases two_prefixes hc with ⟨c1, rfl, hc1⟩ | ⟨k2, rfl, -⟩
    · cases c1 with
      | nil =>
        -- cut right after the name
        rw [List.append_nil] at he
        obtain ⟨-, h2⟩ := until_unique (P := NameChar) hxk hk hF' (by simpa using hcr) he
        exfalso
        cases hxv : x.val with
        | none =>
          simp only [hxv] at hm
          rcases hm with ⟨rfl, -⟩ | ⟨rfl, -⟩
          · have := not_colon_head hps' h2
            simp at this
          · simp at h2
        | some v' =>
          simp only [hxv] at hm
          rcases hm.2 with ⟨rfl, -⟩ | ⟨rfl, -⟩ <;> simp at h2
      | cons e c1 =>
        simp only [List.cons_append, List.cons.injEq] at hc1
        obtain ⟨rfl, hc1⟩ := hc1
        rw [List.append_assoc] at he
        obtain ⟨-, h2⟩ := until_unique (P := NameChar) hxk hk hF' (by simpa using heq) he
        unfold Quotable at hv
        unfold quoteIfContainsColon at hc1
        have hcon : (v.contains ':' || v.contains ';') = true ↔ (':' ∈ v ∨ ';' ∈ v) := by simp
        cases hxv : x.val with
        | none =>
          simp only [hxv] at hm
          rcases hm with ⟨rfl, hm⟩ | ⟨rfl, hm⟩
          · exfalso
            simp only [List.nil_append, List.cons_append] at h2
            exact hm '=' (by rw [h2]; rfl) rfl
          · simp only [List.cons_append, List.nil_append, List.cons.injEq, true_and] at h2
            rw [h2] at hm
            by_cases hcv : ':' ∈ v ∨ ';' ∈ v
            · exfalso
              rw [if_pos (hcon.2 hcv)] at hc1
              cases c1 with
              | nil => have := hm _ rfl; simp at this
              | cons y c1 =>
                simp only [List.cons_append, List.cons.injEq] at hc1
                have := hm y rfl
                rw [← hc1.1] at this
                simp at this
            · rw [if_neg (fun h => hcv (hcon.1 h))] at hc1
              cases v with
              | nil => exact again hc1 h2
              | cons v0 v =>
                exfalso
                cases c1 with
                | nil => have := hm _ rfl; simp at this
                | cons y c1 =>
                  simp only [List.cons_append, List.cons.injEq] at hc1
                  have := hm y rfl
                  rw [← hc1.1] at this
                  rcases this with rfl | rfl <;> simp at hcv
        | some v' =>
          simp only [hxv] at hm
          obtain ⟨hv'0, hm⟩ := hm
          rcases hm with ⟨rfl, hv'⟩ | ⟨rfl, hv'1, hv'2, hv'3, hv'4⟩
          · -- a value in quotes
            simp only [List.cons_append, List.append_assoc, List.nil_append, List.cons.injEq, true_and] at h2
            cases c1 with
            | nil => simp at h2
            | cons y c2 =>
            simp only [List.cons_append, List.cons.injEq] at h2
            obtain ⟨rfl, h2⟩ := h2
            by_cases hcv : ':' ∈ v ∨ ';' ∈ v
            · rw [if_pos hcv] at hv
              rw [if_pos (hcon.2 hcv)] at hc1
              simp only [List.cons_append, List.nil_append, List.append_assoc, List.cons.injEq, true_and] at hc1
              rcases two_prefixes hc1 with ⟨c3, rfl, hc3⟩ | ⟨v2, rfl, -⟩
              · cases c3 with
                | nil =>
                  simp only [List.append_nil, List.nil_append] at h2 hc3
                  refine found hxv (prefix_infix (a := v) (until_prefix (P := (· ≠ '"')) ?_ ⟨'"', _, rfl, by simp⟩
                    (y := R) (h2.trans (by simp))))
                  intro ch hch
                  rintro rfl
                  simp [hv] at hch
                | cons z c3 =>
                  simp only [List.cons_append, List.cons.injEq] at hc3
                  obtain ⟨rfl, hc3⟩ := hc3
                  rw [List.append_assoc] at h2
                  obtain ⟨-, h3⟩ := until_unique (P := (· ≠ '"')) (fun c hc h => hv' (h ▸ hc)) (fun c hc h => hv (h ▸ hc))
                    (by simp) (by simp) h2
                  simp only [List.cons_append, List.cons.injEq, true_and] at h3
                  exact again hc3 h3
              · refine found hxv (prefix_infix (a := c2) (until_prefix (P := (· ≠ '"')) ?_ ⟨'"', _, rfl, by simp⟩
                  (y := R) (h2.trans (by simp))))
                intro ch hch
                rintro rfl
                simp only [List.mem_append, not_or] at hv
                simp [hv.1] at hch
            · exfalso
              rw [if_neg hcv] at hv
              rw [if_neg (fun h => hcv (hcon.1 h))] at hc1
              cases v with
              | nil =>
                cases l with
                | nil => simp [paramsText] at hc1
                | cons kv l => simp [paramsText] at hc1
              | cons v0 v =>
                simp only [List.cons_append, List.cons.injEq] at hc1
                rw [hc1.1] at hv
                exact hv ⟨v, rfl⟩
          · -- a value without quotes
            simp only [List.cons_append, List.cons.injEq, true_and] at h2
            have hstop : ∃ c x', b ++ ':' :: f = c :: x' ∧ ¬ (c ≠ ':' ∧ c ≠ ';') := by
              obtain ⟨c, x', h3, h4⟩ := paramsAre_head hps'
              refine ⟨c, x', h3, ?_⟩
              rcases h4 with rfl | rfl <;> simp
            have hplain : ∀ ch ∈ v', ch ≠ ':' ∧ ch ≠ ';' :=
              fun ch h => ⟨fun h' => hv'1 (h' ▸ h), fun h' => hv'2 (h' ▸ h)⟩
            by_cases hcv : ':' ∈ v ∨ ';' ∈ v
            · rw [if_pos hcv] at hv
              rw [if_pos (hcon.2 hcv)] at hc1
              simp only [List.cons_append, List.nil_append, List.append_assoc] at hc1
              cases c1 with
              | nil =>
                exact found hxv (prefix_infix (a := []) (until_prefix (P := fun c => c ≠ ':' ∧ c ≠ ';') (by simp) hstop
                  (y := R) (h2.trans (by simp))))
              | cons y c2 =>
                exfalso
                simp only [List.cons_append, List.cons.injEq] at hc1
                obtain ⟨rfl, hc1⟩ := hc1
                rw [h2] at hv'4
                rcases two_prefixes hc1 with ⟨c3, rfl, hc3⟩ | ⟨v2, rfl, hd⟩
                · cases c3 with
                  | nil =>
                    simp only [List.nil_append] at hc3
                    obtain ⟨r1, r2, rfl, hr1⟩ := first_split (hq (by rw [← hc3]; simp))
                    refine hv'4 (v ++ '\r' :: '\n' :: ' ' :: r1) (by simp) ?_ ⟨r2, by simp⟩
                    simp [hv, hr1]
                  | cons z c3 =>
                    simp only [List.cons_append, List.cons.injEq] at hc3
                    obtain ⟨rfl, hc3⟩ := hc3
                    refine hv'4 v ?_ hv ⟨c3 ++ '\r' :: '\n' :: ' ' :: R, by simp⟩
                    rintro rfl
                    simp at hcv
                · obtain ⟨r1, r2, rfl, hr1⟩ := first_split (hq (by rw [hd]; simp))
                  simp only [List.mem_append, not_or] at hv
                  refine hv'4 (c2 ++ '\r' :: '\n' :: ' ' :: r1) (by simp) ?_ ⟨r2, by simp⟩
                  simp [hv.1, hr1]
            · rw [if_neg hcv] at hv
              rw [if_neg (fun h => hcv (hcon.1 h))] at hc1
              have hvp : ∀ ch ∈ v, ch ≠ ':' ∧ ch ≠ ';' :=
                fun ch h => ⟨fun h' => hcv (.inl (h' ▸ h)), fun h' => hcv (.inr (h' ▸ h))⟩
              have inside : ∀ {c1 : Str}, (∀ ch ∈ c1, ch ≠ ':' ∧ ch ≠ ';') →
                  v' ++ (b ++ ':' :: f) = c1 ++ '\r' :: '\n' :: ' ' :: R →
                  ∃ x' ∈ x :: ps, ∃ v, x'.val = some v ∧ ['\r', '\n', ' '] <:+: v := by
                intro c1 h3 h4
                refine found hxv (prefix_infix (a := c1) (until_prefix (P := fun c => c ≠ ':' ∧ c ≠ ';') ?_ hstop
                  (y := R) (h4.trans (by simp))))
                intro ch hch
                rcases List.mem_append.1 hch with h | h
                · exact h3 ch h
                · simp at h
                  rcases h with rfl | rfl | rfl <;> simp
              rcases two_prefixes hc1 with ⟨c3, rfl, hc3⟩ | ⟨v2, rfl, hd⟩
              · cases c3 with
                | nil => exact inside hvp (by simpa using h2)
                | cons z c3 =>
                  have hz : z = ';' := by
                    cases l with
                    | nil => simp [paramsText] at hc3
                    | cons kv l =>
                      simp only [paramsText, List.cons_append, List.nil_append, List.cons.injEq] at hc3
                      exact hc3.1.symm
                  rw [List.append_assoc] at h2
                  obtain ⟨-, h3⟩ := until_unique (P := fun c => c ≠ ':' ∧ c ≠ ';') hplain hvp
                    (by
                      obtain ⟨c, x', h4, h5⟩ := hstop
                      intro ch hch
                      rw [h4] at hch
                      cases hch
                      exact h5)
                    (by simp [hz]) h2
                  exact again hc3 h3
              · exact inside (fun ch h => hvp ch (by simp [h])) h2
    · -- cut inside the name
      obtain ⟨-, h2⟩ := until_unique (P := NameChar) hxk (fun ch h => hk ch (by simp [h])) hF' (by simpa using hcr) he
      exfalso
      cases hxv : x.val with
      | none =>
        simp only [hxv] at hm
        rcases hm with ⟨rfl, -⟩ | ⟨rfl, -⟩
        · have := not_colon_head hps' h2
          simp at this
        · simp at h2
      | some v' =>
        simp only [hxv] at hm
        rcases hm.2 with ⟨rfl, -⟩ | ⟨rfl, -⟩ <;> simp at h2

/-! ### Lines that are cut -/

/-- A line break before the colon of a property: nothing but the name is left, or the part of it before the line break;
or the line break has become part of the value of a parameter. -/
theorem cut_head {key a d R : Str} {l : List (Str × Str)} (hk : IsName key) (hl : ∀ x ∈ l, IsName x.1 ∧ Quotable x.2)
    (ha : a ≠ []) (hcut : key ++ paramsText l = a ++ d) (hq : '"' ∈ d → '"' ∈ R) {q : PProp}
    (hr : readProperty (a ++ '\r' :: '\n' :: ' ' :: R) = some q) :
    (∃ n, q = ⟨n, [], []⟩ ∧ n <+: key ∧ n <+: a ∧ (n = key ∨ n = a)) ∨
    (a ≠ key ∧ q.name = key ∧ ∃ x ∈ q.params, ∃ v, x.val = some v ∧ ['\r', '\n', ' '] <:+: v) := by
  obtain ⟨t, f, he, hn, -, hp⟩ := property_read_iff.1 hr
  have hcr : ¬ NameChar '\r' := by rw [← isKeyChar_iff, isKeyChar_cr]; simp
  have hsemi : ¬ NameChar ';' := by rw [← isKeyChar_iff, isKeyChar_semi]; simp
  have hcolon : ¬ NameChar ':' := by rw [← isKeyChar_iff, isKeyChar_colon]; simp
  have hshape : ∃ n y, a ++ '\r' :: '\n' :: ' ' :: R = n ++ y ∧ IsName n ∧ n <+: key ∧ n <+: a ∧ (n = key ∨ n = a) ∧
      (∀ c, y.head? = some c → ¬ NameChar c) ∧
      (y = '\r' :: '\n' :: ' ' :: R ∨
        a ≠ key ∧ n = key ∧ ∃ e, e ≠ [] ∧ y = e ++ '\r' :: '\n' :: ' ' :: R ∧ paramsText l = e ++ d) := by
    rcases two_prefixes hcut with ⟨e, rfl, h2⟩ | ⟨e, rfl, h2⟩
    · refine ⟨key, e ++ '\r' :: '\n' :: ' ' :: R, by simp, hk, List.prefix_refl _, List.prefix_append _ _, .inl rfl, ?_, ?_⟩
      · cases e with
        | nil => simpa using hcr
        | cons y e =>
          cases l with
          | nil => simp [paramsText] at h2
          | cons kv l =>
            simp only [paramsText, List.cons_append, List.nil_append, List.cons.injEq] at h2
            rw [← h2.1]
            simpa using hsemi
      · by_cases he : e = []
        · left; simp [he]
        · right; exact ⟨by simpa using he, rfl, e, he, rfl, h2⟩
    · exact ⟨a, _, rfl, fun c hc => hk c (by simp [hc]), List.prefix_append _ _, List.prefix_refl _, .inr rfl,
        by simpa using hcr, .inl rfl⟩
  obtain ⟨n, y, hout, hnn, hnk, hna, hor, hy, hlast⟩ := hshape
  rcases hp with ⟨white, params, raw, br, hw, hps, hval, -, rfl⟩ | ⟨h1, h2, -, br, rfl, h3, -⟩
  · have hwn : white = [] := by
      cases white with
      | nil => rfl
      | cons x white =>
        exfalso
        have hx := hw x (by simp)
        cases a with
        | nil => exact ha rfl
        | cons a0 a =>
          simp only [List.cons_append, List.append_assoc, List.cons.injEq] at he
          have h0 : NameChar a0 ∨ a0 = ';' := by
            cases key with
            | nil =>
              cases l with
              | nil => simp [paramsText] at hcut
              | cons kv l =>
                simp only [paramsText, List.cons_append, List.nil_append, List.cons.injEq] at hcut
                exact .inr hcut.1.symm
            | cons k0 key =>
              simp only [List.cons_append, List.cons.injEq] at hcut
              exact .inl (hcut.1 ▸ hk k0 (by simp))
          rw [he.1] at h0
          rcases h0 with h0 | rfl
          · rw [← isKeyChar_iff] at h0
            rcases hx with rfl | rfl | rfl | rfl
            · rw [isKeyChar_sp] at h0; cases h0
            · rw [isKeyChar_tab] at h0; cases h0
            · rw [isKeyChar_cr] at h0; cases h0
            · rw [isKeyChar_lf] at h0; cases h0
          · simp [Space] at hx
    subst hwn
    have hps' : ParamsAre q.params params (':' :: (raw ++ (br ++ f))) := by simpa using hps
    obtain ⟨ch, s, hh1, hh2⟩ := paramsAre_head hps'
    have he' : q.name ++ (params ++ ':' :: (raw ++ (br ++ f))) = n ++ y := by
      rw [← hout, he]; simp
    obtain ⟨hqn, hrest⟩ := until_unique (P := NameChar) hn hnn
      (by
        intro c hc
        rw [hh1] at hc
        cases hc
        rcases hh2 with rfl | rfl
        · exact hcolon
        · exact hsemi) hy he'
    rcases hlast with rfl | ⟨hak, rfl, e, hen, rfl, hpt⟩
    · have := not_colon_head hps' hrest
      simp at this
    · exact .inr ⟨hak, hqn, cut_params hl hpt hen hq hps' hrest⟩
  · left
    obtain ⟨hqn, -⟩ := until_unique (P := NameChar) hn hnn h3 hy (by rw [← hout, he]; simp)
    refine ⟨n, ?_, hnk, hna, hor⟩
    cases q
    simp only at h1 h2 hqn
    rw [h1, h2, hqn]

omit [Uni] in
theorem mem_joinFold {ps : List Str} {c : Char} (h : c ∈ ps.flatten) : c ∈ joinFold ps := by
  induction ps with
  | nil => simp at h
  | cons p ps ih =>
    cases ps with
    | nil => simpa [joinFold] using h
    | cons q ps =>
      simp only [joinFold, List.mem_append]
      rw [List.flatten_cons, List.mem_append] at h
      rcases h with h | h
      · exact .inl (.inl h)
      · exact .inr (ih h)

/-- The pieces of what is written for a property. -/
theorem own_pieces {p : Property} {w : World} (hk : IsName p.key) (hne : p.key ≠ []) (ha : ∀ c ∈ p.key, IsAscii c)
    {out : Str} (h : p.fmtWrite w = .ok out) :
    ∃ a ps, p.line w = a ++ ps.flatten ∧ out = joinFold (a :: ps) ++ crlf ∧ (∀ q ∈ ps, q ≠ []) ∧ a ≠ [] := by
  unfold Property.fmtWrite at h
  cases hf : foldLine (p.line w) with
  | error e => rw [hf] at h; cases h
  | ok s =>
    rw [hf] at h
    cases h
    obtain ⟨a, ps, h1, rfl, h3, h4⟩ := fold_pieces _ _ hf
    refine ⟨a, ps, by simpa using h1, rfl, h3, ?_⟩
    have hws : ∀ c, NameChar c → IsAscii c → isWhitespace c = false := by
      intro c hc hca
      unfold NameChar isAlnum at hc
      unfold IsAscii at hca
      rw [if_pos hca] at hc
      rcases hc with hc | hc
      · unfold isWhitespace
        simp only [Bool.or_eq_true, Bool.and_eq_true, decide_eq_true_eq] at hc
        simp only [Bool.or_eq_false_iff, Bool.and_eq_false_iff, decide_eq_false_iff_not, beq_eq_false_iff_ne]
        omega
      · simp only [List.mem_cons, List.not_mem_nil, or_false] at hc
        rcases hc with rfl | rfl | rfl | rfl | rfl <;> decide
    have hl : ∃ x y rest, p.line w = x :: y :: rest ∧ IsAscii x ∧ isWhitespace y = false := by
      unfold Property.line
      cases hkey : p.key with
      | nil => exact absurd hkey hne
      | cons x k =>
        have hx : IsAscii x := ha x (by simp [hkey])
        cases k with
        | nil =>
          cases hl : w.order [] p.params with
          | nil => exact ⟨x, ':', _, by simp [paramsText]; rfl, hx, by decide⟩
          | cons kv l => exact ⟨x, ';', _, by simp [paramsText]; rfl, hx, by decide⟩
        | cons y k =>
          exact ⟨x, y, _, by simp only [List.cons_append]; rfl, hx,
            hws y (hk y (by simp [hkey])) (ha y (by simp [hkey]))⟩
    obtain ⟨x, y, rest, hxy, hx, hy⟩ := hl
    exact h4 x y rest hxy hx hy

theorem line_cut {p : Property} {w : World} {a b : Str} (h : p.line w = a ++ b) :
    (∃ raw, a = p.key ++ paramsText (w.order [] p.params) ++ [':'] ++ raw ∧ p.valueText = raw ++ b) ∨
    ∃ d, p.key ++ paramsText (w.order [] p.params) = a ++ d ∧ b = d ++ ':' :: p.valueText := by
  unfold Property.line at h
  rcases two_prefixes h with ⟨e, rfl, h2⟩ | ⟨e, h1, h2⟩
  · exact .inl ⟨e, rfl, h2⟩
  · rcases two_prefixes h1 with ⟨e', h3, h4⟩ | ⟨e', h3, h4⟩
    · cases e' with
      | nil =>
        refine .inr ⟨[], by simpa using h3.symm, ?_⟩
        simp only [List.nil_append] at h4
        rw [h2, ← h4]
        rfl
      | cons x e' =>
        simp only [List.cons_append, List.cons.injEq] at h4
        obtain ⟨rfl, h4⟩ := h4
        obtain ⟨h5, h6⟩ := List.append_eq_nil_iff.1 h4.symm
        subst h5; subst h6
        exact .inl ⟨[], by simpa using h3, by simpa using h2.symm⟩
    · exact .inr ⟨e', h3, by rw [h2, h4]; simp⟩

omit [Uni] in
theorem joinFold_two (a q : Str) (ps : List Str) :
    joinFold (a :: q :: ps) ++ crlf = a ++ '\r' :: '\n' :: ' ' :: (joinFold (q :: ps) ++ crlf) := by
  simp [joinFold]

omit [Uni] in
theorem first_marker {a a' R R' : Str} (h1 : MarkerFree a) (h2 : MarkerFree a')
    (h : a ++ '\r' :: '\n' :: ' ' :: R = a' ++ '\r' :: '\n' :: ' ' :: R') : a = a' ∧ R = R' := by
  have key : ∀ {a a' R R' : Str}, MarkerFree a' → (∃ e, a' = a ++ e ∧
      '\r' :: '\n' :: ' ' :: R = e ++ '\r' :: '\n' :: ' ' :: R') → a = a' ∧ R = R' := by
    rintro a a' R R' h2 ⟨e, rfl, h⟩
    match e, h with
    | [], h => simpa using h
    | [_], h => simp at h
    | [_, _], h => simp at h
    | x :: y :: z :: e, h =>
      simp only [List.cons_append, List.cons.injEq] at h
      obtain ⟨rfl, rfl, rfl, -⟩ := h
      exact absurd ⟨a ++ ['\r'], e, by simp⟩ h2.1
  rcases two_prefixes h with ⟨e, h3, h4⟩ | ⟨e, h3, h4⟩
  · exact key h2 ⟨e, h3, h4⟩
  · obtain ⟨h5, h6⟩ := key h1 ⟨e, h3, h4⟩
    exact ⟨h5.symm, h6.symm⟩

omit [Uni] in
theorem one_piece {ps : List Str} {c : Char} (h1 : ∀ q ∈ ps, q ≠ []) (h2 : ps.flatten = [c]) : ps = [[c]] := by
  match ps with
  | [] => simp at h2
  | q :: ps =>
    cases q with
    | nil => exact absurd rfl (h1 [] (by simp))
    | cons x q =>
      simp only [List.flatten_cons, List.cons_append, List.cons.injEq, List.append_eq_nil_iff] at h2
      obtain ⟨rfl, rfl, h3⟩ := h2
      cases ps with
      | nil => rfl
      | cons q' ps =>
        simp only [List.flatten_cons, List.append_eq_nil_iff] at h3
        exact absurd h3.1 (h1 q' (by simp))

/-- reading a property whose line is cut after the colon -/
theorem read_cut {p : Property} {w : World} (hw : World.Ok w) (hk : IsName p.key)
    (h1 : ¬ c!"END" <+: p.key) (h2 : ¬ c!"BEGIN" <+: p.key) (hp : ParamsOk p.params) (hv : ValueOk p) {raw b R : Str}
    (hraw : p.valueText = raw ++ b) :
    readProperty (p.key ++ paramsText (w.order [] p.params) ++ [':'] ++ raw ++ '\r' :: '\n' :: R) =
      some (meaningProp p.key ((w.order [] p.params).map dparam) raw) := by
  have hval : ValOk .crlf raw := by
    have := (valueText_ok hv).1
    rw [hraw] at this
    exact fun hc => this (hc.trans (List.prefix_append raw b).isInfix)
  have := property_ok (br := .crlf) (r := R) hk h1 h2 (dparams_ok hp (hw.order [] p.params)) hval (by simp)
  have e : p.key ++ paramsText (w.order [] p.params) ++ [':'] ++ raw ++ '\r' :: '\n' :: R =
      (Item.prop p.key ((w.order [] p.params).map dparam) raw).text .crlf ++ R := by
    rw [paramsText_eq]
    simp [Item.text, Break.text]
  rw [readProperty, e, this]
  rfl

/-- reading the whole line -/
theorem read_whole {p : Property} {w : World} (hw : World.Ok w) (hk : IsName p.key)
    (h1 : ¬ c!"END" <+: p.key) (h2 : ¬ c!"BEGIN" <+: p.key) (hp : ParamsOk p.params) (hv : ValueOk p)
    {out : Str} (h : p.fmtWrite w = .ok out) :
    readProperty (unfold out) = some (meaningProp p.key ((w.order [] p.params).map dparam) p.valueText) := by
  have hu := unfold_property hw hk hp hv h (t := []) noIndent_nil
  rw [List.append_nil, ← unfold_eq_spec] at hu
  have hnil : unfoldSpec [] = [] := rfl
  have := property_ok (br := .crlf) (r := []) hk h1 h2 (dparams_ok hp (hw.order [] p.params))
    (valueText_ok hv).1 (by simp)
  rw [readProperty, hu, hnil, this]
  rfl

/-- what is read if the line is cut inside the value -/
theorem meaning_cut {p : Property} {w : World} (hw : World.Ok w) (hp : ParamsOk p.params) (hs : ValueSafe p) {raw b : Str}
    (hraw : p.valueText = raw ++ b) (hb : b ≠ []) :
    ∃ t u, p.val = t ++ u ∧ u ≠ [] ∧
      (meaningProp p.key ((w.order [] p.params).map dparam) raw =
          { meaningProp p.key ((w.order [] p.params).map dparam) p.valueText with val := t } ∨
      (IsText p ∧ raw = escapeText t ++ ['\\'] ∧ (∃ d e u', u = d :: u' ∧ escapeText [d] = ['\\', e] ∧ b = e :: escapeText u') ∧
        meaningProp p.key ((w.order [] p.params).map dparam) raw =
          { meaningProp p.key ((w.order [] p.params).map dparam) p.valueText with val := t ++ ['\\'] })) := by
  have hvt := valueTypeOf_dparams p hp.sorted (hw.order [] p.params)
  by_cases ht : p.valueType = some .text
  · rw [valueText_of_text ht] at hraw
    obtain ⟨t, u, h1, hu, h2⟩ := text_cut (hs ((isText_iff p).2 ht)) hraw.symm hb
    refine ⟨t, u, h1, hu, ?_⟩
    rcases h2 with ⟨-, h3⟩ | ⟨h3, h4, h5⟩
    · left
      simp only [meaningProp_eq, hvt, ht, if_true, h3]
    · right
      refine ⟨(isText_iff p).2 ht, h3, h5, ?_⟩
      simp only [meaningProp_eq, hvt, ht, if_true, h4]
  · rw [valueText_of_not ht] at hraw
    refine ⟨raw, b, hraw, hb, .inl ?_⟩
    simp only [meaningProp_eq, hvt, ht, if_false]

/-! ### C115 -/

/-- **C115** (partial: exactly what is read). A property read from its own text without unfolding it is the property
itself if nothing was folded. Otherwise its value has lost its end, maybe with half an escape sequence left at the end of
it; or only the name is left or the start of it; or there is a line break in the value of a parameter. -/
theorem own_text_partial (p : Property) (w : World) (hw : World.Ok w) (hk : IsName p.key) (hne : p.key ≠ [])
    (ha : ∀ c ∈ p.key, IsAscii c) (h1 : ¬ c!"END" <+: p.key) (h2 : ¬ c!"BEGIN" <+: p.key) (hp : ParamsOk p.params)
    (hv : ValueOk p) (hs : ValueSafe p) (out : Str) (h : p.fmtWrite w = .ok out) (q : PProp)
    (hq : readProperty out = some q) :
    (MarkerFree out ∧ q.toProperty = p) ∨
    (¬ MarkerFree out ∧
      ((∃ t u, p.val = t ++ u ∧ u ≠ [] ∧
          (q.toProperty = { p with val := t } ∨ IsText p ∧ q.toProperty = { p with val := t ++ ['\\'] })) ∨
        (∃ n, n <+: p.key ∧ q.toProperty = ⟨n, [], []⟩) ∨
        (q.name = p.key ∧ ∃ x ∈ q.params, ∃ v, x.val = some v ∧ ['\r', '\n', ' '] <:+: v))) := by
  obtain ⟨a, ps, hl, ho, hps, hane⟩ := own_pieces hk hne ha h
  have hmf := line_markerFree hw hk hp (valueText_ok hv).2
  have hwhole := read_whole hw hk h1 h2 hp hv h
  cases ps with
  | nil =>
    left
    have hout : MarkerFree out := by
      rw [ho]
      simp only [List.flatten_nil, List.append_nil] at hl
      rw [joinFold, ← hl]
      exact markerFree_append_cons (by decide) (by decide) hmf (by decide)
    refine ⟨hout, ?_⟩
    rw [unfold_eq_spec, unfoldSpec_markerFree _ hout, hq, Option.some.injEq] at hwhole
    rw [hwhole, meaning_dparams p hp.sorted (hw.order [] p.params), readBack_eq hs]
  | cons q0 ps =>
    right
    rw [joinFold_two] at ho
    refine ⟨fun hm => hm.1 ⟨a ++ ['\r'], _, by rw [ho]; simp; rfl⟩, ?_⟩
    rcases line_cut hl with ⟨raw, rfl, hraw⟩ | ⟨d, hd, hb⟩
    · left
      have hb : (q0 :: ps).flatten ≠ [] := by
        have := hps q0 (by simp)
        simp [this]
      have hread := read_cut (R := ' ' :: (joinFold (q0 :: ps) ++ crlf)) hw hk h1 h2 hp hv hraw
      rw [ho, hread, Option.some.injEq] at hq
      obtain ⟨t, u, h3, hu, h4⟩ := meaning_cut hw hp hs hraw hb
      refine ⟨t, u, h3, hu, ?_⟩
      have hfull : ∀ v, PProp.toProperty
          { meaningProp p.key ((w.order [] p.params).map dparam) p.valueText with val := v } = { p with val := v } := by
        intro v
        have := meaning_dparams p hp.sorted (hw.order [] p.params)
        rw [readBack_eq hs] at this
        unfold PProp.toProperty at this ⊢
        rw [Property.mk.injEq] at this
        simp only at this ⊢
        rw [this.1, this.2.2]
      rcases h4 with h4 | ⟨h5, -, -, h4⟩
      · left; rw [← hq, h4, hfull]
      · right; rw [← hq, h4, hfull]; exact ⟨h5, rfl⟩
    · right
      rw [ho] at hq
      have hperm := hw.order [] p.params
      rcases cut_head hk (fun x hx => ⟨hp.name x (hperm.mem_iff.1 hx), (hp.value x (hperm.mem_iff.1 hx)).1⟩) hane hd
        (R := joinFold (q0 :: ps) ++ crlf)
        (fun hm => by
          rw [List.mem_append]
          exact .inl (mem_joinFold (by rw [hb]; simp [hm]))) hq with ⟨n, rfl, h3, -⟩ | ⟨-, h3, h4⟩
      · exact .inl ⟨n, h3, rfl⟩
      · exact .inr ⟨h3, h4⟩

/-- **C115.** Something is always read. -/
theorem own_text_read (p : Property) (w : World) (hk : IsName p.key) (hne : p.key ≠ [])
    (ha : ∀ c ∈ p.key, IsAscii c) (h1 : ¬ c!"END" <+: p.key) (h2 : ¬ c!"BEGIN" <+: p.key)
    (out : Str) (h : p.fmtWrite w = .ok out) : ∃ q, readProperty out = some q := by
  obtain ⟨a, ps, hl, ho, hps, hane⟩ := own_pieces hk hne ha h
  have hkw : ¬ Keyword out := by
    rintro ⟨white, s, hw', hws, hs⟩
    obtain ⟨Y, hY⟩ : ∃ Y, out = a ++ '\r' :: Y := by
      cases ps with
      | nil => exact ⟨['\n'], ho⟩
      | cons q0 ps => exact ⟨_, ho.trans (joinFold_two a q0 ps)⟩
    obtain ⟨k0, k, hkey⟩ : ∃ k0 k, p.key = k0 :: k := by
      cases hkey : p.key with
      | nil => exact absurd hkey hne
      | cons k0 k => exact ⟨k0, k, rfl⟩
    obtain ⟨a0, a', rfl⟩ : ∃ a0 a', a = a0 :: a' := by
      cases a with
      | nil => exact absurd rfl hane
      | cons a0 a' => exact ⟨a0, a', rfl⟩
    obtain ⟨x, X, hx, hX⟩ : ∃ x X, (x = ';' ∨ x = ':') ∧ p.line w = p.key ++ x :: X := by
      unfold Property.line
      cases hlo : w.order [] p.params with
      | nil => exact ⟨':', p.valueText, .inr rfl, by simp [paramsText]⟩
      | cons kv l => exact ⟨';', _, .inl rfl, by simp [paramsText]; rfl⟩
    have hwn : white = [] := by
      cases white with
      | nil => rfl
      | cons c white =>
        exfalso
        have hc := hw' c (by simp)
        have e1 : a0 = c := by
          rw [hY] at hws
          simp only [List.cons_append, List.cons.injEq] at hws
          exact hws.1
        have e2 : a0 = k0 := by
          rw [hX, hkey] at hl
          simp only [List.cons_append, List.cons.injEq] at hl
          exact hl.1.symm
        have h0 := name_keyChar hk k0 (by simp [hkey])
        rw [← e2, e1] at h0
        rcases hc with rfl | rfl | rfl | rfl
        · rw [isKeyChar_sp] at h0; cases h0
        · rw [isKeyChar_tab] at h0; cases h0
        · rw [isKeyChar_cr] at h0; cases h0
        · rw [isKeyChar_lf] at h0; cases h0
    have word : ∀ W : Str, '\r' ∉ W → ';' ∉ W → ':' ∉ W → W <+: out → W <+: p.key := by
      intro W hW1 hW2 hW3 hW
      have hWa : W <+: a0 :: a' := by
        obtain ⟨z, hz⟩ := hW
        rw [hY] at hz
        rcases two_prefixes hz with ⟨e, h3, -⟩ | ⟨e, h3, h4⟩
        · exact ⟨e, h3.symm⟩
        · cases e with
          | nil => exact ⟨[], by simpa using h3⟩
          | cons y e =>
            simp only [List.cons_append, List.cons.injEq] at h4
            exact absurd (by rw [h3, ← h4.1]; simp) hW1
      obtain ⟨z, hz⟩ := hWa.trans ⟨ps.flatten, rfl⟩
      rw [← hl, hX] at hz
      rcases two_prefixes hz with ⟨e, h3, -⟩ | ⟨e, h3, h4⟩
      · exact ⟨e, h3.symm⟩
      · cases e with
        | nil => exact ⟨[], by simpa using h3⟩
        | cons y e =>
          simp only [List.cons_append, List.cons.injEq] at h4
          rcases hx with rfl | rfl
          · exact absurd (by rw [h3, ← h4.1]; simp) hW2
          · exact absurd (by rw [h3, ← h4.1]; simp) hW3
    rw [hwn, List.nil_append] at hws
    rw [← hws] at hs
    rcases hs with hs | hs
    · exact h1 (word _ (by decide) (by decide) (by decide) hs)
    · exact h2 (word _ (by decide) (by decide) (by decide) hs)
  obtain ⟨q, t, f, h3, h4⟩ := prop_total hkw
  exact ⟨q, property_read_iff.2 ⟨t, f, h3, h4⟩⟩

/-- **C115.** Reading the text of a property as it is and reading it unfolded give the same if and only if nothing was
folded, or there is nothing but a name and the fold is between it and the colon, or the fold is between the two halves of an
escaped backslash at the end of the value. -/
theorem own_text_iff (p : Property) (w : World) (hw : World.Ok w) (hk : IsName p.key) (hne : p.key ≠ [])
    (ha : ∀ c ∈ p.key, IsAscii c) (h1 : ¬ c!"END" <+: p.key) (h2 : ¬ c!"BEGIN" <+: p.key) (hp : ParamsOk p.params)
    (hv : ValueOk p) (hs : ValueSafe p) (out : Str) (h : p.fmtWrite w = .ok out) :
    readProperty out = readProperty (unfold out) ↔
      MarkerFree out ∨ (p.params = [] ∧ p.val = [] ∧ out = p.key ++ c!"\r\n :\r\n") ∨
      (IsText p ∧ ∃ a, MarkerFree a ∧ out = a ++ c!"\\\r\n \\\r\n") := by
  obtain ⟨a, ps, hl, ho, hps, hane⟩ := own_pieces hk hne ha h
  have hmf := line_markerFree hw hk hp (valueText_ok hv).2
  have hwhole := read_whole hw hk h1 h2 hp hv h
  cases ps with
  | nil =>
    have hout : MarkerFree out := by
      rw [ho]
      simp only [List.flatten_nil, List.append_nil] at hl
      rw [joinFold, ← hl]
      exact markerFree_append_cons (by decide) (by decide) hmf (by decide)
    rw [unfold_eq_spec, unfoldSpec_markerFree _ hout]
    simp [hout]
  | cons q0 ps =>
    rw [joinFold_two] at ho
    have hnm : ¬ MarkerFree out := fun hm => hm.1 ⟨a ++ ['\r'], _, by rw [ho]; simp; rfl⟩
    have hnil : (q0 :: ps).flatten ≠ [] := by
      have := hps q0 (by simp)
      simp [this]
    have hmf' : MarkerFree a := markerFree_infix hmf (by rw [hl]; exact (List.prefix_append _ _).isInfix)
    have hvalne : (meaningProp p.key ((w.order [] p.params).map dparam) p.valueText).val = p.val := by
      have := congrArg Property.val (meaning_dparams p hp.sorted (hw.order [] p.params))
      rw [readBack_eq hs] at this
      exact this
    rw [hwhole]
    constructor
    · intro hr
      right
      rcases line_cut hl with ⟨raw, rfl, hraw⟩ | ⟨d, hd, hb⟩
      · right
        have hread := read_cut (R := ' ' :: (joinFold (q0 :: ps) ++ crlf)) hw hk h1 h2 hp hv hraw
        rw [ho, hread, Option.some.injEq] at hr
        obtain ⟨t, u, h3, hu, h4⟩ := meaning_cut hw hp hs hraw hnil
        rcases h4 with h4 | ⟨h5, hr1, ⟨d, e, u', rfl, hd, hb⟩, h4⟩
        · exfalso
          rw [hr] at h4
          have := congrArg PProp.val h4
          rw [hvalne, h3] at this
          simp at this
          exact hu this
        · rw [hr] at h4
          have := congrArg PProp.val h4
          rw [hvalne, h3] at this
          simp at this
          obtain ⟨rfl, rfl⟩ := this
          have he : e = '\\' := by
            have : escapeText ['\\'] = ['\\', '\\'] := by decide
            rw [this] at hd
            simp at hd
            exact hd.symm
          have hen : escapeText [] = [] := by decide
          rw [he, hen] at hb
          have hone := one_piece hps hb
          refine ⟨h5, p.key ++ paramsText (w.order [] p.params) ++ [':'] ++ escapeText t, ?_, ?_⟩
          · refine markerFree_infix hmf' ?_
            rw [hr1]
            exact ⟨[], ['\\'], by simp⟩
          · rw [ho, hone, hr1]
            simp [joinFold]
      · left
        rw [ho] at hr
        have hperm := hw.order [] p.params
        rcases cut_head hk (fun x hx => ⟨hp.name x (hperm.mem_iff.1 hx), (hp.value x (hperm.mem_iff.1 hx)).1⟩) hane hd
          (R := joinFold (q0 :: ps) ++ crlf)
          (fun hm => by
            rw [List.mem_append]
            exact .inl (mem_joinFold (by rw [hb]; simp [hm]))) hr with ⟨n, hn, -, hna, -⟩ | ⟨-, -, x, hx, v, hv1, hv2⟩
        · have hval : p.val = [] := by rw [← hvalne, hn]
          have hpar : w.order [] p.params = [] := by
            have := congrArg PProp.params hn
            rw [meaningProp_eq] at this
            simpa using this
          have hpn : p.params = [] := by
            rw [hpar] at hperm
            simpa using hperm.symm
          have hnk : n = p.key := by
            have := congrArg PProp.name hn
            rw [meaningProp_eq] at this
            exact this.symm
          have hvt : p.valueText = [] := by
            unfold Property.valueText
            rw [hval]
            split <;> rfl
          refine ⟨hpn, hval, ?_⟩
          rw [hpar, paramsText, List.append_nil] at hd
          rw [hnk] at hna
          have hdn : d = [] := by
            have e1 := congrArg List.length hd
            have e2 := hna.length_le
            rw [List.length_append] at e1
            exact List.length_eq_zero_iff.1 (by omega)
          rw [hdn, hvt, List.nil_append] at hb
          have hone := one_piece hps hb
          rw [ho, hone, hd, hdn]
          simp [joinFold]
        · exfalso
          rw [meaningProp_eq] at hx
          simp only [List.mem_map] at hx
          obtain ⟨y, ⟨kv, hkv, rfl⟩, rfl⟩ := hx
          have hmk := (hp.value kv (hperm.mem_iff.1 hkv)).2
          have hv' : v = kv.2 := by
            simp only [dparam, DParam.meaning] at hv1
            split at hv1
            · cases hv1
            · cases hv1; rfl
          rw [hv'] at hv2
          obtain ⟨s1, s2, hs12⟩ := hv2
          exact hmk.1 ⟨s1 ++ ['\r'], s2, by rw [← hs12]; simp⟩
    · rintro (hm | ⟨hpn, hval, hout⟩ | ⟨htext, a0, ha0, hout⟩)
      · exact absurd hm hnm
      · obtain ⟨q, hq⟩ := own_text_read p w hk hne ha h1 h2 out h
        have hq' := hq
        rw [hout] at hq'
        have hpar : w.order [] p.params = [] := by
          have := hw.order [] p.params
          rw [hpn] at this ⊢
          simpa using this
        have hvt : p.valueText = [] := by
          unfold Property.valueText
          rw [hval]
          split <;> rfl
        rcases cut_head (l := []) (a := p.key) (d := []) (R := c!":\r\n") hk (by simp) hne (by simp [paramsText]) (by simp) hq'
          with ⟨n, rfl, -, -, hn⟩ | ⟨hn, -⟩
        · have : n = p.key := by rcases hn with h | h <;> exact h
          rw [hq, hpar, this, hvt, meaningProp_eq]
          have hun : unescapeText [] = [] := by decide
          simp [hun]
        · exact absurd rfl hn
      · have hout' : out = (a0 ++ ['\\']) ++ '\r' :: '\n' :: ' ' :: c!"\\\r\n" := by rw [hout]; simp
        have ha0' : MarkerFree (a0 ++ ['\\']) :=
          markerFree_append_cons (by decide) (by decide) ha0 (by decide)
        obtain ⟨hae, hR⟩ := first_marker hmf' ha0' (ho.symm.trans hout')
        have hj : joinFold (q0 :: ps) = ['\\'] := by
          have : joinFold (q0 :: ps) ++ crlf = ['\\'] ++ crlf := hR
          exact List.append_cancel_right this
        have hfl : (q0 :: ps).flatten = ['\\'] := by
          cases ps with
          | nil => simpa [joinFold] using hj
          | cons q1 ps =>
            have := congrArg List.length hj
            simp [joinFold] at this
            omega
        rw [hfl] at hl
        rcases line_cut hl with ⟨raw, hra, hraw⟩ | ⟨d, -, hb⟩
        · have hread := read_cut (R := ' ' :: (joinFold (q0 :: ps) ++ crlf)) hw hk h1 h2 hp hv hraw
          have hvt := valueTypeOf_dparams p hp.sorted (hw.order [] p.params)
          have ht := (isText_iff p).1 htext
          rw [ho, hra, hread, Option.some.injEq]
          have hraw' := hraw
          rw [valueText_of_text ht] at hraw'
          obtain ⟨t, u, h3, hu, h4⟩ := text_cut (hs htext) hraw'.symm (by simp)
          have hval : unescapeText raw = p.val := by
            rcases h4 with ⟨h4, -⟩ | ⟨-, h4, d, e, u', rfl, h5, h6⟩
            · exfalso
              rw [h4, h3, escapeText_eq, escapeText_eq, List.flatMap_append] at hraw'
              have h5 := List.append_cancel_left hraw'
              cases u with
              | nil => exact hu rfl
              | cons c u =>
                rw [List.flatMap_cons] at h5
                revert h5
                unfold escChar
                repeat' split
                all_goals simp_all
            · simp only [List.cons.injEq] at h6
              obtain ⟨rfl, h6⟩ := h6
              have hu' : u' = [] := by
                apply escape_injective
                rw [← h6]
                decide
              have hd : d = '\\' := by
                rw [escapeText_eq] at h5
                simp only [List.flatMap_cons, List.flatMap_nil, List.append_nil] at h5
                revert h5
                unfold escChar
                repeat' split
                all_goals intro h5
                all_goals first | assumption | (exfalso; simp at h5)
              rw [h4, h3, hu', hd]
          have hval' : unescapeText p.valueText = p.val := by
            rw [valueText_of_text ht]
            exact (text_roundtrip_partial p.val).2 (hs htext)
          simp only [meaningProp_eq, hvt, ht, if_true, hval, hval']
        · exfalso
          cases d with
          | nil => simp at hb
          | cons y d =>
            have := congrArg List.length hb
            simp at this

omit [Uni] in
/-- **C115 (violated).** The text of a property with a long value parses without any error to a property whose value
ends where the first line does. -/
theorem own_text_violated :
    let w : World := ⟨fun _ => ⟨⟨⟨2026, 1, 1⟩, 0, 0, 0, 0⟩⟩, fun _ => c!"0-f", fun _ l => l⟩
    ∃ p out, @Property.fmtWrite Uni.ascii p w = .ok out ∧ @Property.fromStr Uni.ascii out ≠ some p ∧
      @Property.fromStr Uni.ascii out = some ⟨c!"SUMMARY",
        c!"the meeting about the report on the plan for the year after the nex", []⟩ := by
  refine ⟨⟨c!"SUMMARY", c!"the meeting about the report on the plan for the year after the next one, in Bonn", []⟩,
    c!"SUMMARY:the meeting about the report on the plan for the year after the nex\r\n t one\\, in Bonn\r\n", ?_⟩
  decide +kernel

omit [Uni] in
/-- the three kinds of loss and the two folds that do no harm -/
example : let w : World := ⟨fun _ => ⟨⟨⟨2026, 1, 1⟩, 0, 0, 0, 0⟩⟩, fun _ => c!"0-f", fun _ l => l⟩
    let x (n : Nat) : Str := List.replicate n 'X'
    (∃ out, @Property.fmtWrite Uni.ascii ⟨c!"COMMENT", x 66 ++ c!",b", []⟩ w = .ok out ∧
      @Property.fromStr Uni.ascii out = some ⟨c!"COMMENT", x 66 ++ c!"\\", []⟩) ∧
    (∃ out, @Property.fmtWrite Uni.ascii ⟨x 80, c!"1", []⟩ w = .ok out ∧
      @Property.fromStr Uni.ascii out = some ⟨x 75, [], []⟩) ∧
    (∃ out, @Property.fmtWrite Uni.ascii ⟨c!"A", c!"1", [(c!"CN", x 80)]⟩ w = .ok out ∧
      @Property.fromStr Uni.ascii out = some ⟨c!"A", c!"1", [(c!"CN", x 70 ++ c!"\r\n " ++ x 10)]⟩) ∧
    (∃ out, @Property.fmtWrite Uni.ascii ⟨x 75, [], []⟩ w = .ok out ∧ ¬ MarkerFree out ∧
      @Property.fromStr Uni.ascii out = some ⟨x 75, [], []⟩) ∧
    (∃ out, @Property.fmtWrite Uni.ascii ⟨c!"COMMENT", x 66 ++ c!"\\", []⟩ w = .ok out ∧ ¬ MarkerFree out ∧
      @Property.fromStr Uni.ascii out = some ⟨c!"COMMENT", x 66 ++ c!"\\", []⟩) := by
  refine ⟨⟨c!"COMMENT:" ++ List.replicate 66 'X' ++ c!"\\\r\n ,b\r\n", ?_⟩,
    ⟨List.replicate 75 'X' ++ c!"\r\n XXXXX:1\r\n", ?_⟩,
    ⟨c!"A;CN=" ++ List.replicate 70 'X' ++ c!"\r\n XXXXXXXXXX:1\r\n", ?_⟩,
    ⟨List.replicate 75 'X' ++ c!"\r\n :\r\n", ?_⟩,
    ⟨c!"COMMENT:" ++ List.replicate 66 'X' ++ c!"\\\r\n \\\r\n", ?_⟩⟩ <;> decide +kernel

end Ical
