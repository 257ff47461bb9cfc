import Verif.Spec.Replaced
import Verif.Props.SameBut

/-!
C140: conversions that replace characters that are not in ASCII leave the calendar intact.
-/

namespace Ical

open Nom Spec

variable {sub : Char → Str} (hsub : Replacement sub)

/-! ### Texts -/

theorem replaced_append (a b : Str) : replaced sub (a ++ b) = replaced sub a ++ replaced sub b := List.flatMap_append

theorem replaced_cons (c : Char) (s : Str) : replaced sub (c :: s) = sub c ++ replaced sub s := List.flatMap_cons

theorem noNewEscape_infix {s t : Str} (h : NoNewEscape sub t) (hi : s <:+: t) : NoNewEscape sub s :=
  fun c hc hs => h c hc (hs.trans hi)

theorem noNewFold_infix {s t : Str} (h : NoNewFold sub t) (hi : s <:+: t) : NoNewFold sub s :=
  fun c hc hs => h c hc (hs.trans hi)

include hsub

theorem replaced_ascii {s : Str} (h : Ascii s) : replaced sub s = s := by
  induction s with
  | nil => rfl
  | cons c s ih =>
    rw [replaced_cons, hsub.ascii c (h c (by simp)), ih (fun x hx => h x (by simp [hx]))]
    rfl

theorem replaced_nil {s : Str} : replaced sub s = [] ↔ s = [] := by
  cases s with
  | nil => exact ⟨fun _ => rfl, fun _ => rfl⟩
  | cons c s =>
    refine ⟨fun h => ?_, by simp⟩
    rw [replaced_cons, List.append_eq_nil_iff] at h
    by_cases hc : c.toNat < 128
    · rw [hsub.ascii c hc] at h; simp at h
    · exact absurd h.1 (hsub.some c (by omega))

/-- the first character of what replaces a text -/
theorem replaced_head {s t : Str} {x : Char} (h : replaced sub s = x :: t) :
    ∃ c s', s = c :: s' ∧ ((c.toNat < 128 ∧ c = x ∧ t = replaced sub s') ∨
      (128 ≤ c.toNat ∧ (sub c).head? = some x ∧ x ∉ ['"', '\\', ':', ';', '\r', '\n'])) := by
  cases s with
  | nil => cases h
  | cons c s =>
    refine ⟨c, s, rfl, ?_⟩
    rw [replaced_cons] at h
    by_cases hc : c.toNat < 128
    · rw [hsub.ascii c hc] at h
      cases h
      exact .inl ⟨hc, rfl, rfl⟩
    · have hs := hsub.some c (by omega)
      have hp := hsub.plain c (by omega)
      cases hx : sub c with
      | nil => exact absurd hx hs
      | cons y r =>
        rw [hx] at h hp
        simp only [List.cons_append, List.cons.injEq] at h
        obtain ⟨rfl, -⟩ := h
        exact .inr ⟨by omega, rfl, hp y (by simp)⟩

theorem replaced_mem {s : Str} {x : Char} (hx : x ∈ ['"', '\\', ':', ';', '\r', '\n']) (h : x ∈ replaced sub s) : x ∈ s := by
  obtain ⟨c, hc, h⟩ := List.mem_flatMap.1 h
  by_cases ha : c.toNat < 128
  · rw [hsub.ascii c ha] at h
    rw [List.mem_singleton.1 h]
    exact hc
  · exact absurd hx (hsub.plain c (by omega) x h)

theorem replaced_quote {s : Str} (h : ['"'] <+: replaced sub s) : ['"'] <+: s := by
  obtain ⟨t, h⟩ := h
  obtain ⟨c, s', rfl, ⟨-, rfl, -⟩ | ⟨-, -, h⟩⟩ := replaced_head hsub h.symm
  · simp
  · exact absurd (by simp) h

theorem replaced_crlf {s : Str} (h : ['\r', '\n'] <:+: replaced sub s) : ['\r', '\n'] <:+: s := by
  induction s with
  | nil => simp [replaced] at h
  | cons c s ih =>
    have hcons : ['\r', '\n'] <:+: replaced sub s → ['\r', '\n'] <:+: c :: s := fun h => (ih h).trans (List.suffix_cons c s).isInfix
    rw [replaced_cons] at h
    by_cases hc : c.toNat < 128
    · rw [hsub.ascii c hc, List.singleton_append, List.infix_cons_iff] at h
      rcases h with h | h
      · rw [List.cons_prefix_cons] at h
        obtain ⟨rfl, t, h⟩ := h
        obtain ⟨d, s', rfl, ⟨-, rfl, -⟩ | ⟨-, -, h⟩⟩ := replaced_head hsub h.symm
        · exact (List.prefix_append ['\r', '\n'] s').isInfix
        · exact absurd (by simp) h
      · exact hcons h
    · have hp := hsub.plain c (by omega)
      generalize sub c = a at h hp
      induction a with
      | nil => exact hcons h
      | cons y a iha =>
        rw [List.cons_append, List.infix_cons_iff] at h
        rcases h with h | h
        · rw [List.cons_prefix_cons] at h
          exact absurd (by simp [← h.1]) (hp y (by simp))
        · exact iha h (fun x hx => hp x (by simp [hx]))

theorem unescaped_replaced {s : Str} (h : NoNewEscape sub s) : unescaped (replaced sub s) = replaced sub (unescaped s) := by
  have slashes : ∀ k, replaced sub (List.replicate k '\\') = List.replicate k '\\' := fun k =>
    replaced_ascii hsub (fun x hx => by rw [(List.mem_replicate.1 hx).2]; decide)
  have none0 : ∀ (a t : Str), (∀ x ∈ a, x ≠ '\\') → unescapedRun 0 (a ++ t) = a ++ unescapedRun 0 t := by
    intro a t ha
    induction a with
    | nil => rfl
    | cons x a ih =>
      rw [List.cons_append, unescapedRun, if_neg (ha x (by simp)), if_pos rfl, ih (fun y hy => ha y (by simp [hy]))]
      rfl
  suffices H : ∀ k, (k ≠ 0 → NoNewEscape sub ('\\' :: s)) → unescapedRun k (replaced sub s) = replaced sub (unescapedRun k s) from
    H 0 (fun h => absurd rfl h)
  induction s with
  | nil => exact fun k _ => (slashes _).symm
  | cons c s ih =>
    intro k hk
    have ih := ih (noNewEscape_infix h (List.suffix_cons c s).isInfix)
    rw [replaced_cons]
    by_cases hc : c.toNat < 128
    · rw [hsub.ascii c hc, List.singleton_append, unescapedRun, unescapedRun]
      by_cases h1 : c = '\\'
      · subst h1
        rw [if_pos rfl, if_pos rfl]
        exact ih (k + 1) (fun _ => h)
      · rw [if_neg h1, if_neg h1]
        have h0 := ih 0 (fun h => absurd rfl h)
        by_cases h2 : k = 0
        · rw [if_pos h2, if_pos h2, replaced_cons, hsub.ascii c hc, h0]; rfl
        · rw [if_neg h2, if_neg h2]
          cases hm : escapeMeaning c with
          | none => simp only [replaced_append, replaced_cons, slashes, hsub.ascii c hc, h0]; rfl
          | some m =>
            have hm' : m.toNat < 128 := by
              unfold escapeMeaning at hm
              repeat' split at hm
              all_goals first | (cases hm; decide) | cases hm
            simp only [replaced_append, replaced_cons, slashes, hsub.ascii m hm', h0]; rfl
    · have hne : c ≠ '\\' := by rintro rfl; exact hc (by decide)
      have hem : escapeMeaning c = none := by
        unfold escapeMeaning
        repeat rw [if_neg (by rintro rfl; exact hc (by decide))]
      have hs := hsub.some c (by omega)
      have hp := hsub.plain c (by omega)
      have h0 := ih 0 (fun h => absurd rfl h)
      have hback : ∀ x ∈ sub c, x ≠ '\\' := fun x hx e => hp x hx (by simp [e])
      rw [unescapedRun, if_neg hne]
      by_cases h2 : k = 0
      · subst h2
        rw [if_pos rfl, none0 _ _ hback, replaced_cons, h0]
      · rw [if_neg h2, hem]
        simp only [replaced_append, replaced_cons, slashes]
        have hh := hk h2 c (by omega) (List.prefix_append ['\\', c] s).isInfix
        cases hx : sub c with
        | nil => exact absurd hx hs
        | cons y r =>
          rw [hx] at hp hback hh
          have hh := hh y (by simp)
          have hpy := hp y (by simp)
          have hey : escapeMeaning y = none := by
            simp only [List.mem_cons, List.not_mem_nil, or_false, not_or] at hpy
            unfold escapeMeaning
            simp [hpy, hh]
          rw [List.cons_append, unescapedRun, if_neg (hback y (by simp)), if_neg h2, hey]
          simp only
          rw [none0 r _ (fun x hx => hback x (by simp [hx])), h0]
          rfl

theorem replaced_replaces : Replaces (ReplacedValue sub) (ReplacedText sub) Ascii AsciiType where
  join := ascii_append
  delim := by decide
  breaks := ascii_breaks
  keyword := ascii_keywords
  append := by
    rintro a b t ⟨rfl, h⟩
    exact ⟨_, _, replaced_append a b, ⟨rfl, noNewEscape_infix h (List.prefix_append a b).isInfix⟩,
      rfl, noNewEscape_infix h (List.suffix_append a b).isInfix⟩
  kept := by
    rintro a t ha ⟨rfl, -⟩
    exact replaced_ascii hsub ha
  nil := by
    rintro s t ⟨rfl, -⟩ k -
    exact replaced_nil hsub
  mem := by
    rintro s t ⟨rfl, -⟩ x hx h
    refine replaced_mem hsub ?_ h
    revert hx
    simp only [List.mem_cons, List.not_mem_nil, or_false]
    rintro (rfl | rfl | rfl | rfl | rfl) <;> decide
  quote := by
    rintro s t ⟨rfl, -⟩ k - h
    exact replaced_quote hsub h
  crlf := by
    rintro s t ⟨rfl, -⟩ h
    exact replaced_crlf hsub h
  empty := ⟨rfl, fun c _ h => by simp at h⟩
  read := by
    rintro s t ⟨rfl, h⟩
    exact unescaped_replaced hsub h
  raw := fun h => h.1
  type := by
    rintro s t ⟨rfl, -⟩ ha k
    rw [replaced_ascii hsub (ha rfl)]

theorem unfold_replaced {s : Str} (h : NoNewFold sub s) : unfold (replaced sub s) = replaced sub (unfold s) := by
  rw [unfold_eq_spec, unfold_eq_spec]
  have skip : ∀ (a t : Str), (∀ x ∈ a, x ≠ '\r' ∧ x ≠ '\n') → unfoldSpec (a ++ t) = a ++ unfoldSpec t := by
    intro a t ha
    induction a with
    | nil => rfl
    | cons x a ih =>
      have hx := ha x (by simp)
      rw [List.cons_append, unfoldSpec_cons _ _ (not_prefix_of_pattern (fun _ e => absurd e hx.1) (fun _ e => absurd e hx.1)
        (fun _ e => absurd e hx.2) (fun _ e => absurd e hx.2)), ih (fun y hy => ha y (by simp [hy]))]
      rfl
  have marker : ∀ (m : Marker) (t : Str), replaced sub (m.text ++ t) = m.text ++ replaced sub t := by
    intro m t
    rw [replaced_append, replaced_ascii hsub (by cases m <;> decide)]
  fun_induction unfoldSpec s with
  | case1 => rfl
  | case2 s ih => rw [← ih (noNewFold_infix h ⟨['\r', '\n', ' '], [], by simp⟩)]; exact (congrArg unfoldSpec (marker .crlfSp s)).trans (unfoldSpec_marker .crlfSp _)
  | case3 s ih => rw [← ih (noNewFold_infix h ⟨['\r', '\n', '\t'], [], by simp⟩)]; exact (congrArg unfoldSpec (marker .crlfTab s)).trans (unfoldSpec_marker .crlfTab _)
  | case4 s ih => rw [← ih (noNewFold_infix h ⟨['\n', ' '], [], by simp⟩)]; exact (congrArg unfoldSpec (marker .lfSp s)).trans (unfoldSpec_marker .lfSp _)
  | case5 s ih => rw [← ih (noNewFold_infix h ⟨['\n', '\t'], [], by simp⟩)]; exact (congrArg unfoldSpec (marker .lfTab s)).trans (unfoldSpec_marker .lfTab _)
  | case6 c s h1 h2 h3 h4 ih =>
    have ih := ih (noNewFold_infix h (List.suffix_cons c s).isInfix)
    rw [replaced_cons, replaced_cons]
    by_cases hc : c.toNat < 128
    · rw [hsub.ascii c hc, List.singleton_append, List.singleton_append, ← ih]
      have blank : ∀ {u t : Str} {x : Char}, '\n' :: u <:+: c :: s → x = ' ' ∨ x = '\t' → replaced sub u = x :: t →
          ∃ u', u = x :: u' := by
        intro u t x hi hx he
        obtain ⟨d, u', rfl, ⟨-, rfl, -⟩ | ⟨hd, hh, -⟩⟩ := replaced_head hsub he
        · exact ⟨u', rfl⟩
        · have := h d hd ((List.prefix_append ['\n', d] u').isInfix.trans hi) x (by simp [hh])
          rcases hx with rfl | rfl
          · exact absurd rfl this.1
          · exact absurd rfl this.2
      have feed : ∀ {t : Str} {x : Char}, x = ' ' ∨ x = '\t' → replaced sub s = '\n' :: x :: t → ∃ u', s = '\n' :: x :: u' := by
        intro t x hx he
        obtain ⟨d, u', rfl, ⟨-, rfl, e⟩ | ⟨hd, hh, hn⟩⟩ := replaced_head hsub he
        · obtain ⟨u'', rfl⟩ := blank (List.suffix_cons c _).isInfix hx e.symm
          exact ⟨u'', rfl⟩
        · exact absurd (by simp) hn
      refine unfoldSpec_cons _ _ (not_prefix_of_pattern ?_ ?_ ?_ ?_)
      · intro t e he
        obtain ⟨u, rfl⟩ := feed (.inl rfl) he
        exact h1 u e rfl
      · intro t e he
        obtain ⟨u, rfl⟩ := feed (.inr rfl) he
        exact h2 u e rfl
      · intro t e he
        subst e
        obtain ⟨u, rfl⟩ := blank (List.infix_refl _) (.inl rfl) he
        exact h3 u rfl rfl
      · intro t e he
        subst e
        obtain ⟨u, rfl⟩ := blank (List.infix_refl _) (.inr rfl) he
        exact h4 u rfl rfl
    · rw [skip _ _ (fun x hx => ⟨fun e => hsub.plain c (by omega) x hx (by simp [e]), fun e => hsub.plain c (by omega) x hx (by simp [e])⟩),
        ih]

/-! ### C140 -/

omit hsub in
/-- **C140.** Replacements that never start with a blank, a comma, `n` or `N` make no fold and no escape sequence appear. -/
theorem mild_replacement (h : MildReplacement sub) (s : Str) : NoNewFold sub s ∧ NoNewEscape sub s := by
  constructor
  · intro c hc _ x hx
    have := h c hc x hx
    simp only [List.mem_cons, List.not_mem_nil, or_false, not_or] at this
    exact ⟨this.1, this.2.1⟩
  · intro c hc _ x hx
    have := h c hc x hx
    simp only [List.mem_cons, List.not_mem_nil, or_false, not_or] at this
    exact this.2.2

/-- **C140.** Replacing characters and unfolding can be done in any order if no fold appears; replacing characters and
reading TEXT, if no escape sequence appears; ASCII stays. -/
theorem replaced_text (s : Str) :
    (NoNewFold sub s → unfold (replaced sub s) = replaced sub (unfold s)) ∧
    (NoNewEscape sub s → unescapeText (replaced sub s) = replaced sub (unescapeText s)) ∧
    (Ascii s → replaced sub s = s) ∧ (replaced sub s = [] ↔ s = []) := by
  refine ⟨unfold_replaced hsub, fun h => ?_, replaced_ascii hsub, replaced_nil hsub⟩
  rw [unescapeText_unescaped, unescapeText_unescaped]
  exact unescaped_replaced hsub h

section
variable [Uni]

/-- **C140.** A file that presents a document with names and types in ASCII presents, with all characters replaced, the
document with all values replaced. -/
theorem replaced_document {br : Break} {b e n : Str} {l : List Item} (h : (Item.comp b e n l).Ok br)
    (ha : (Item.comp b e n l).NamesAre Ascii AsciiType) {file : Str} (hp : Presents br (.comp b e n l) file)
    (hf : NoNewFold sub file) (he : NoNewEscape sub (unfold file)) :
    ∃ l', SameButItems (ReplacedText sub) l l' ∧ (Item.comp b e n l').Ok br ∧ Presents br (.comp b e n l') (replaced sub file) := by
  obtain ⟨l', h1, h2⟩ := presents_same (replaced_replaces hsub) h ha hp ⟨unfold_replaced hsub hf, he⟩
  exact ⟨l', sameButItems_mono (fun _ _ h => h.1) h1, h2⟩

/-- **C140.** It is read as the calendar with all values replaced. -/
theorem replaced_calendar {br : Break} {b e : Str} {l : List Item} (h : (Item.comp b e c!"VCALENDAR" l).Ok br)
    (ha : (Item.comp b e c!"VCALENDAR" l).NamesAre Ascii AsciiType) {file : Str} (hp : Presents br (.comp b e c!"VCALENDAR" l) file)
    (hf : NoNewFold sub file) (he : NoNewEscape sub (unfold file)) :
    ∃ c d, Calendar.fromStr file = some c ∧ Calendar.fromStr (replaced sub file) = some d ∧
      SameButCal (ReplacedText sub) c d :=
  presents_same_calendar (replaced_replaces hsub) h ha hp ⟨unfold_replaced hsub hf, he⟩

/-- **C140.** A written calendar with names and types in ASCII is read, with all characters replaced, as the calendar with
all values replaced. -/
theorem replaced_written {c : Calendar} (hc : CalendarOk c) (hs : CalendarSafe c)
    (hst : ∀ x ∈ c.comps, HasStamps x.toOther) (ha : NamesAreCal Ascii AsciiType c) {w : World} (hw : World.Ok w) {out : Str}
    (h : c.fmtWrite w = .ok out) (hf : NoNewFold sub out) (he : NoNewEscape sub (unfold out)) :
    ∃ d, Calendar.fromStr (replaced sub out) = some d ∧ SameButCal (ReplacedText sub) c d := by
  have hok := calendar_item_ok (calendarOk_writable hc) hw
  have hn := calendar_namesAre (by decide) (by decide) (by decide) ha hw
  have hp := presents_written hc hw h
  unfold Calendar.item at hok hn hp
  obtain ⟨c', d, e1, e2, e3⟩ := replaced_calendar hsub hok hn hp hf he
  rw [calendar_roundtrip c hc hs hst w hw out h] at e1
  cases e1
  exact ⟨d, e2, e3⟩

end

end Ical
