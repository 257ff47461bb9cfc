import Verif.Proofs.Strict

/-!
C110: exactly which properties, components and calendars a reader that follows RFC 5545 to the letter recovers from what
is written.
-/

namespace Ical

open Nom Spec

/-- a property made of characters that can stand in a content line at all -/
structure Clean (p : Property) : Prop where
  name : RfcName p.key
  params : ∀ kv ∈ p.params, RfcName kv.1 ∧ (∀ c ∈ kv.2, QSafeChar c)
  value : ∀ c ∈ p.val, ControlChar c → IsText p ∧ c = '\n'

theorem Spec.Sayable.clean {p : Property} (h : Sayable p) : Clean p :=
  ⟨h.name, fun kv hkv => ⟨(h.params kv hkv).1, (h.params kv hkv).2.1⟩, h.value⟩

/-! ### Values -/

theorem readText_control {s : Str} {c : Char} (hc : ControlChar c) (h : c ∈ readText s) : c ∈ s ∨ c = '\n' := by
  fun_induction readText s with
  | case1 => simp at h
  | case2 d s m hm ih =>
    simp only [List.mem_cons] at h ⊢
    rcases h with rfl | h
    · unfold escapeMeaning at hm
      repeat' split at hm
      all_goals first | (cases hm; done) | skip
      all_goals simp only [Option.some.injEq] at hm
      all_goals subst hm
      all_goals first | (exact .inr rfl) | (exact absurd hc (by decide))
    · rcases ih h with h | h <;> simp [h]
  | case3 d s hm ih =>
    simp only [List.mem_cons] at h ⊢
    rcases h with rfl | h
    · simp
    · rcases ih h with h | h
      · simp only [List.mem_cons] at h
        rcases h with h | h <;> simp [h]
      · simp [h]
  | case4 d s hd ih =>
    simp only [List.mem_cons] at h ⊢
    rcases h with rfl | h
    · simp
    · rcases ih h with h | h <;> simp [h]

theorem readText_escaped (s : Str) : readText (s.flatMap escaped) = s := by
  have : s.flatMap escaped = escapeText s := by
    rw [escapeText_eq]
    exact congrArg (fun f => s.flatMap f) (funext escaped_eq)
  rw [this, escape_conforming]

theorem rawText_control {p : Property} (h : Clean p) : ∀ c ∈ rawText p, ¬ ControlChar c := by
  intro c hc hctl
  unfold rawText at hc
  split at hc
  · obtain ⟨d, hd, hc⟩ := List.mem_flatMap.1 hc
    unfold escaped at hc
    split at hc
    · simp only [List.mem_cons, List.not_mem_nil, or_false] at hc
      rcases hc with rfl | rfl <;> exact absurd hctl (by decide)
    · rename_i hn
      split at hc
      · simp only [List.mem_cons, List.not_mem_nil, or_false] at hc
        rcases hc with rfl | rfl
        · exact absurd hctl (by decide)
        · exact hn (h.value _ hd hctl).2
      · simp only [List.mem_cons, List.not_mem_nil, or_false] at hc
        subst hc
        exact hn (h.value _ hd hctl).2
  · rename_i ht
    exact ht (h.value _ hc hctl).1

theorem says_value {p : Property} : if IsText p then readText (rawText p) = p.val else rawText p = p.val := by
  unfold rawText
  split
  · exact readText_escaped p.val
  · rfl

/-! ### What can be said is clean -/

theorem strictParams_mem {l : List (Str × List Str)} {t : Str} (h : StrictParams l t) :
    ∀ x ∈ l, RfcName x.1 ∧ ∃ a, StrictValues x.2 a := by
  induction l generalizing t with
  | nil => simp
  | cons y l ih =>
    obtain ⟨k, vs⟩ := y
    obtain ⟨a, b, h1, h2, h3, rfl⟩ := h
    intro x hx
    rcases List.mem_cons.1 hx with rfl | hx
    · exact ⟨h1, a, h2⟩
    · exact ih h3 x hx

theorem says_clean {x : Said} {p : Property} {l : Str} (hs : Says x p) (hl : StrictLine x l) : Clean p := by
  obtain ⟨h1, ⟨params, hp, h2⟩, h3⟩ := hs
  obtain ⟨ps, h4, h5, h6, -⟩ := hl
  refine ⟨h1 ▸ h4, fun kv hkv => ?_, fun c hc hctl => ?_⟩
  · obtain ⟨h7, a, h8⟩ := strictParams_mem h5 (kv.1, [kv.2])
      (by rw [h2]; exact List.mem_map.2 ⟨kv, hp.mem_iff.2 hkv, rfl⟩)
    refine ⟨h7, fun c hc => ?_⟩
    rcases h8 with ⟨-, h8⟩ | ⟨-, h8⟩
    · exact (safe_ne (h8 c hc)).1
    · exact h8 c hc
  · split at h3
    · rename_i ht
      rw [← h3] at hc
      rcases readText_control hctl hc with h | h
      · exact absurd hctl (h6 c h)
      · exact ⟨ht, h⟩
    · rw [← h3] at hc
      exact absurd hctl (h6 c hc)

/-! ### Content lines -/

theorem forms_noCr {l : List (Str × Str)} {fs : List Str} (h : ParamForms l fs)
    (hc : ∀ kv ∈ l, RfcName kv.1 ∧ (∀ c ∈ kv.2, QSafeChar c)) : '\r' ∉ fs.flatten := by
  induction l generalizing fs with
  | nil =>
    cases fs with
    | nil => simp
    | cons => exact h.elim
  | cons kv l ih =>
    cases fs with
    | nil => exact h.elim
    | cons f fs =>
      obtain ⟨h1, h2⟩ := h
      have h3 := ih h2 (fun y hy => hc y (by simp [hy]))
      obtain ⟨h4, h5⟩ := hc kv (by simp)
      have h6 := name_noCr h4
      have h7 : '\r' ∉ kv.2 := fun hm => (h5 _ hm).1 control_cr
      unfold ParamForm at h1
      subst h1
      split <;> simp_all

theorem contentLine_noCr {p : Property} (hp : Clean p) {line : Str} (h : ContentLine p line) : '\r' ∉ line := by
  obtain ⟨params, forms, h1, h2, rfl⟩ := h
  have h3 := forms_noCr h2 (fun kv hkv => hp.params kv (h1.mem_iff.1 hkv))
  have h4 := name_noCr hp.name
  have h5 : '\r' ∉ rawText p := fun hc => rawText_control hp _ hc control_cr
  simp_all

/-- a value of a parameter as it is written, read as its only value -/
theorem strict_form {v : Str} (h1 : ∀ c ∈ v, QSafeChar c) (h2 : ',' ∈ v → ':' ∈ v ∨ ';' ∈ v) :
    StrictValue v (if ':' ∈ v ∨ ';' ∈ v then '"' :: v ++ ['"'] else v) := by
  split
  · exact .inr ⟨rfl, h1⟩
  · rename_i h
    refine .inl ⟨rfl, fun c hc => ⟨(h1 c hc).1, (h1 c hc).2, ?_, ?_, ?_⟩⟩
    · rintro rfl; exact h (.inr hc)
    · rintro rfl; exact h (.inl hc)
    · rintro rfl; exact h (h2 hc)

theorem strict_forms {l : List (Str × Str)} {fs : List Str} (h : ParamForms l fs)
    (hc : ∀ kv ∈ l, RfcName kv.1 ∧ (∀ c ∈ kv.2, QSafeChar c) ∧ (',' ∈ kv.2 → ':' ∈ kv.2 ∨ ';' ∈ kv.2)) :
    StrictParams (l.map (fun kv => (kv.1, [kv.2]))) fs.flatten := by
  induction l generalizing fs with
  | nil =>
    cases fs with
    | nil => rfl
    | cons => exact h.elim
  | cons kv l ih =>
    cases fs with
    | nil => exact h.elim
    | cons f fs =>
      obtain ⟨h1, h2⟩ := h
      obtain ⟨h4, h5, h6⟩ := hc kv (by simp)
      exact ⟨_, _, h4, strict_form h5 h6, ih h2 (fun y hy => hc y (by simp [hy])), by
        unfold ParamForm at h1; subst h1; simp⟩

/-- the content line of such a property says what it is -/
theorem says_contentLine {p : Property} (hp : Sayable p) {line : Str} (h : ContentLine p line) :
    ∃ x, StrictLine x line ∧ Says x p := by
  obtain ⟨params, forms, h1, h2, rfl⟩ := h
  refine ⟨⟨p.key, params.map (fun kv => (kv.1, [kv.2])), rawText p⟩, ⟨_, hp.name,
    strict_forms h2 (fun kv hkv => hp.params kv (h1.mem_iff.1 hkv)), rawText_control hp.clean, rfl⟩, rfl,
    ⟨params, h1, rfl⟩, says_value⟩

theorem forms_ended {l : List (Str × Str)} {fs : List Str} (h : ParamForms l fs) (v : Str) :
    Ended (fs.flatten ++ ':' :: v) := by
  cases l with
  | nil =>
    cases fs with
    | nil => exact ⟨':', v, rfl, .inr rfl⟩
    | cons => exact h.elim
  | cons kv l =>
    cases fs with
    | nil => exact h.elim
    | cons f fs =>
      obtain ⟨h1, -⟩ := h
      unfold ParamForm at h1
      subst h1
      exact ⟨';', _, rfl, .inl rfl⟩

/-- a value that is written and read as a value is not written without quotes if it has a comma -/
theorem form_comma {v u t r s : Str} (hv : ∀ c ∈ v, QSafeChar c) (hu : StrictValue u t) (hr : Ended r) (hs : Ended s)
    (h : (if ':' ∈ v ∨ ';' ∈ v then '"' :: v ++ ['"'] else v) ++ r = t ++ s) :
    (',' ∈ v → ':' ∈ v ∨ ';' ∈ v) ∧ r = s := by
  split at h
  · rename_i hq
    refine ⟨fun _ => hq, ?_⟩
    exact (value_unique (v := v) (.inr ⟨rfl, hv⟩) hu hr.delimited hs.delimited h).2
  · rename_i hq
    rcases hu with ⟨rfl, hu⟩ | ⟨rfl, hu⟩
    · have hend : ∀ {z : Str}, Ended z → Stops (fun c => c ≠ ':' ∧ c ≠ ';') z := by
        rintro z ⟨c, z, rfl, hz⟩ d hd
        simp only [List.head?_cons, Option.mem_def, Option.some.injEq] at hd
        subst hd
        rcases hz with rfl | rfl <;> simp
      obtain ⟨e1, e2⟩ := cut_unique (P := fun c => c ≠ ':' ∧ c ≠ ';')
        (fun c hc => ⟨fun e => hq (.inl (e ▸ hc)), fun e => hq (.inr (e ▸ hc))⟩)
        (fun c hc => ⟨(hu c hc).2.2.2.1, (hu c hc).2.2.1⟩) (hend hr) (hend hs) h
      exact ⟨fun hc => absurd rfl (hu ',' (e1 ▸ hc)).2.2.2.2, e2⟩
    · cases v with
      | nil => exact absurd h (fun h => hr.delimited.no_quote h)
      | cons c v =>
        simp only [List.cons_append, List.cons.injEq] at h
        exact absurd h.1 (hv c (by simp)).2

theorem forms_comma {l m : List (Str × Str)} {fs : List Str} {t v w : Str} (hf : ParamForms l fs)
    (hl : ∀ kv ∈ l, RfcName kv.1 ∧ (∀ c ∈ kv.2, QSafeChar c))
    (hm : StrictParams (m.map (fun kv => (kv.1, [kv.2]))) t) (h : fs.flatten ++ ':' :: v = t ++ ':' :: w) :
    ∀ kv ∈ l, ',' ∈ kv.2 → ':' ∈ kv.2 ∨ ';' ∈ kv.2 := by
  induction l generalizing m fs t with
  | nil => simp
  | cons kv l ih =>
    cases fs with
    | nil => exact hf.elim
    | cons f fs =>
      obtain ⟨h1, h2⟩ := hf
      unfold ParamForm at h1
      subst h1
      obtain ⟨h4, h5⟩ := hl kv (by simp)
      cases m with
      | nil =>
        have ht : t = [] := hm
        subst ht
        simp at h
      | cons y m =>
        obtain ⟨a, b, h6, h7, h8, rfl⟩ := hm
        simp only [List.flatten_cons, List.cons_append, List.append_assoc, List.cons.injEq, true_and] at h
        obtain ⟨e1, h'⟩ := cut_unique (P := nameChar) h4.2 h6.2 (stops_name (by simp)) (stops_name (by simp)) h
        simp only [List.cons.injEq, true_and] at h'
        obtain ⟨e2, e3⟩ := form_comma h5 h7 (forms_ended h2 v) (params_ended h8) h'
        intro z hz
        rcases List.mem_cons.1 hz with rfl | hz
        · exact e2
        · exact ih h2 (fun y hy => hl y (by simp [hy])) h8 e3 z hz

/-- what a content line can be taken for a property is such a property -/
theorem contentLine_sayable {p : Property} {x : Said} {line : Str} (h : ContentLine p line) (hx : StrictLine x line)
    (hs : Says x p) : Sayable p := by
  have hc := says_clean hs hx
  obtain ⟨h1, ⟨params, hp, h2⟩, -⟩ := hs
  obtain ⟨qs, fs, h3, h4, rfl⟩ := h
  obtain ⟨ps, h5, h6, -, h7⟩ := hx
  simp only [List.append_assoc] at h7
  obtain ⟨-, h8⟩ := cut_unique (P := nameChar) hc.name.2 h5.2 (forms_ended h4 _).stops_name (params_ended h6).stops_name h7
  rw [h2] at h6
  have := forms_comma h4 (fun kv hkv => hc.params kv (h3.mem_iff.1 hkv)) h6 h8
  exact ⟨hc.name, fun kv hkv => ⟨(hc.params kv hkv).1, (hc.params kv hkv).2, this kv (h3.mem_iff.2 hkv)⟩, hc.value⟩

/-! ### Unfolding -/

/-- a text that does not start with a space or tab -/
def Unindented (t : Str) : Prop := ∀ c ∈ t.head?, c ≠ ' ' ∧ c ≠ '\t'

theorem unfoldRfc_cons {c : Char} (h : c ≠ '\r') (s : Str) : unfoldRfc (c :: s) = c :: unfoldRfc s := by
  rw [unfoldRfc.eq_4]
  · intro s' hc; exact absurd hc h
  · intro s' hc; exact absurd hc h

theorem unfoldRfc_append {l : Str} (h : '\r' ∉ l) (s : Str) : unfoldRfc (l ++ s) = l ++ unfoldRfc s := by
  induction l with
  | nil => rfl
  | cons c l ih =>
    simp only [List.mem_cons, not_or] at h
    rw [List.cons_append, unfoldRfc_cons (Ne.symm h.1), ih h.2, List.cons_append]

theorem unfoldRfc_crlf {rest : Str} (h : Unindented rest) :
    unfoldRfc ('\r' :: '\n' :: rest) = '\r' :: '\n' :: unfoldRfc rest := by
  rw [unfoldRfc.eq_4, unfoldRfc_cons (by decide)]
  · rintro s - hs
    cases hs
    exact (h ' ' (by simp)).1 rfl
  · rintro s - hs
    cases hs
    exact (h '\t' (by simp)).2 rfl

theorem unfoldRfc_line {l rest : Str} (hl : '\r' ∉ l) (h : Unindented rest) :
    unfoldRfc (l ++ ['\r', '\n'] ++ rest) = l ++ ['\r', '\n'] ++ unfoldRfc rest := by
  simp only [List.append_assoc, List.cons_append, List.nil_append]
  rw [unfoldRfc_append hl, unfoldRfc_crlf h]

theorem unfoldRfc_fold {ps : List Str} (h : '\r' ∉ ps.flatten) {rest : Str} (hr : Unindented rest) :
    unfoldRfc (joinFold ps ++ ['\r', '\n'] ++ rest) = ps.flatten ++ ['\r', '\n'] ++ unfoldRfc rest := by
  induction ps with
  | nil => exact unfoldRfc_line (l := []) (by simp) hr
  | cons p ps ih =>
    simp only [List.flatten_cons, List.mem_append, not_or] at h
    cases ps with
    | nil => simpa [joinFold] using unfoldRfc_line h.1 hr
    | cons q ps =>
      rw [joinFold]
      simp only [List.append_assoc, List.cons_append, List.nil_append] at ih ⊢
      rw [unfoldRfc_append h.1, unfoldRfc.eq_2, ih h.2]
      simp

theorem name_unindented {k s : Str} (h : RfcName k) : Unindented (k ++ s) := by
  cases k with
  | nil => exact absurd rfl h.1
  | cons c k =>
    intro d hd
    simp only [List.cons_append, List.head?_cons, Option.mem_def, Option.some.injEq] at hd
    subst hd
    have := nameChar_ne (h.2 c (by simp))
    exact ⟨this.2.2.2.2.2.1, this.2.2.2.2.2.2⟩

/-- the pieces of a folded line start as the line does, unless the first is empty -/
theorem joinFold_head {c : Char} {s q : Str} {qs : List Str} (h : c :: s = (q :: qs).flatten) (t : Str) :
    Unindented (joinFold (q :: qs) ++ ['\r', '\n'] ++ t) ∨ (c = ' ' ∨ c = '\t') := by
  cases q with
  | nil =>
    left
    cases qs <;> simp [joinFold, Unindented]
  | cons d q =>
    simp only [List.flatten_cons, List.cons_append, List.cons.injEq] at h
    obtain ⟨rfl, -⟩ := h
    by_cases h1 : c = ' '
    · exact .inr (.inl h1)
    · by_cases h2 : c = '\t'
      · exact .inr (.inr h2)
      · left
        cases qs <;> simp [joinFold, Unindented, h1, h2]

/-- a text that is one content line, folded -/
def OneFolded (t line : Str) : Prop :=
  '\r' ∉ line ∧ ∀ rest, Unindented rest →
    Unindented (t ++ rest) ∧ unfoldRfc (t ++ rest) = line ++ ['\r', '\n'] ++ unfoldRfc rest

theorem propertyText_unfold {p : Property} (hp : Clean p) {t : Str} (h : PropertyText p t) :
    ∃ line, ContentLine p line ∧ OneFolded t line := by
  obtain ⟨line, q, qs, h1, h2, -, rfl⟩ := h
  have h3 := contentLine_noCr hp h1
  refine ⟨line, h1, h3, fun rest hr => ⟨?_, ?_⟩⟩
  · obtain ⟨params, forms, -, -, h4⟩ := h1
    have hk := hp.name
    cases hkey : p.key with
    | nil => exact absurd hkey hk.1
    | cons c k =>
      rw [hkey] at h4 hk
      have := nameChar_ne (hk.2 c (by simp))
      rcases joinFold_head (c := c) (s := k ++ forms.flatten ++ ':' :: rawText p) (by rw [← h2, h4]; simp) rest with h | h | h
      · exact h
      · exact absurd h this.2.2.2.2.2.1
      · exact absurd h this.2.2.2.2.2.2
  · rw [unfoldRfc_fold (by rw [← h2]; exact h3) hr, ← h2]

theorem bare_unfold {k v : Str} (hk : RfcName k) (hv : '\r' ∉ v) :
    OneFolded (k ++ [':'] ++ v ++ ['\r', '\n']) (k ++ [':'] ++ v) := by
  have h1 : '\r' ∉ k ++ [':'] ++ v := by have := name_noCr hk; simp_all
  exact ⟨h1, fun rest hr => ⟨by simpa using name_unindented (s := ':' :: (v ++ '\r' :: '\n' :: rest)) hk,
    unfoldRfc_line h1 hr⟩⟩

theorem bare_strict {k v : Str} (hk : RfcName k) (hv : ∀ c ∈ v, ¬ ControlChar c) :
    StrictLine (plainSaid k v) (k ++ [':'] ++ v) :=
  ⟨[], hk, rfl, hv, by simp [plainSaid]⟩

/-! ### From texts to lines and back -/

/-- the text is made of lines that say `xs`, whatever follows -/
def Recovered (t : Str) (xs : List Said) : Prop :=
  ∀ rest ys, Unindented rest → Unindented (t ++ rest) ∧
    (StrictLines ys (unfoldRfc rest) → StrictLines (xs ++ ys) (unfoldRfc (t ++ rest)))

/-- whatever is taken from the text as `xs` implies `C` -/
def Peels (t : Str) (xs : List Said) (C : Prop) : Prop :=
  ∀ rest ys, Unindented rest → Unindented (t ++ rest) ∧
    (StrictLines (xs ++ ys) (unfoldRfc (t ++ rest)) → C ∧ StrictLines ys (unfoldRfc rest))

theorem Recovered.nil : Recovered [] [] := fun _ _ hr => ⟨hr, id⟩

theorem Recovered.append {t u : Str} {xs ys : List Said} (h1 : Recovered t xs) (h2 : Recovered u ys) :
    Recovered (t ++ u) (xs ++ ys) := by
  intro rest zs hr
  obtain ⟨h3, h4⟩ := h2 rest zs hr
  obtain ⟨h5, h6⟩ := h1 (u ++ rest) (ys ++ zs) h3
  simp only [List.append_assoc]
  exact ⟨h5, fun h => h6 (h4 h)⟩

theorem Recovered.one {t line : Str} {x : Said} (h : OneFolded t line) (hx : StrictLine x line) : Recovered t [x] := by
  intro rest ys hr
  obtain ⟨h1, h2⟩ := h.2 rest hr
  exact ⟨h1, fun h => ⟨line, _, hx, h, h2⟩⟩

theorem Recovered.text {t : Str} {xs : List Said} (h : Recovered t xs) : StrictText xs t := by
  have := (h [] [] (by simp [Unindented])).2 rfl
  simpa [StrictText] using this

theorem Peels.nil : Peels [] [] True := fun _ _ hr => ⟨hr, fun h => ⟨trivial, h⟩⟩

theorem Peels.append {t u : Str} {xs ys : List Said} {C D : Prop} (h1 : Peels t xs C) (h2 : Peels u ys D) :
    Peels (t ++ u) (xs ++ ys) (C ∧ D) := by
  intro rest zs hr
  obtain ⟨h3, h4⟩ := h2 rest zs hr
  obtain ⟨h5, h6⟩ := h1 (u ++ rest) (ys ++ zs) h3
  simp only [List.append_assoc]
  refine ⟨h5, fun h => ?_⟩
  obtain ⟨h7, h8⟩ := h6 h
  obtain ⟨h9, h10⟩ := h4 h8
  exact ⟨⟨h7, h9⟩, h10⟩

theorem Peels.one {t line : Str} (h : OneFolded t line) (x : Said) : Peels t [x] (StrictLine x line) := by
  intro rest ys hr
  obtain ⟨h1, h2⟩ := h.2 rest hr
  refine ⟨h1, fun h' => ?_⟩
  rw [h2] at h'
  exact strictLines_peel h.1 h'

theorem Peels.imp {t : Str} {xs : List Said} {C D : Prop} (h : Peels t xs C) (hi : C → D) : Peels t xs D := by
  intro rest ys hr
  obtain ⟨h1, h2⟩ := h rest ys hr
  exact ⟨h1, fun h => ⟨hi (h2 h).1, (h2 h).2⟩⟩

theorem Peels.text {t : Str} {xs : List Said} {C : Prop} (h : Peels t xs C) (hs : StrictText xs t) : C := by
  refine ((h [] [] (by simp [Unindented])).2 ?_).1
  simpa [StrictText] using hs

/-! ### Lists of properties -/

theorem properties_recovered {l : List Property} {t : Str} (h : PropertiesText l t) (hl : ∀ p ∈ l, Sayable p) :
    ∃ xs, SayAll xs l ∧ Recovered t xs := by
  induction l generalizing t with
  | nil => subst h; exact ⟨[], trivial, .nil⟩
  | cons p l ih =>
    obtain ⟨a, b, h1, h2, rfl⟩ := h
    have hp := hl p (by simp)
    obtain ⟨line, h3, h4⟩ := propertyText_unfold hp.clean h1
    obtain ⟨x, h5, h6⟩ := says_contentLine hp h3
    obtain ⟨xs, h7, h8⟩ := ih h2 (fun q hq => hl q (by simp [hq]))
    exact ⟨x :: xs, ⟨h6, h7⟩, (Recovered.one h4 h5).append h8⟩

theorem properties_peel {l : List Property} {t : Str} {xs : List Said} (h : PropertiesText l t) (hs : SayAll xs l)
    (hc : ∀ p ∈ l, Clean p) : Peels t xs (∀ p ∈ l, Sayable p) := by
  induction l generalizing t xs with
  | nil =>
    cases xs with
    | nil => subst h; exact Peels.nil.imp (by simp)
    | cons => exact hs.elim
  | cons p l ih =>
    cases xs with
    | nil => exact hs.elim
    | cons x xs =>
      obtain ⟨a, b, h1, h2, rfl⟩ := h
      obtain ⟨line, h3, h4⟩ := propertyText_unfold (hc p (by simp)) h1
      refine ((Peels.one h4 x).append (ih h2 hs.2 (fun q hq => hc q (by simp [hq])))).imp ?_
      rintro ⟨h5, h6⟩ q hq
      rcases List.mem_cons.1 hq with rfl | hq
      · exact contentLine_sayable h3 h5 hs.1
      · exact h6 q hq

/-- every line is one -/
def AllStrict (xs : List Said) : Prop := ∀ x ∈ xs, ∃ l, StrictLine x l

theorem strictLines_all {xs : List Said} {t : Str} (h : StrictLines xs t) : AllStrict xs := by
  induction xs generalizing t with
  | nil => simp [AllStrict]
  | cons x xs ih =>
    obtain ⟨a, b, h1, h2, -⟩ := h
    intro y hy
    rcases List.mem_cons.1 hy with rfl | hy
    · exact ⟨a, h1⟩
    · exact ih h2 y hy

theorem sayAll_clean {l : List Property} {xs : List Said} (hs : SayAll xs l) (h : AllStrict xs) : ∀ p ∈ l, Clean p := by
  induction l generalizing xs with
  | nil => simp
  | cons p l ih =>
    cases xs with
    | nil => exact hs.elim
    | cons x xs =>
      intro q hq
      rcases List.mem_cons.1 hq with rfl | hq
      · obtain ⟨l, hl⟩ := h x (by simp)
        exact says_clean hs.1 hl
      · exact ih hs.2 (fun y hy => h y (by simp [hy])) q hq

/-! ### Generated lines -/

/-- values without control characters -/
def Harmless (G : Str → Prop) : Prop := ∀ v, G v → ∀ c ∈ v, ¬ ControlChar c

theorem harmless_stamp : Harmless (fun v => ∃ t : UtcDateTime, t.naive.Valid ∧ v = fmtUtc t) := by
  rintro v ⟨t, -, rfl⟩ c hc hctl
  rcases fmtUtc_chars t c hc with h | h
  · unfold ControlChar at hctl
    have h1 : 48 ≤ c.toNat := h.1
    have h2 : c.toNat ≤ 57 := h.2
    omega
  · revert hctl
    simp only [List.mem_cons, List.not_mem_nil, or_false] at h
    rcases h with rfl | rfl | rfl | rfl <;> decide

theorem harmless_uid : Harmless (fun v => ∀ c ∈ v, c ∈ c!"0123456789abcdef-") := by
  intro v hv c hc
  have := hv c hc
  simp only [List.mem_cons, List.not_mem_nil, or_false] at this
  rcases this with h | h | h | h | h | h | h | h | h | h | h | h | h | h | h | h | h <;> subst h <;> decide

theorem generated_recovered {k : Str} (hk : RfcName k) {props : BMap Property} {G : Str → Prop} (hG : Harmless G)
    {t : Str} (h : GeneratedText k props G t) : ∃ xs, SaysGenerated k props G xs ∧ Recovered t xs := by
  unfold GeneratedText at h
  unfold SaysGenerated
  split at h
  · rename_i heq
    subst h; exact ⟨[], by rw [heq], .nil⟩
  · rename_i heq
    obtain ⟨v, hv, rfl⟩ := h
    rw [heq]
    exact ⟨[plainSaid k v], ⟨v, hv, rfl⟩,
      .one (bare_unfold hk (fun hc => hG v hv _ hc control_cr)) (bare_strict hk (hG v hv))⟩

theorem generated_peel {k : Str} (hk : RfcName k) {props : BMap Property} {G : Str → Prop} (hG : Harmless G)
    {t : Str} (h : GeneratedText k props G t) {xs : List Said} (hx : SaysGenerated k props G xs) :
    Peels t xs True := by
  unfold GeneratedText at h
  unfold SaysGenerated at hx
  split at h
  · rename_i heq
    rw [heq] at hx
    subst h; subst hx
    exact .nil
  · rename_i heq
    rw [heq] at hx
    obtain ⟨v, hv, rfl⟩ := h
    obtain ⟨u, hu, rfl⟩ := hx
    exact (Peels.one (bare_unfold hk (fun hc => hG v hv _ hc control_cr)) _).imp (fun _ => trivial)

/-! ### Components -/

theorem rfcName_control {s : Str} (h : RfcName s) : ∀ c ∈ s, ¬ ControlChar c := by
  intro c hc hctl
  have := h.2 c hc
  unfold ControlChar at hctl
  rcases this with ⟨h1, h2⟩ | ⟨h1, h2⟩ | ⟨h1, h2⟩ | rfl
  · have h1 : 97 ≤ c.toNat := h1
    have h2 : c.toNat ≤ 122 := h2
    omega
  · have h1 : 65 ≤ c.toNat := h1
    have h2 : c.toNat ≤ 90 := h2
    omega
  · have h1 : 48 ≤ c.toNat := h1
    have h2 : c.toNat ≤ 57 := h2
    omega
  · revert hctl; decide

theorem keyword_unfold {k name : Str} (hk : RfcName k) (hn : RfcName name) :
    OneFolded (k ++ [':'] ++ name ++ ['\r', '\n']) (k ++ [':'] ++ name) := bare_unfold hk (name_noCr hn)

mutual
theorem component_recovered : ∀ (o : Other) {t : Str}, ComponentText o t → SayableOther o →
    ∃ xs, SayComponent o xs ∧ Recovered t xs
  | .mk name props multi comps, t, h, hs => by
    rw [ComponentText] at h
    rw [SayableOther] at hs
    obtain ⟨stamp, own, uid, repeated, subs, h1, h2, h3, h4, h5, rfl⟩ := h
    obtain ⟨s1, s2, s3, s4⟩ := hs
    obtain ⟨x1, a1, b1⟩ := generated_recovered (by decide) harmless_stamp h1
    obtain ⟨x2, a2, b2⟩ := properties_recovered h2 (by
      intro p hp; obtain ⟨y, hy, rfl⟩ := List.mem_map.1 hp; exact s2 y hy)
    obtain ⟨x3, a3, b3⟩ := generated_recovered (by decide) harmless_uid h3
    obtain ⟨x4, a4, b4⟩ := properties_recovered h4 (by
      intro p hp; obtain ⟨y, hy, hp⟩ := List.mem_flatMap.1 hp; exact s3 y hy p hp)
    obtain ⟨x5, a5, b5⟩ := components_recovered comps h5 s4
    have hb : Recovered (c!"BEGIN:" ++ name ++ c!"\r\n") [plainSaid c!"BEGIN" name] :=
      .one (keyword_unfold (k := c!"BEGIN") (by decide) s1) (bare_strict (by decide) (rfcName_control s1))
    have he : Recovered (c!"END:" ++ name ++ c!"\r\n") [plainSaid c!"END" name] :=
      .one (keyword_unfold (k := c!"END") (by decide) s1) (bare_strict (by decide) (rfcName_control s1))
    refine ⟨[plainSaid c!"BEGIN" name] ++ x1 ++ x2 ++ x3 ++ x4 ++ x5 ++ [plainSaid c!"END" name], ?_, cast ?_ ((((((hb.append b1).append b2).append b3).append b4).append b5).append he)⟩
    · rw [SayComponent]
      exact ⟨s1, x1, x2, x3, x4, x5, a1, a2, a3, a4, a5, rfl⟩
    · congr 1; simp
theorem components_recovered : ∀ (l : List Other) {t : Str}, ComponentsText l t → SayableOthers l →
    ∃ xs, SayComponents l xs ∧ Recovered t xs
  | [], t, h, _ => by
    rw [ComponentsText] at h
    subst h
    exact ⟨[], by rw [SayComponents], .nil⟩
  | o :: l, t, h, hs => by
    rw [ComponentsText] at h
    rw [SayableOthers] at hs
    obtain ⟨a, b, h1, h2, rfl⟩ := h
    obtain ⟨x1, a1, b1⟩ := component_recovered o h1 hs.1
    obtain ⟨x2, a2, b2⟩ := components_recovered l h2 hs.2
    exact ⟨x1 ++ x2, by rw [SayComponents]; exact ⟨x1, x2, a1, a2, rfl⟩, b1.append b2⟩
end

mutual
theorem component_peel : ∀ (o : Other) {t : Str} {xs : List Said}, ComponentText o t → SayComponent o xs →
    AllStrict xs → Peels t xs (SayableOther o)
  | .mk name props multi comps, t, xs, h, hs, hx => by
    rw [ComponentText] at h
    rw [SayComponent] at hs
    obtain ⟨stamp, own, uid, repeated, subs, h1, h2, h3, h4, h5, rfl⟩ := h
    obtain ⟨s1, x1, x2, x3, x4, x5, a1, a2, a3, a4, a5, rfl⟩ := hs
    have b1 := generated_peel (by decide) harmless_stamp h1 a1
    have b2 := properties_peel h2 a2 (sayAll_clean a2 (fun y hy => hx y (by simp [hy])))
    have b3 := generated_peel (by decide) harmless_uid h3 a3
    have b4 := properties_peel h4 a4 (sayAll_clean a4 (fun y hy => hx y (by simp [hy])))
    have b5 := components_peel comps h5 a5 (fun y hy => hx y (by simp [hy]))
    have hb : Peels (c!"BEGIN:" ++ name ++ c!"\r\n") [plainSaid c!"BEGIN" name] _ :=
      .one (keyword_unfold (k := c!"BEGIN") (by decide) s1) _
    have he : Peels (c!"END:" ++ name ++ c!"\r\n") [plainSaid c!"END" name] _ :=
      .one (keyword_unfold (k := c!"END") (by decide) s1) _
    refine cast ?_ (((((((hb.append b1).append b2).append b3).append b4).append b5).append he).imp
      (D := SayableOther (.mk name props multi comps)) ?_)
    · congr 1; simp
    · rintro ⟨⟨⟨⟨⟨⟨-, -⟩, c2⟩, -⟩, c4⟩, c5⟩, -⟩
      rw [SayableOther]
      exact ⟨s1, fun y hy => c2 _ (List.mem_map.2 ⟨y, hy, rfl⟩), fun y hy p hp => c4 p (List.mem_flatMap.2 ⟨y, hy, hp⟩), c5⟩
theorem components_peel : ∀ (l : List Other) {t : Str} {xs : List Said}, ComponentsText l t → SayComponents l xs →
    AllStrict xs → Peels t xs (SayableOthers l)
  | [], t, xs, h, hs, _ => by
    rw [ComponentsText] at h
    rw [SayComponents] at hs
    subst h; subst hs
    exact Peels.nil.imp (fun _ => by rw [SayableOthers]; trivial)
  | o :: l, t, xs, h, hs, hx => by
    rw [ComponentsText] at h
    rw [SayComponents] at hs
    obtain ⟨a, b, h1, h2, rfl⟩ := h
    obtain ⟨x1, x2, a1, a2, rfl⟩ := hs
    have b1 := component_peel o h1 a1 (fun y hy => hx y (by simp [hy]))
    have b2 := components_peel l h2 a2 (fun y hy => hx y (by simp [hy]))
    exact (b1.append b2).imp (fun h => by rw [SayableOthers]; exact h)
end

/-! ### C110 -/

/-- **C110.** A text is a sequence of content lines in at most one way: readers that follow RFC 5545 agree. -/
theorem strict_unique (xs ys : List Said) (t : Str) (hx : StrictText xs t) (hy : StrictText ys t) : xs = ys :=
  lines_unique hx hy

section
variable [Uni]

/-- **C110.** A reader that follows RFC 5545 recovers a property from what is written for it exactly if it is made of
characters RFC 5545 has a place for. -/
theorem strict_property_iff (p : Property) (w : World) (hw : World.Ok w) (out : Str) (h : p.fmtWrite w = .ok out) :
    (∃ x, StrictText [x] out ∧ Says x p) ↔ Sayable p := by
  have ht := written_property p w hw out h
  constructor
  · rintro ⟨x, hx, hs⟩
    obtain ⟨l, hl⟩ := strictLines_all hx x (by simp)
    obtain ⟨line, h3, h4⟩ := propertyText_unfold (says_clean hs hl) ht
    exact contentLine_sayable h3 ((Peels.one h4 x).text hx) hs
  · intro hp
    obtain ⟨line, h3, h4⟩ := propertyText_unfold hp.clean ht
    obtain ⟨x, h5, h6⟩ := says_contentLine hp h3
    exact ⟨x, (Recovered.one h4 h5).text, h6⟩

/-- **C110.** It recovers a component exactly if its name is one and all its properties, at any depth, are made of
these. -/
theorem strict_component_iff {C : Type} [Component C] (c : C) (w : World) (hw : World.Ok w) (out : Str)
    (h : Component.fmtWrite c w = .ok out) :
    (∃ xs, StrictText xs out ∧ SayComponent (Component.toOther c) xs) ↔ SayableOther (Component.toOther c) := by
  have ht := written_component c w hw out h
  constructor
  · rintro ⟨xs, hx, hs⟩
    exact (component_peel _ ht hs (strictLines_all hx)).text hx
  · intro hp
    obtain ⟨xs, h1, h2⟩ := component_recovered _ ht hp
    exact ⟨xs, h2.text, h1⟩

/-- **C110.** It recovers a calendar exactly if all its properties, at any depth, are made of these. -/
theorem strict_calendar_iff (c : Calendar) (w : World) (hw : World.Ok w) (out : Str) (h : c.fmtWrite w = .ok out) :
    (∃ xs, StrictText xs out ∧ SayCalendar c xs) ↔
      (∀ p ∈ c.props, Sayable p) ∧ SayableOthers (c.comps.map CalComp.toOther) := by
  obtain ⟨own, comps, h1, h2, rfl⟩ := written_calendar c w hw out h
  have hv : RfcName c!"VCALENDAR" := by decide
  have ub := keyword_unfold (k := c!"BEGIN") (by decide) hv
  have ue := keyword_unfold (k := c!"END") (by decide) hv
  constructor
  · rintro ⟨xs, hx, x1, x2, a1, a2, rfl⟩
    have hall := strictLines_all hx
    have b1 := properties_peel h1 a1 (sayAll_clean a1 (fun y hy => hall y (by simp [hy])))
    have b2 := components_peel _ h2 a2 (fun y hy => hall y (by simp [hy]))
    obtain ⟨⟨⟨-, c1⟩, c2⟩, -⟩ := ((((Peels.one ub _).append b1).append b2).append (Peels.one ue _)).text hx
    exact ⟨c1, c2⟩
  · rintro ⟨c1, c2⟩
    obtain ⟨x1, a1, b1⟩ := properties_recovered h1 c1
    obtain ⟨x2, a2, b2⟩ := components_recovered _ h2 c2
    have hb := Recovered.one ub (bare_strict (k := c!"BEGIN") (by decide) (rfcName_control hv))
    have he := Recovered.one ue (bare_strict (k := c!"END") (by decide) (rfcName_control hv))
    exact ⟨_, (((hb.append b1).append b2).append he).text, x1, x2, a1, a2, rfl⟩

end

/-! ### Examples -/

/- a TEXT with a line feed and a parameter whose value needs quotes: recovered -/
private def p1 : Property := ⟨c!"SUMMARY", c!"a\\b;\nc\"", [(c!"ALTREP", c!"cid:x,y"), (c!"X-Q", c!"")]⟩

example : Sayable p1 := ⟨by decide, by decide +kernel, by decide +kernel⟩
example : @Property.fmtWrite Uni.ascii p1 ⟨fun _ => ⟨⟨⟨2026, 1, 1⟩, 0, 0, 0, 0⟩⟩, fun _ => [], fun _ l => l⟩ =
    .ok c!"SUMMARY;ALTREP=\"cid:x,y\";X-Q=:a\\\\b\\;\\Nc\"\r\n" := by decide +kernel
example : StrictText [⟨c!"SUMMARY", [(c!"ALTREP", [c!"cid:x,y"]), (c!"X-Q", [[]])], c!"a\\\\b\\;\\Nc\""⟩]
    c!"SUMMARY;ALTREP=\"cid:x,y\";X-Q=:a\\\\b\\;\\Nc\"\r\n" := by
  refine ⟨c!"SUMMARY;ALTREP=\"cid:x,y\";X-Q=:a\\\\b\\;\\Nc\"", [], ⟨c!";ALTREP=\"cid:x,y\";X-Q=", by decide,
    ⟨c!"\"cid:x,y\"", c!";X-Q=", by decide, .inr ⟨rfl, by decide +kernel⟩,
      ⟨[], [], by decide, .inl ⟨rfl, by decide⟩, rfl, by decide +kernel⟩, by decide +kernel⟩, by decide +kernel,
    by decide +kernel⟩, rfl, by decide +kernel⟩

/- a comma without colon or semicolon is written without quotes and read as a list of two values -/
private def p2 : Property := ⟨c!"ATTENDEE", c!"mailto:j@x", [(c!"CN", c!"Doe, John")]⟩

example : ¬ Sayable p2 := fun h => by
  have := (h.params (c!"CN", c!"Doe, John") (by decide +kernel)).2.2 (by decide +kernel)
  revert this
  decide +kernel
example : StrictText [⟨c!"ATTENDEE", [(c!"CN", [c!"Doe", c!" John"])], c!"mailto:j@x"⟩]
    c!"ATTENDEE;CN=Doe, John:mailto:j@x\r\n" := by
  refine ⟨c!"ATTENDEE;CN=Doe, John:mailto:j@x", [], ⟨c!";CN=Doe, John", by decide,
    ⟨c!"Doe, John", [], by decide, ⟨c!"Doe", c!" John", .inl ⟨rfl, by decide +kernel⟩, .inl ⟨rfl, by decide +kernel⟩,
      by decide +kernel⟩, rfl, by decide +kernel⟩, by decide +kernel, by decide +kernel⟩, rfl, by decide +kernel⟩

/- a quote in a parameter, a control character in a value, a space in a name -/
example : ¬ Sayable ⟨c!"SUMMARY", c!"a", [(c!"X", c!"\"")]⟩ := fun h => by
  have := (h.params (c!"X", c!"\"") (by decide +kernel)).2.1 '"' (by decide +kernel)
  revert this
  decide
example : ¬ Sayable ⟨c!"SUMMARY", c!"a\r", []⟩ := fun h => by
  have := (h.value '\r' (by decide +kernel) (by decide)).2
  revert this
  decide
example : ¬ Sayable ⟨c!"MY NAME", c!"a", []⟩ := fun h => absurd h.name (by decide)

/- a calendar with an event in which an alarm is nested -/
private def o1 : Other :=
  .mk c!"VEVENT" [(c!"SUMMARY", p1)] [(c!"X", [⟨c!"X", c!"1", []⟩])] [.mk c!"VALARM" [] [] []]

example : SayableOther o1 := by
  unfold o1
  rw [SayableOther, SayableOthers, SayableOthers, SayableOther, SayableOthers]
  refine ⟨by decide, ?_, ?_, ⟨by decide, by simp, by simp, trivial⟩, trivial⟩
  · simp only [List.mem_singleton, forall_eq]
    exact ⟨by decide, by decide +kernel, by decide +kernel⟩
  · simp only [List.mem_singleton, forall_eq]
    exact ⟨by decide, by decide, by decide +kernel⟩

end Ical
