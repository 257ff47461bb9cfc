import Verif.Spec.Written
import Verif.Props.Acceptance
import Verif.Props.StrictDocs
import Verif.Props.OwnText
import Verif.Props.ParamLists

/-!
C81, C112: exactly which content lines and documents of RFC 5545 are read as what they are.
-/

namespace Ical

open Nom Spec

/-! ### Parameters -/

theorem listText_one (v : ListValue) : listText [v] = v.text := by simp [listText]

theorem listText_more (v u : ListValue) (l : List ListValue) : listText (v :: u :: l) = v.text ++ ',' :: listText (u :: l) := by
  simp [listText, List.intercalate_cons_cons]

theorem safe_rfc {v : ListValue} (h : ∀ c ∈ v.val, if v.quoted then QSafeChar c else SafeChar c) : v.Rfc := by
  refine ⟨fun hc => ?_, fun hq => ⟨fun hc => ?_, fun hc => ?_, fun hc => ?_⟩⟩
  · have := h _ hc
    split at this
    · exact this.2 rfl
    · exact this.2.1 rfl
  all_goals
    have := h _ hc
    rw [if_neg (by simp [hq])] at this
  · exact this.2.2.1 rfl
  · exact this.2.2.2.1 rfl
  · exact this.2.2.2.2 rfl

variable [Uni]

/-- the end of a parameter -/
def ParamEnd (R : Str) : Prop := ∃ c r, R = c :: r ∧ (c = ':' ∨ c = ';')

omit [Uni] in
theorem listText_noSep {vs : List ListValue} (h : ∀ u ∈ vs, ':' ∉ u.val ∧ ';' ∉ u.val) :
    ':' ∉ listText vs ∧ ';' ∉ listText vs := by
  constructor <;>
  · intro hc
    rcases mem_listText hc with hc | ⟨v, hv, hc⟩
    · cases hc
    · unfold ListValue.text at hc
      split at hc
      · simp at hc
        first | exact (h v hv).1 hc | exact (h v hv).2 hc
      · first | exact (h v hv).1 hc | exact (h v hv).2 hc

omit [Uni] in
theorem noSep_of_listText {vs : List ListValue} (h1 : ':' ∉ listText vs) (h2 : ';' ∉ listText vs) :
    ∀ u ∈ vs, ':' ∉ u.val ∧ ';' ∉ u.val := by
  induction vs with
  | nil => simp
  | cons v vs ih =>
    have hv : (':' ∈ v.val → ':' ∈ v.text) ∧ (';' ∈ v.val → ';' ∈ v.text) := by
      unfold ListValue.text
      split <;> simp
    cases vs with
    | nil =>
      rw [listText_one] at h1 h2
      intro u hu
      simp at hu
      subst hu
      exact ⟨fun h => h1 (hv.1 h), fun h => h2 (hv.2 h)⟩
    | cons w vs =>
      rw [listText_more] at h1 h2
      simp only [List.mem_append, List.mem_cons, not_or] at h1 h2
      intro u hu
      rcases List.mem_cons.1 hu with rfl | hu
      · exact ⟨fun h => h1.1 (hv.1 h), fun h => h2.1 (hv.2 h)⟩
      · exact ih h1.2.2 h2.2.2 u hu

omit [Uni] in
/-- no quoted text comes first -/
theorem no_quoted_first {vs : List ListValue} (hr : ∀ v ∈ vs, v.Rfc)
    (hv : ∀ v l, vs = v :: l → v.quoted = true → v.val = []) {R : Str} (hR : ParamEnd R) :
    ∀ w, w ≠ [] → '"' ∉ w → ¬ '"' :: w ++ ['"'] <+: listText vs ++ R := by
  rintro w hw hq ⟨s, hs⟩
  have step : ∀ (v : ListValue) (T : Str), v.Rfc → (v.quoted = true → v.val = []) →
      (∀ r, T ≠ '"' :: r) → '"' :: w ++ ['"'] ++ s ≠ v.text ++ T := by
    rintro ⟨q, v⟩ T h1 h2 h3 he
    cases q with
    | true =>
      have h2 : v = [] := h2 rfl
      subst h2
      simp only [ListValue.text, if_true, List.cons_append, List.nil_append, List.cons.injEq, true_and] at he
      cases w with
      | nil => exact hw rfl
      | cons c w =>
        injection he with he1 he2
        subst he1
        simp at hq
    | false =>
      have h1 : '"' ∉ v := h1.1
      simp only [ListValue.text, Bool.false_eq_true, if_false, List.cons_append] at he
      cases v with
      | nil => exact h3 _ (by simpa using he.symm)
      | cons c v =>
        injection he with he1 he2
        subst he1
        simp at h1
  match vs, hr, hv with
  | [], _, _ =>
    obtain ⟨c, r, rfl, hc⟩ := hR
    simp [listText] at hs
    rcases hc with rfl | rfl <;> simp at hs
  | [v], hr, hv =>
    obtain ⟨c, r, rfl, hc⟩ := hR
    rw [listText_one] at hs
    refine step v _ (hr v (by simp)) (hv v [] rfl) ?_ hs
    rintro r' he
    injection he with he1 he2
    rcases hc with rfl | rfl <;> cases he1
  | v :: u :: l, hr, hv =>
    rw [listText_more, List.append_assoc (v.text)] at hs
    refine step v _ (hr v (by simp)) (hv v _ rfl) ?_ hs
    rintro r' he
    simp at he

/-- a parameter of RFC 5545 that is kept is read -/
theorem kept_paramIs {p : ListParam} (hn : IsName p.key) (hr : ∀ v ∈ p.vals, v.Rfc) (hk : p.Kept) {R : Str}
    (hR : ParamEnd R) : ParamIs p.meaning p.text R := by
  obtain ⟨k, vs⟩ := p
  simp only at hn hr
  have heq : ¬ NameChar '=' := by rw [← isKeyChar_iff, isKeyChar_eq]; simp
  have hfirst : ∀ s : Str, First (fun c => c ≠ ' ' ∧ c ≠ '\t') (k ++ '=' :: s) := by
    intro s c hc
    cases k with
    | nil => simp at hc; subst hc; decide
    | cons d k =>
      simp at hc
      subst hc
      have := hn d (by simp)
      rw [← isKeyChar_iff] at this
      constructor
      · rintro rfl; rw [isKeyChar_sp] at this; cases this
      · rintro rfl; rw [isKeyChar_tab] at this; cases this
  have hend : First (fun c => c = ':' ∨ c = ';') R := by
    obtain ⟨c, r, rfl, hc⟩ := hR
    intro d hd
    simp at hd
    subst hd
    exact hc
  have none_case : listText vs = [] → ParamIs ⟨k, none⟩ (ListParam.text ⟨k, vs⟩) R := by
    intro h
    refine ⟨hn, [], ['='], by simp, by simp [ListParam.text, h], by simpa using hfirst _, ?_, .inr ⟨rfl, hend⟩⟩
    intro c hc; simp at hc; subst hc; exact heq
  have plain_case : listText vs ≠ [] → (∀ u ∈ vs, ':' ∉ u.val ∧ ';' ∉ u.val) →
      (∀ v l, vs = v :: l → v.quoted = true → v.val = []) →
      ParamIs ⟨k, some (listText vs)⟩ (ListParam.text ⟨k, vs⟩) R := by
    intro h1 h2 h3
    refine ⟨hn, [], '=' :: listText vs, by simp, by simp [ListParam.text], by simpa using hfirst _, ?_, h1, .inr ⟨rfl,
      (listText_noSep h2).1, (listText_noSep h2).2, hend, no_quoted_first hr h3 hR⟩⟩
    intro c hc; simp at hc; subst hc; exact heq
  match vs, hr, hk, none_case, plain_case with
  | [], _, _, none_case, _ =>
    have : ListParam.meaning ⟨k, []⟩ = ⟨k, none⟩ := by simp [ListParam.meaning, listText]
    rw [this]
    exact none_case rfl
  | [⟨true, v⟩], hr, hk, _, _ =>
    have hne : v ≠ [] := hk rfl
    have : ListParam.meaning ⟨k, [⟨true, v⟩]⟩ = ⟨k, some v⟩ := by simp [ListParam.meaning, hne]
    rw [this]
    have hq := (hr ⟨true, v⟩ (by simp)).1
    refine ⟨hn, [], '=' :: '"' :: v ++ ['"'], by simp, by simp [ListParam.text, listText, ListValue.text],
      by simpa using hfirst _, ?_, hne, .inl ⟨rfl, hq⟩⟩
    intro c hc; simp at hc; subst hc; exact heq
  | [⟨false, v⟩], hr, hk, none_case, plain_case =>
    have hl : listText [⟨false, v⟩] = v := by simp [listText, ListValue.text]
    rw [hl] at none_case plain_case
    by_cases hv : v = []
    · have : ListParam.meaning ⟨k, [⟨false, v⟩]⟩ = ⟨k, none⟩ := by simp [ListParam.meaning, hv]
      rw [this]
      exact none_case hv
    · have : ListParam.meaning ⟨k, [⟨false, v⟩]⟩ = ⟨k, some v⟩ := by simp [ListParam.meaning, hv]
      rw [this]
      refine plain_case hv ?_ ?_
      · intro u hu
        simp at hu
        subst hu
        have := (hr ⟨false, v⟩ (by simp)).2 rfl
        exact ⟨this.2.1, this.1⟩
      · intro v' l he
        injection he with he1 he2
        subst he1
        intro h; cases h
  | v :: u :: l, hr, hk, _, plain_case =>
    have hne : listText (v :: u :: l) ≠ [] := by rw [listText_more]; simp
    have : ListParam.meaning ⟨k, v :: u :: l⟩ = ⟨k, some (listText (v :: u :: l))⟩ := by
      simp [ListParam.meaning, hne]
    rw [this]
    obtain ⟨h1, h2⟩ : (v.quoted = true → v.val = []) ∧ ∀ x ∈ v :: u :: l, ':' ∉ x.val ∧ ';' ∉ x.val := hk
    refine plain_case hne h2 ?_
    intro v' l' he
    injection he with he1 he2
    subst he1
    exact h1

/-- a parameter that is read as it is written is kept -/
theorem paramIs_kept {p : ListParam} (hn : IsName p.key) (hr : ∀ v ∈ p.vals, v.Rfc) {a g R : Str}
    (h : ParamIs p.meaning a g) (he : a ++ g = p.text ++ R) (hR : ParamEnd R) : p.Kept := by
  obtain ⟨k, vs⟩ := p
  simp only at hn hr
  have hkey : (ListParam.meaning ⟨k, vs⟩).key = k := rfl
  obtain ⟨-, blanks, form, hb, rfl, h1, h2, h3⟩ := h
  rw [hkey] at he h1
  have heq : ¬ NameChar '=' := by rw [← isKeyChar_iff, isKeyChar_eq]; simp
  have hbl : blanks = [] := by
    cases blanks with
    | nil => rfl
    | cons x bl =>
      exfalso
      have hx := hb x (by simp)
      simp only [ListParam.text, List.cons_append, List.cons.injEq, true_and, List.append_assoc] at he
      cases k with
      | nil =>
        injection he with he1 he2
        subst he1
        rcases hx with hx | hx <;> cases hx
      | cons d k =>
        injection he with he1 he2
        subst he1
        have := hn x (by simp)
        rw [← isKeyChar_iff] at this
        rcases hx with rfl | rfl
        · rw [isKeyChar_sp] at this; cases this
        · rw [isKeyChar_tab] at this; cases this
  subst hbl
  have he' : form ++ g = '=' :: (listText vs ++ R) := by
    have : k ++ (form ++ g) = k ++ ('=' :: (listText vs ++ R)) := by
      simpa [ListParam.text] using he
    exact List.append_cancel_left this
  match vs, hr, h3, he' with
  | [], _, _, _ => exact trivial
  | [v], hr, h3, he' =>
    intro hq hv
    have hm : (ListParam.meaning ⟨k, [v]⟩).val = none := by simp [ListParam.meaning, hv]
    rw [hm] at h3
    rw [listText_one] at he'
    have ht : v.text = ['"', '"'] := by simp [ListValue.text, hq, hv]
    rw [ht] at he'
    rcases h3 with ⟨rfl, hf⟩ | ⟨rfl, hf⟩
    · exact hf '=' (by rw [show g = _ from he']; rfl) rfl
    · have hg : g = '"' :: '"' :: R := by simpa using he'
      rcases hf '"' (by rw [hg]; rfl) with hc | hc <;> cases hc
  | v :: u :: l, hr, h3, he' =>
    have hne : listText (v :: u :: l) ≠ [] := by rw [listText_more]; simp
    have hm : (ListParam.meaning ⟨k, v :: u :: l⟩).val = some (listText (v :: u :: l)) := by
      simp [ListParam.meaning, hne]
    rw [hm] at h3
    obtain ⟨-, ⟨rfl, hq⟩ | ⟨rfl, h4, h5, h6, h7⟩⟩ := h3
    · exfalso
      cases hl : listText (v :: u :: l) with
      | nil => exact hne hl
      | cons c s =>
        rw [hl] at he' hq
        simp at he'
        exact hq (by rw [← he'.1]; simp)
    · have hg : g = R := by simpa using he'
      subst hg
      refine ⟨fun hq => Classical.byContradiction fun hv => ?_, noSep_of_listText h4 h5⟩
      refine h7 v.val hv (hr v (by simp)).1 ?_
      rw [listText_more]
      have : v.text = '"' :: v.val ++ ['"'] := by simp [ListValue.text, hq]
      rw [this]
      exact ⟨',' :: listText (u :: l) ++ g, by simp⟩

omit [Uni] in
theorem params_end (ps : List ListParam) (Y : Str) : ParamEnd ((ps.map ListParam.text).flatten ++ ':' :: Y) := by
  cases ps with
  | nil => exact ⟨':', Y, rfl, .inl rfl⟩
  | cons p ps => exact ⟨';', _, by simp [ListParam.text]; rfl, .inr rfl⟩

theorem kept_paramsAre {ps : List ListParam} (hn : ∀ p ∈ ps, IsName p.key) (hr : ∀ p ∈ ps, ∀ v ∈ p.vals, v.Rfc)
    (hk : ∀ p ∈ ps, p.Kept) (Y : Str) :
    ParamsAre (ps.map ListParam.meaning) ((ps.map ListParam.text).flatten) (':' :: Y) := by
  induction ps with
  | nil => exact ⟨rfl, by intro c hc; simp at hc; subst hc; decide⟩
  | cons p ps ih =>
    exact ⟨p.text, (ps.map ListParam.text).flatten,
      kept_paramIs (hn p (by simp)) (hr p (by simp)) (hk p (by simp)) (params_end ps Y),
      ih (fun q hq => hn q (by simp [hq])) (fun q hq => hr q (by simp [hq])) (fun q hq => hk q (by simp [hq])), rfl⟩

theorem paramsAre_kept {ps : List ListParam} (hn : ∀ p ∈ ps, IsName p.key) (hr : ∀ p ∈ ps, ∀ v ∈ p.vals, v.Rfc)
    {t X Y : Str} (h : ParamsAre (ps.map ListParam.meaning) t (':' :: X))
    (he : t ++ ':' :: X = (ps.map ListParam.text).flatten ++ ':' :: Y) : ∀ p ∈ ps, p.Kept := by
  induction ps generalizing t with
  | nil => simp
  | cons p ps ih =>
    obtain ⟨a, b, h1, h2, rfl⟩ := h
    simp only [List.map_cons, List.flatten_cons, List.append_assoc] at he
    have hk := paramIs_kept (hn p (by simp)) (hr p (by simp)) h1 he (params_end ps Y)
    have h3 := paramIs_reads h1
    have h4 := paramIs_reads (kept_paramIs (hn p (by simp)) (hr p (by simp)) hk (params_end ps Y))
    rw [he, h4] at h3
    have he2 : b ++ ':' :: X = (ps.map ListParam.text).flatten ++ ':' :: Y := by
      injection h3 with h5 h6
      exact h5.symm
    intro q hq
    rcases List.mem_cons.1 hq with rfl | hq
    · exact hk
    · exact ih (fun q hq => hn q (by simp [hq])) (fun q hq => hr q (by simp [hq])) h2 he2 q hq

/-! ### Lines -/

omit [Uni] in
theorem prefix_name {k n : Str} {c : Char} {s : Str} (h : k <+: n ++ c :: s) (hc : c ∉ k) : k <+: n := by
  rcases List.prefix_or_prefix_of_prefix h (List.prefix_append n (c :: s)) with h1 | ⟨r, rfl⟩
  · exact h1
  · obtain ⟨q, hq⟩ := h
    rw [List.append_assoc] at hq
    have := List.append_cancel_left hq
    cases r with
    | nil => simp
    | cons d r =>
      injection this with h1 h2
      subst h1
      simp at hc

omit [Uni] in
/-- a line is its name and a colon or semicolon -/
theorem written_split (x : Written) : ∃ c s, x.text = x.name ++ c :: s ∧ (c = ':' ∨ c = ';') := by
  obtain ⟨c, s, h1, h2⟩ := params_end x.params x.value
  exact ⟨c, s, by rw [Written.text, h1], h2⟩

omit [Uni] in
theorem rfcName_cons {n : Str} (h : RfcName n) : ∃ c s, n = c :: s := by
  cases n with
  | nil => exact absurd rfl h.1
  | cons c s => exact ⟨c, s, rfl⟩

theorem not_space {n : Str} (h : RfcName n) {c : Char} (hc : c ∈ n) : ¬ Space c := by
  have := rfcName_isName h c hc
  rw [← isKeyChar_iff] at this
  rintro (rfl | rfl | rfl | rfl)
  · rw [isKeyChar_sp] at this; cases this
  · rw [isKeyChar_tab] at this; cases this
  · rw [isKeyChar_cr] at this; cases this
  · rw [isKeyChar_lf] at this; cases this

/-- there is no white space before a name -/
theorem white_nil {white s n r : Str} (hn : RfcName n) (hw : ∀ c ∈ white, Space c) (he : white ++ s = n ++ r) : white = [] := by
  obtain ⟨c, n', rfl⟩ := rfcName_cons hn
  cases white with
  | nil => rfl
  | cons w white =>
    injection he with h1 h2
    subst h1
    exact absurd (hw w (by simp)) (not_space hn (by simp))

theorem name_keyword {n : Str} (hn : RfcName n) {c : Char} (hc : c = ':' ∨ c = ';') {s : Str} :
    Keyword (n ++ c :: s) ↔ c!"END" <+: n ∨ c!"BEGIN" <+: n := by
  constructor
  · rintro ⟨white, r, hw, he, h⟩
    have := white_nil hn hw he.symm
    subst this
    have he : n ++ c :: s = r := he
    subst he
    rcases h with h | h
    · exact .inl (prefix_name h (by rcases hc with rfl | rfl <;> decide))
    · exact .inr (prefix_name h (by rcases hc with rfl | rfl <;> decide))
  · intro h
    refine ⟨[], n ++ c :: s, by simp, rfl, ?_⟩
    rcases h with h | h
    · exact .inl (h.trans (List.prefix_append _ _))
    · exact .inr (h.trans (List.prefix_append _ _))

omit [Uni] in
theorem strict_noBreak {v : Str} (h : ∀ c ∈ v, ¬ ControlChar c) : ¬ ['\r', '\n'] <:+: v := by
  rintro ⟨a, b, rfl⟩
  exact h '\r' (by simp) control_cr

theorem strict_params {x : Written} (hx : x.Strict) :
    (∀ p ∈ x.params, IsName p.key) ∧ ∀ p ∈ x.params, ∀ v ∈ p.vals, v.Rfc :=
  ⟨fun p hp => rfcName_isName (hx.2.1 p hp).1, fun p hp v hv => safe_rfc ((hx.2.1 p hp).2.2 v hv)⟩

/-- a line of RFC 5545 that is kept is read as what it means -/
theorem kept_propIs {x : Written} (hx : x.Strict) (hk : x.Kept) (R : Str) : PropIs x.means (x.text ++ ['\r', '\n']) R := by
  refine ⟨rfcName_isName hx.1, ?_, .inl ⟨[], (x.params.map ListParam.text).flatten, x.value, ['\r', '\n'], by simp, ?_,
    .inl ⟨rfl, strict_noBreak hx.2.2⟩, rfl, ?_⟩⟩
  · obtain ⟨c, s, h1, h2⟩ := written_split x
    rw [h1, List.append_assoc, List.append_assoc, List.cons_append, name_keyword hx.1 h2]
    rintro (h | h)
    · exact hk.1.2 h
    · exact hk.1.1 h
  · have := kept_paramsAre (strict_params hx).1 (strict_params hx).2 hk.2 (x.value ++ ['\r', '\n'] ++ R)
    show ParamsAre (x.params.map ListParam.meaning) _ _
    simpa using this
  · simp [Written.text, Written.means]

/-- a line of RFC 5545 that is read as what it means is kept -/
theorem propIs_kept {x : Written} (hx : x.Strict) {t f R : Str} (h : PropIs x.means t f)
    (he : t ++ f = x.text ++ R) : x.Kept := by
  obtain ⟨-, h2, h3⟩ := h
  refine ⟨?_, ?_⟩
  · obtain ⟨c, s, h4, h5⟩ := written_split x
    rw [he, h4, List.append_assoc, List.cons_append, name_keyword hx.1 h5] at h2
    exact ⟨fun h => h2 (.inr h), fun h => h2 (.inl h)⟩
  · rcases h3 with ⟨white, params, raw, br, h4, h5, -, -, rfl⟩ | ⟨h4, -⟩
    · have hn : x.means.name = x.name := rfl
      rw [hn, Written.text] at he
      have hw : white = [] := white_nil (s := x.name ++ (params ++ (':' :: raw ++ br ++ f))) hx.1 h4 (by simpa using he)
      subst hw
      refine paramsAre_kept (strict_params hx).1 (strict_params hx).2 (t := params) (X := raw ++ br ++ f)
        (Y := x.value ++ R) ?_ ?_
      · have h5 : ParamsAre (x.params.map ListParam.meaning) params (':' :: raw ++ br ++ f) := h5
        simpa using h5
      · refine List.append_cancel_left (as := x.name) ?_
        simpa using he
    · have : x.params = [] := by simpa [Written.means] using h4
      simp [this]

/-- **C81 (exactly).** A content line of RFC 5545 is read with its name, all its parameters (each with its value, or with
its values as they are written) and its value, whatever follows it, if and only if its name does not start with BEGIN or
END in capitals, and of each parameter with several values the first is not a text in quotes (other than the empty
one) and none has a colon or semicolon, and no parameter is the empty text in quotes. -/
theorem rfc_line_read_iff (x : Written) (hx : x.Strict) (rest : Str) :
    readProperty (x.text ++ ['\r', '\n'] ++ rest) = some x.means ↔ x.Kept := by
  rw [property_read_iff]
  constructor
  · rintro ⟨t, f, he, h⟩
    exact propIs_kept hx h (by rw [← he, List.append_assoc])
  · intro hk
    exact ⟨_, rest, rfl, kept_propIs hx hk rest⟩

/-! ### Elements -/

omit [Uni] in
theorem blank_unique {a b r s : Str} (ha : Blank a) (hb : Blank b) (hr : NoBreak r) (hs : NoBreak s) (h : a ++ r = b ++ s) :
    a = b ∧ r = s := by
  obtain ⟨l, hl⟩ := many0_blank ha (noBreak_iff.1 hr)
  obtain ⟨m, hm⟩ := many0_blank hb (noBreak_iff.1 hs)
  rw [h, hm] at hl
  injection hl with h1 h2
  subst h1
  exact ⟨List.append_cancel_right h, rfl⟩

omit [Uni] in
theorem lower_cut {b k : Str} (h : b.map lowerAscii = k ++ [':']) : ∃ b0, b = b0 ++ [':'] ∧ b0.map lowerAscii = k := by
  rw [List.map_eq_append_iff] at h
  obtain ⟨b0, b1, rfl, h1, h2⟩ := h
  refine ⟨b0, ?_, h1⟩
  rw [List.map_eq_cons_iff] at h2
  obtain ⟨x, b2, rfl, h3, h4⟩ := h2
  rw [List.map_eq_nil_iff] at h4
  subst h4
  rw [lowerAscii_eq (by decide) h3]

theorem lower_name {b0 k : Str} (h : b0.map lowerAscii = k) (hk : ∀ c ∈ k, 97 ≤ c.toNat ∧ c.toNat ≤ 122) : IsName b0 := by
  intro c hc
  exact letter_nameChar (hk (lowerAscii c) (by rw [← h]; exact List.mem_map_of_mem hc)) rfl

theorem sep_not_name {c : Char} (hc : c = ':' ∨ c = ';') : ¬ NameChar c := by
  rw [← isKeyChar_iff]
  rcases hc with rfl | rfl
  · rw [isKeyChar_colon]; simp
  · rw [isKeyChar_semi]; simp

theorem name_begins {n : Str} (hn : RfcName n) {c : Char} (hc : c = ':' ∨ c = ';') {s k : Str}
    (hk : ∀ c ∈ k, 97 ≤ c.toNat ∧ c.toNat ≤ 122) (h : Begins (k ++ [':']) (n ++ c :: s)) : n.map lowerAscii = k := by
  obtain ⟨b, rest, he, hb⟩ := h
  obtain ⟨b0, rfl, h0⟩ := lower_cut hb
  have := until_unique (P := NameChar) (rfcName_isName hn) (lower_name h0 hk)
    (by intro d hd; simp at hd; subst hd; exact sep_not_name hc)
    (by intro d hd; simp at hd; subst hd; exact sep_not_name (.inl rfl))
    (show n ++ c :: s = b0 ++ ':' :: rest by simpa using he)
  rw [this.1, h0]

/-- a property whose text starts with BEGIN: has that name -/
theorem propIs_begin {p : PProp} {t f : Str} (h : PropIs p t f) (hb : Begins c!"begin:" (t ++ f)) :
    p.name.map lowerAscii = c!"begin" := by
  obtain ⟨b, rest, he, hb⟩ := hb
  obtain ⟨b0, rfl, h0⟩ := lower_cut (k := c!"begin") hb
  have hn0 := lower_name h0 (by decide)
  have he : t ++ f = b0 ++ ':' :: rest := by simpa using he
  obtain ⟨h1, -, ⟨white, params, raw, br, h3, h4, -, -, rfl⟩ | ⟨-, -, -, br, rfl, h5, -⟩⟩ := h
  · have hw : white = [] := by
      cases white with
      | nil => rfl
      | cons w white =>
        exfalso
        cases b0 with
        | nil => cases h0
        | cons d b0 =>
          injection he with he1 he2
          subst he1
          have h6 := h3 w (by simp)
          have h7 := hn0 w (by simp)
          rw [← isKeyChar_iff] at h7
          rcases h6 with rfl | rfl | rfl | rfl
          · rw [isKeyChar_sp] at h7; cases h7
          · rw [isKeyChar_tab] at h7; cases h7
          · rw [isKeyChar_cr] at h7; cases h7
          · rw [isKeyChar_lf] at h7; cases h7
    subst hw
    obtain ⟨c, s, h6, h7⟩ := paramsAre_head (f := raw ++ br ++ f) (by simpa using h4)
    have := until_unique (P := NameChar) (x := c :: s) (y := ':' :: rest) h1 hn0
      (by intro d hd; simp at hd; subst hd; exact sep_not_name h7)
      (by intro d hd; simp at hd; subst hd; exact sep_not_name (.inl rfl))
      (by rw [← h6, ← he]; simp)
    rw [this.1, h0]
  · have := until_unique (P := NameChar) (x := br ++ f) (y := ':' :: rest) h1 hn0 h5
      (by intro d hd; simp at hd; subst hd; exact sep_not_name (.inl rfl)) (by rw [← he]; simp)
    rw [this.1, h0]

omit [Uni] in
theorem strict_names : ∀ parts : List Part, PartsStrict parts → ∀ p ∈ partsProps parts, p.name.map lowerAscii ≠ c!"begin"
  | [], _ => by simp [partsProps]
  | .line x :: l, h => by
    rw [PartsStrict, Part.Strict] at h
    intro p hp
    rw [partsProps, List.mem_cons] at hp
    rcases hp with rfl | hp
    · exact h.1.2.1
    · exact strict_names l h.2 p hp
  | .comp b e n ps :: l, h => by
    rw [PartsStrict] at h
    intro p hp
    rw [partsProps] at hp
    exact strict_names l h.2 p hp

theorem name_noBreak {n : Str} (hn : RfcName n) (s : Str) : NoBreak (n ++ s) := by
  obtain ⟨c, n', rfl⟩ := rfcName_cons hn
  have := not_space hn (c := c) (by simp)
  constructor
  · rintro ⟨r, hr⟩
    injection hr with h1 h2
    subst h1
    exact this (.inr (.inr (.inr rfl)))
  · rintro ⟨r, hr⟩
    injection hr with h1 h2
    subst h1
    exact this (.inr (.inr (.inl rfl)))

omit [Uni] in
theorem begins_noBreak {i : Str} {k : Str} (hk : ∃ c r, k = c :: r ∧ c ≠ '\n' ∧ c ≠ '\r') (h : Begins k i) : NoBreak i := by
  obtain ⟨c, r, rfl, h1, h2⟩ := hk
  obtain ⟨b, rest, rfl, hb⟩ := h
  cases b with
  | nil => cases hb
  | cons d b =>
    injection hb with h3 h4
    constructor
    · rintro ⟨s, hs⟩
      injection hs with h5 h6
      subst h5
      exact h1 h3.symm
    · rintro ⟨s, hs⟩
      injection hs with h5 h6
      subst h5
      exact h2 h3.symm

omit [Uni] in
theorem part_begins {b e n : Str} {ps : List Part} (h : (Part.comp b e n ps).Strict) (R : Str) :
    Begins c!"begin:" ((Part.comp b e n ps).text ++ R) := by
  rw [Part.Strict] at h
  exact ⟨b ++ [':'], n ++ ['\r', '\n'] ++ partsText ps ++ (e ++ ':' :: n ++ ['\r', '\n']) ++ R, by simp [Part.text],
    by rw [List.map_append, h.1]; rfl⟩

theorem parts_noBreak {parts : List Part} (h : PartsStrict parts) {F : Str} (hF : NoBreak F) :
    NoBreak (partsText parts ++ F) := by
  cases parts with
  | nil => simpa [partsText] using hF
  | cons i l =>
    rw [PartsStrict] at h
    cases i with
    | line x =>
      have h1 := h.1
      rw [Part.Strict] at h1
      have := name_noBreak h1.1.1 ((x.params.map ListParam.text).flatten ++ ':' :: x.value ++ ['\r', '\n'] ++ partsText l ++ F)
      simpa [partsText, Part.text, Written.text] using this
    | comp b e n ps =>
      have := begins_noBreak ⟨'b', c!"egin:", rfl, by decide, by decide⟩ (part_begins h.1 (partsText l ++ F))
      simpa [partsText] using this

/-- what is to be shown of an element -/
def PartKept : Part → Prop
  | .line _ => True
  | .comp b e n ps => ∀ t g R, CompIs (.mk n (partsProps ps) (partsComps ps)) t g →
      t ++ g = (Part.comp b e n ps).text ++ R → NoBreak R → PartsAll Written.Kept ps ∧ t = (Part.comp b e n ps).text

/-- what is to be shown of elements -/
def PartsKept (parts : List Part) : Prop :=
  ∀ body f F, Begins c!"end:" F → BodyIs (partsProps parts) (partsComps parts) body f → body ++ f = partsText parts ++ F →
    PartsAll Written.Kept parts ∧ body = partsText parts

mutual
theorem part_kept : ∀ i : Part, i.Strict → PartKept i
  | .line _, _ => by rw [PartKept]; trivial
  | .comp b e n ps, h => by
    rw [PartKept]
    have hs := h
    rw [Part.Strict] at hs
    intro t g R hc he hR
    have ih := parts_kept ps hs.2.2.2
    cases hc with
    | @mk _ _ _ b' gap body e' trail _ hb hn hg hgap hbody hB hee htr hf =>
      simp only [Part.text, List.append_assoc] at he
      have hlen : b'.length = (b ++ [':']).length := by
        have h1 := congrArg List.length hb
        have h2 := congrArg List.length hs.1
        simp at h1 h2 ⊢
        omega
      obtain ⟨hb1, hb2⟩ := List.append_inj (show b' ++ _ = (b ++ [':']) ++ _ by simpa using he) hlen
      have hb3 := List.append_cancel_left hb2
      have hend : Begins c!"end:" (e ++ (':' :: (n ++ ('\r' :: '\n' :: R)))) :=
        ⟨e ++ [':'], n ++ ('\r' :: '\n' :: R), by simp, by rw [List.map_append, hs.2.1]; rfl⟩
      have hnb : NoBreak (e ++ (':' :: (n ++ ('\r' :: '\n' :: R)))) :=
        begins_noBreak ⟨'e', c!"nd:", rfl, by decide, by decide⟩ hend
      obtain ⟨hg1, hg2⟩ := blank_unique hgap (blank_break .crlf blank_nil) hbody (parts_noBreak hs.2.2.2 hnb)
        (show gap ++ _ = (Break.crlf.text ++ []) ++ _ by simpa [Break.text] using hb3)
      obtain ⟨h1, h2⟩ := ih body _ _ hend hB hg2
      subst h2
      have he1 := List.append_cancel_left hg2
      have hlen' : e'.length = (e ++ [':']).length := by
        have h1 := congrArg List.length hee
        have h2 := congrArg List.length hs.2.1
        simp at h1 h2 ⊢
        omega
      obtain ⟨he2, he3⟩ := List.append_inj (show e' ++ _ = (e ++ [':']) ++ _ by simpa using he1) hlen'
      have he4 := List.append_cancel_left he3
      obtain ⟨ht1, ht2⟩ := blank_unique htr (blank_break .crlf blank_nil) hf hR
        (show trail ++ _ = (Break.crlf.text ++ []) ++ _ by simpa [Break.text] using he4)
      refine ⟨h1, ?_⟩
      rw [hb1, hg1, he2, ht1]
      simp [Part.text, Break.text]
theorem parts_kept : ∀ parts : List Part, PartsStrict parts → PartsKept parts
  | [], _ => by
    intro body f F hF hB he
    rw [partsProps, partsComps] at hB
    cases hB
    exact ⟨by rw [PartsAll]; trivial, by rw [partsText]⟩
  | .line x :: l, h => by
    rw [PartsStrict, Part.Strict] at h
    have ih := parts_kept l h.2
    intro body f F hF hB he
    rw [partsProps, partsComps] at hB
    have hFn : NoBreak F := begins_noBreak ⟨'e', c!"nd:", rfl, by decide, by decide⟩ hF
    have hno : ¬ Begins c!"begin:" (body ++ f) := by
      rw [he]
      obtain ⟨c, s, h1, h2⟩ := written_split x
      intro hb
      refine h.1.2.1 (name_begins h.1.1.1 h2 (k := c!"begin") (by decide) (s := s ++ ['\r', '\n'] ++ partsText l ++ F) ?_)
      simpa [partsText, Part.text, h1] using hb
    generalize hC : partsComps l = C at hB
    cases hB with
    | @prop _ _ _ t trail rest _ h1 h2 h3 h4 h5 h6 h7 =>
      have he1 : t ++ (trail ++ (rest ++ f)) = x.text ++ (['\r', '\n'] ++ (partsText l ++ F)) := by
        simpa [partsText, Part.text] using he
      have hk := propIs_kept h.1.1 h3 he1
      have h8 := propIs_reads h3
      have h9 := propIs_reads (kept_propIs h.1.1 hk (partsText l ++ F))
      rw [he1, ← List.append_assoc, h9] at h8
      have he2 : partsText l ++ F = trail ++ (rest ++ f) := by
        injection h8
      obtain ⟨ht, hr⟩ := blank_unique h5 blank_nil h6 (parts_noBreak h.2 hFn) he2.symm
      subst ht
      have he3 : t = x.text ++ ['\r', '\n'] := by
        rw [he2, List.nil_append] at he1
        refine List.append_cancel_right (bs := rest ++ f) ?_
        rw [he1, List.append_assoc]
      obtain ⟨h10, h11⟩ := ih rest f F hF (by rw [hC]; exact h7) hr
      refine ⟨by rw [PartsAll, Part.All]; exact ⟨hk, h10⟩, ?_⟩
      rw [partsText, Part.text, he3, h11]
      simp
    | stuck h1 => exact absurd (stuck_begins (by simpa using h1)) (by simpa using hno)
    | comp h1 => exact absurd (compIs_begins h1).1 (by simpa using hno)
  | .comp b e n ps :: l, h => by
    have hstr := h
    rw [PartsStrict] at h
    have ih1 := part_kept (.comp b e n ps) h.1
    have ih2 := parts_kept l h.2
    rw [PartKept] at ih1
    intro body f F hF hB he
    have hFn : NoBreak F := begins_noBreak ⟨'e', c!"nd:", rfl, by decide, by decide⟩ hF
    have hb : Begins c!"begin:" (body ++ f) := by
      rw [he, partsText, List.append_assoc]
      exact part_begins h.1 _
    have hnames := strict_names _ hstr
    rw [partsProps] at hnames hB
    rw [partsComps] at hB
    generalize hP : partsProps l = P at hB hnames
    cases hB with
    | prop h1 h2 => exact absurd (by simpa using hb) h2
    | stuck h1 h2 => exact absurd (propIs_begin h2 (by simpa using hb)) (hnames _ (by simp))
    | @comp _ _ _ t rest _ h1 h2 =>
      have he1 : t ++ (rest ++ f) = (Part.comp b e n ps).text ++ (partsText l ++ F) := by
        simpa [partsText] using he
      obtain ⟨h3, h4⟩ := ih1 t (rest ++ f) (partsText l ++ F) h1 he1 (parts_noBreak h.2 hFn)
      rw [h4] at he1
      obtain ⟨h5, h6⟩ := ih2 rest f F hF (by rw [hP]; exact h2) (List.append_cancel_left he1)
      refine ⟨by rw [PartsAll, Part.All]; exact ⟨h3, h5⟩, ?_⟩
      rw [partsText, h4, h6]
end

mutual
theorem kept_part : ∀ i : Part, i.Strict → match i with
    | .line _ => True
    | .comp b e n ps => PartsAll Written.Kept ps → ∀ R, NoBreak R →
      CompIs (.mk n (partsProps ps) (partsComps ps)) (Part.comp b e n ps).text R
  | .line _, _ => trivial
  | .comp b e n ps, h => by
    intro hk R hR
    rw [Part.Strict] at h
    have hend : Begins c!"end:" ((e ++ [':']) ++ (n ++ (['\r', '\n'] ++ R))) :=
      ⟨e ++ [':'], _, rfl, by rw [List.map_append, h.2.1]; rfl⟩
    have hB := kept_parts ps h.2.2.2 hk _ hend
    have hnb : NoBreak ((e ++ [':']) ++ (n ++ (['\r', '\n'] ++ R))) :=
      begins_noBreak ⟨'e', c!"nd:", rfl, by decide, by decide⟩ hend
    have hbl : Blank ['\r', '\n'] := by simpa [Break.text] using blank_break .crlf blank_nil
    have hcr : ¬ NameChar '\r' := by rw [← isKeyChar_iff, isKeyChar_cr]; simp
    have := CompIs.mk (b := b ++ [':']) (gap := ['\r', '\n']) (trail := ['\r', '\n']) (f := R)
      (by rw [List.map_append, h.1]; rfl) (rfcName_isName h.2.2.1)
      (by intro c hc; simp at hc; subst hc; exact hcr) hbl (parts_noBreak h.2.2.2 hnb) hB
      (by rw [List.map_append, h.2.1]; rfl) hbl hR
    have ht : (Part.comp b e n ps).text =
        (b ++ [':']) ++ (n ++ (['\r', '\n'] ++ (partsText ps ++ ((e ++ [':']) ++ (n ++ ['\r', '\n']))))) := by
      simp [Part.text]
    rw [ht]
    exact this
theorem kept_parts : ∀ parts : List Part, PartsStrict parts → PartsAll Written.Kept parts → ∀ F, Begins c!"end:" F →
    BodyIs (partsProps parts) (partsComps parts) (partsText parts) F
  | [], _, _, F, _ => by
    rw [partsProps, partsComps, partsText]
    exact .nil
  | .line x :: l, h, hk, F, hF => by
    rw [PartsStrict, Part.Strict] at h
    rw [PartsAll, Part.All] at hk
    have ih := kept_parts l h.2 hk.2 F hF
    have hFn : NoBreak F := begins_noBreak ⟨'e', c!"nd:", rfl, by decide, by decide⟩ hF
    rw [partsProps, partsComps, partsText, Part.text]
    have hn : ∀ k : Str, (∀ c ∈ k, 97 ≤ c.toNat ∧ c.toNat ≤ 122) → x.name.map lowerAscii ≠ k →
        ¬ Begins (k ++ [':']) ((x.text ++ ['\r', '\n']) ++ ([] ++ (partsText l ++ F))) := by
      intro k hk1 hk2 hb
      obtain ⟨c, s, h1, h2⟩ := written_split x
      refine hk2 (name_begins h.1.1.1 h2 hk1 (s := s ++ ['\r', '\n'] ++ partsText l ++ F) ?_)
      simpa [h1] using hb
    have := BodyIs.prop (p := x.means) (t := x.text ++ ['\r', '\n']) (trail := []) (rest := partsText l) (f := F)
      (hn c!"end" (by decide) h.1.2.2) (hn c!"begin" (by decide) h.1.2.1) (kept_propIs h.1.1 hk.1 _) (by simp) blank_nil
      (parts_noBreak h.2 hFn) ih
    simpa using this
  | .comp b e n ps :: l, h, hk, F, hF => by
    rw [PartsStrict] at h
    rw [PartsAll, Part.All] at hk
    have ih := kept_parts l h.2 hk.2 F hF
    have hFn : NoBreak F := begins_noBreak ⟨'e', c!"nd:", rfl, by decide, by decide⟩ hF
    have h1 := kept_part (.comp b e n ps) h.1 hk.1 (partsText l ++ F) (parts_noBreak h.2 hFn)
    rw [partsProps, partsComps, partsText]
    exact .comp h1 ih
end

/-! ### Documents -/

/-- **C112 (exactly), for a document as it is written.** It is read as the tree it stands for if and only if each of its
lines is kept. -/
theorem rfc_written_read_iff {b e : Str} {parts : List Part} (h : (Part.comp b e c!"VCALENDAR" parts).Strict) :
    readCalendar (Part.comp b e c!"VCALENDAR" parts).text = some ⟨partsProps parts, partsComps parts⟩ ↔
      PartsAll Written.Kept parts := by
  have hnb : NoBreak (Part.comp b e c!"VCALENDAR" parts).text :=
    begins_noBreak ⟨'b', c!"egin:", rfl, by decide, by decide⟩ (by simpa using part_begins h [])
  rw [calendar_read_iff]
  constructor
  · rintro (⟨lead, t, he, hl, hc⟩ | ⟨lead, t, d, he, hl, hc, hd, -⟩ | ⟨hp, hc, -⟩)
    · have ht : NoBreak t := begins_noBreak ⟨'b', c!"egin:", rfl, by decide, by decide⟩ (by simpa using (compIs_begins hc).1)
      obtain ⟨rfl, rfl⟩ := blank_unique hl blank_nil ht hnb (by simpa using he.symm)
      have := part_kept _ h
      rw [PartKept] at this
      exact (this _ _ [] hc (by simp) ⟨by simp, by simp⟩).1
    · exfalso
      have ht : NoBreak t := begins_noBreak ⟨'b', c!"egin:", rfl, by decide, by decide⟩ (by simpa using (compIs_begins hc).1)
      obtain ⟨rfl, rfl⟩ := blank_unique hl blank_nil ht hnb (by simpa using he.symm)
      rw [Part.Strict] at h
      generalize hT : (Part.comp b e c!"VCALENDAR" parts).text = T at hc
      cases hc with
      | @mk n _ _ b' gap body e' trail _ hb hn hg =>
        rw [Part.text] at hT
        have hlen : (b ++ [':']).length = b'.length := by
          have h1 := congrArg List.length hb
          have h2 := congrArg List.length h.1
          simp at h1 h2 ⊢
          omega
        obtain ⟨-, h2⟩ := List.append_inj (show (b ++ [':']) ++ (c!"VCALENDAR" ++ ('\r' :: '\n' :: (partsText parts ++
          (e ++ ':' :: c!"VCALENDAR" ++ ['\r', '\n'])))) = b' ++ _ by simpa using hT) hlen
        have hcr : ¬ NameChar '\r' := by rw [← isKeyChar_iff, isKeyChar_cr]; simp
        have := until_unique (P := NameChar) (rfcName_isName (by decide)) hn
          (by intro c hc; simp at hc; subst hc; exact hcr) (by simpa [First] using hg) h2
        exact hd this.1.symm
    · cases parts with
      | nil => rw [PartsAll]; trivial
      | cons i l =>
        cases i with
        | line x => simp [partsProps] at hp
        | comp => simp [partsComps] at hc
  · intro hk
    refine .inl ⟨[], _, rfl, blank_nil, ?_⟩
    exact kept_part _ h hk [] ⟨by simp, by simp⟩

omit [Uni] in
theorem values_written : ∀ {vs : List Str} {t : Str}, StrictValues vs t →
    ∃ l : List ListValue, l.map ListValue.val = vs ∧ l ≠ [] ∧ listText l = t ∧
      ∀ v ∈ l, ∀ c ∈ v.val, if v.quoted then QSafeChar c else SafeChar c
  | [], _, h => by simp [StrictValues] at h
  | [v], t, h => by
    rcases h with ⟨rfl, h⟩ | ⟨rfl, h⟩
    · exact ⟨[⟨false, t⟩], by simp, by simp, by simp [listText_one, ListValue.text], by simpa using h⟩
    · exact ⟨[⟨true, v⟩], by simp, by simp, by simp [listText_one, ListValue.text], by simpa using h⟩
  | v :: u :: l, t, h => by
    obtain ⟨a, b, h1, h2, rfl⟩ := h
    obtain ⟨m, hm, hne, ht, hs⟩ := values_written h2
    cases m with
    | nil => simp at hne
    | cons w m =>
      rcases h1 with ⟨rfl, h1⟩ | ⟨rfl, h1⟩
      · refine ⟨⟨false, a⟩ :: w :: m, by simpa using hm, by simp, by rw [listText_more, ht]; simp [ListValue.text], ?_⟩
        intro x hx
        rcases List.mem_cons.mp hx with rfl | hx
        · simpa using h1
        · exact hs x hx
      · refine ⟨⟨true, v⟩ :: w :: m, by simpa using hm, by simp, by rw [listText_more, ht]; simp [ListValue.text], ?_⟩
        intro x hx
        rcases List.mem_cons.mp hx with rfl | hx
        · simpa using h1
        · exact hs x hx

omit [Uni] in
theorem params_written : ∀ {ps : List (Str × List Str)} {t : Str}, StrictParams ps t →
    ∃ l : List ListParam, l.map (fun p => (p.key, p.vals.map ListValue.val)) = ps ∧ (∀ p ∈ l, p.Strict) ∧
      (l.map ListParam.text).flatten = t
  | [], t, h => by
    have h : t = [] := h
    exact ⟨[], rfl, by simp, by simp [h]⟩
  | (k, vs) :: l, t, h => by
    obtain ⟨a, b, h1, h2, h3, rfl⟩ := h
    obtain ⟨m, hm, hne, ht, hs⟩ := values_written h2
    obtain ⟨n, hn, hp, hx⟩ := params_written h3
    refine ⟨⟨k, m⟩ :: n, by simp [hm, hn], ?_, by simp [ListParam.text, ht, hx]⟩
    intro p hp'
    rcases List.mem_cons.mp hp' with rfl | hp'
    · exact ⟨h1, hne, hs⟩
    · exact hp p hp'

omit [Uni] in
/-- every content line of RFC 5545 is one as it is written -/
theorem line_written {x : Said} {t : Str} (h : StrictLine x t) : ∃ w : Written, w.said = x ∧ w.Strict ∧ w.text = t := by
  obtain ⟨ps, h1, h2, h3, rfl⟩ := h
  obtain ⟨l, h4, h5, h6⟩ := params_written h2
  exact ⟨⟨x.name, l, x.value⟩, by simp [Written.said, h4], ⟨h1, h5, h3⟩, by simp [Written.text, h6]⟩

omit [Uni] in
theorem written_values : ∀ {l : List ListValue}, l ≠ [] →
    (∀ v ∈ l, ∀ c ∈ v.val, if v.quoted then QSafeChar c else SafeChar c) → StrictValues (l.map ListValue.val) (listText l)
  | [], h, _ => absurd rfl h
  | [v], _, h => by
    rw [listText_one]
    have h := h v (by simp)
    show StrictValue _ _
    cases hq : v.quoted
    · exact .inl ⟨by simp [ListValue.text, hq], by simpa [hq] using h⟩
    · exact .inr ⟨by simp [ListValue.text, hq], by simpa [hq] using h⟩
  | v :: u :: l, _, h => by
    refine ⟨v.text, listText (u :: l), ?_, written_values (l := u :: l) (by simp)
      (fun x hx => h x (List.mem_cons_of_mem _ hx)), listText_more _ _ _⟩
    have h := h v (by simp)
    cases hq : v.quoted
    · exact .inl ⟨by simp [ListValue.text, hq], by simpa [hq] using h⟩
    · exact .inr ⟨by simp [ListValue.text, hq], by simpa [hq] using h⟩

omit [Uni] in
theorem written_params : ∀ {l : List ListParam}, (∀ p ∈ l, p.Strict) →
    StrictParams (l.map (fun p => (p.key, p.vals.map ListValue.val))) (l.map ListParam.text).flatten
  | [], _ => rfl
  | p :: l, h => by
    obtain ⟨h1, h2, h3⟩ := h p (by simp)
    exact ⟨_, _, h1, written_values h2 h3, written_params (fun q hq => h q (by simp [hq])), by simp [ListParam.text]⟩

omit [Uni] in
/-- a line as it is written is a content line of RFC 5545 -/
theorem written_line {w : Written} (h : w.Strict) : StrictLine w.said w.text :=
  ⟨_, h.1, written_params h.2.1, h.2.2, by simp [Written.text, Written.said]⟩

/-- the lines of an element as they are written -/
def PartOf (el : Element) : Prop :=
  ∀ ys T, StrictLines (el.lines ++ ys) T → ∃ (part : Part) (rest : Str), part.said = el ∧ part.Strict ∧ T = part.text ++ rest ∧
    StrictLines ys rest

set_option linter.unusedSectionVars false in
mutual
theorem element_part : ∀ el : Element, el.Nested → PartOf el
  | .line x, hn => by
    intro ys T h
    simp only [Element.lines, List.cons_append, List.nil_append] at h
    obtain ⟨a, rest, h1, h2, rfl⟩ := h
    obtain ⟨w, hw, hs, rfl⟩ := line_written h1
    rw [Element.Nested] at hn
    refine ⟨.line w, rest, by rw [Part.said, hw], ?_, by rw [Part.text], h2⟩
    rw [Part.Strict]
    subst hw
    exact ⟨hs, hn⟩
  | .comp b e name els, hn => by
    intro ys T h
    simp only [Element.Nested] at hn
    simp only [Element.lines, List.cons_append, List.nil_append, List.append_assoc] at h
    obtain ⟨a, rest, h1, h2, rfl⟩ := h
    obtain ⟨t, -, h4, -, rfl⟩ := h1
    have h4 : t = [] := h4
    subst h4
    obtain ⟨parts, rest', h5, h6, rfl, h7⟩ := elements_parts els hn.2.2.2 _ _ h2
    clear h2
    obtain ⟨a, rest, h1, h2, rfl⟩ := h7
    obtain ⟨t, -, h4, -, rfl⟩ := h1
    have h4 : t = [] := h4
    subst h4
    refine ⟨.comp b e name parts, rest, by rw [Part.said, h5], ?_, ?_, h2⟩
    · rw [Part.Strict]
      exact ⟨hn.1, hn.2.1, hn.2.2.1, h6⟩
    · simp [Part.text]
theorem elements_parts : ∀ els : List Element, ElementsNested els → ∀ ys T, StrictLines (elementsLines els ++ ys) T →
    ∃ (parts : List Part) (rest : Str), partsSaid parts = els ∧ PartsStrict parts ∧ T = partsText parts ++ rest ∧
      StrictLines ys rest
  | [], _ => by
    intro ys T h
    refine ⟨[], T, by rw [partsSaid], by rw [PartsStrict]; trivial, by rw [partsText]; rfl, ?_⟩
    simpa [elementsLines] using h
  | el :: els, hn => by
    intro ys T h
    simp only [ElementsNested] at hn
    simp only [elementsLines, List.append_assoc] at h
    obtain ⟨part, rest, h1, h2, rfl, h3⟩ := element_part el hn.1 _ _ h
    obtain ⟨parts, rest', h4, h5, rfl, h6⟩ := elements_parts els hn.2 _ _ h3
    refine ⟨part :: parts, rest', by rw [partsSaid, h1, h4], ?_, ?_, h6⟩
    · rw [PartsStrict]; exact ⟨h2, h5⟩
    · simp [partsText]
end

/-- **C112 (exactly).** Every document of RFC 5545 is, once unfolded, a calendar as it is written; and the library reads
it as the tree it stands for if and only if each of its lines is kept. -/
theorem rfc_document_exact (els : List Element) (t : Str) (h : RfcDocument els t) :
    ∃ (b e : Str) (parts : List Part), partsSaid parts = els ∧ (Part.comp b e c!"VCALENDAR" parts).Strict ∧
      unfoldRfc t = (Part.comp b e c!"VCALENDAR" parts).text ∧
      (readCalendar (unfold t) = some ⟨partsProps parts, partsComps parts⟩ ↔ PartsAll Written.Kept parts) := by
  obtain ⟨b, e, hn, ht⟩ := h
  have hu : unfold t = unfoldRfc t := by
    rw [unfold_eq_spec]
    exact unfoldRfc_spec (strictLines_flat ht).1
  obtain ⟨part, rest, h2, h3, h4, h5⟩ := element_part _ hn [] (unfoldRfc t) (by rw [List.append_nil]; exact ht)
  have h5 : rest = [] := h5
  subst h5
  cases part with
  | line x => simp [Part.said] at h2
  | comp b' e' n parts =>
    simp only [Part.said, Element.comp.injEq] at h2
    obtain ⟨rfl, rfl, rfl, h6⟩ := h2
    rw [List.append_nil] at h4
    exact ⟨_, _, parts, h6, h3, h4, by rw [hu, h4]; exact rfc_written_read_iff h3⟩

/-! ### Colons in lists -/

omit [Uni] in
theorem listText_noCr {vs : List ListValue} (h : ∀ v ∈ vs, ∀ c ∈ v.val, if v.quoted then QSafeChar c else SafeChar c) :
    '\r' ∉ listText vs := by
  intro hc
  rcases mem_listText hc with hc | ⟨v, hv, hc⟩
  · cases hc
  · have h := h v hv
    have hm : '\r' ∈ v.val := by
      unfold ListValue.text at hc
      split at hc <;> simpa using hc
    have := h _ hm
    split at this
    · exact this.1 control_cr
    · exact this.1 control_cr

omit [Uni] in
theorem params_noCr {ps : List ListParam} (h : ∀ p ∈ ps, p.Strict) : '\r' ∉ (ps.map ListParam.text).flatten := by
  intro hc
  obtain ⟨t, ht, hc⟩ := List.mem_flatten.1 hc
  obtain ⟨p, hp, rfl⟩ := List.mem_map.1 ht
  obtain ⟨h1, -, h3⟩ := h p hp
  simp only [ListParam.text, List.mem_cons, List.mem_append, List.cons_append] at hc
  rcases hc with hc | hc | hc | hc
  · cases hc
  · exact absurd (h1.2 _ hc) (by decide)
  · cases hc
  · exact listText_noCr h3 hc

/-- **C81 (violated, for all such lines).** A colon in one of several values of a parameter, the first of which is not in
quotes, ends the parameter and all of them: the line is read with the rest of the values, with the parameters that follow
and with its value as its value. -/
theorem list_colon_misread {name : Str} {before after : List ListParam} {k : Str} {vals : List ListValue} {value a b : Str}
    (hx : (Written.mk name (before ++ ⟨k, vals⟩ :: after) value).Strict)
    (hname : ¬ c!"BEGIN" <+: name ∧ ¬ c!"END" <+: name) (hb : ∀ p ∈ before, p.Kept)
    (hv : ∀ v l, vals = v :: l → v.quoted = false) (hab : listText vals = a ++ ':' :: b) (ha : ':' ∉ a ∧ ';' ∉ a)
    (rest : Str) :
    let params := before.map ListParam.meaning ++ [⟨k, some a⟩]
    let raw := b ++ (after.map ListParam.text).flatten ++ ':' :: value
    readProperty ((Written.mk name (before ++ ⟨k, vals⟩ :: after) value).text ++ ['\r', '\n'] ++ rest) =
      some { name := name
             val := if IsTextFor name ((params.find? (fun p => p.key == c!"VALUE")).bind PParam.val) then unescaped raw
               else raw
             params := params } := by
  intro params raw
  have hs := strict_params hx
  simp only [List.mem_append, List.mem_cons] at hs
  have hk : IsName k := hs.1 ⟨k, vals⟩ (.inr (.inl rfl))
  have hr : ∀ v ∈ vals, v.Rfc := hs.2 ⟨k, vals⟩ (.inr (.inl rfl))
  have hp := hx.2.1
  simp only [List.mem_append, List.mem_cons] at hp
  have hraw : '\r' ∉ raw := by
    intro hc
    simp only [raw, List.mem_append, List.mem_cons] at hc
    rcases hc with (hc | hc) | hc | hc
    · exact listText_noCr (hp ⟨k, vals⟩ (.inr (.inl rfl))).2.2 (by rw [hab]; simp [hc])
    · exact params_noCr (fun p h => hp p (.inr (.inr h))) hc
    · cases hc
    · exact hx.2.2 _ hc control_cr
  have hane : a ≠ [] := by
    rintro rfl
    match vals, hr, hv, hab with
    | [], _, _, hab => simp [listText] at hab
    | [v], hr, hv, hab =>
      have hq := hv v [] rfl
      rw [listText_one] at hab
      have : v.val = ':' :: b := by simpa [ListValue.text, hq] using hab
      exact ((hr v (by simp)).2 hq).2.1 (by rw [this]; simp)
    | v :: u :: l, hr, hv, hab =>
      have hq := hv v _ rfl
      rw [listText_more] at hab
      have ht : v.text = v.val := by simp [ListValue.text, hq]
      rw [ht] at hab
      cases hval : v.val with
      | nil => rw [hval] at hab; simp at hab
      | cons c s =>
        rw [hval] at hab
        simp at hab
        exact ((hr v (by simp)).2 hq).2.1 (by rw [hval, hab.1]; simp)
  have heq : ¬ NameChar '=' := by rw [← isKeyChar_iff, isKeyChar_eq]; simp
  have hpar : ∀ R : Str, ParamIs ⟨k, some a⟩ (';' :: k ++ '=' :: a) (':' :: (b ++ (after.map ListParam.text).flatten ++ ':' :: R)) := by
    intro R
    refine ⟨hk, [], '=' :: a, by simp, by simp, ?_, ?_, hane, .inr ⟨rfl, ha.1, ha.2, ?_, ?_⟩⟩
    · intro c hc
      have := hp ⟨k, vals⟩ (.inr (.inl rfl))
      obtain ⟨d, k', hd⟩ := rfcName_cons this.1
      simp only at hd
      rw [hd] at hc
      simp at hc
      subst hc
      have := not_space this.1 (show d ∈ k by rw [hd]; simp)
      exact ⟨fun h => this (.inl h), fun h => this (.inr (.inl h))⟩
    · intro c hc; simp at hc; subst hc; exact heq
    · intro c hc; simp at hc; subst hc; exact .inl rfl
    · have := no_quoted_first hr (fun v l h hq => by rw [hv v l h] at hq; cases hq)
        (R := (after.map ListParam.text).flatten ++ ':' :: R) (params_end after R)
      rw [hab] at this
      simpa using this
  have hall : ∀ (ps : List ListParam) (R : Str), (∀ p ∈ ps, IsName p.key) → (∀ p ∈ ps, ∀ v ∈ p.vals, v.Rfc) →
      (∀ p ∈ ps, p.Kept) → ParamsAre (ps.map ListParam.meaning ++ [⟨k, some a⟩])
        ((ps.map ListParam.text).flatten ++ (';' :: k ++ '=' :: a)) (':' :: (b ++ (after.map ListParam.text).flatten ++ ':' :: R)) := by
    intro ps R
    induction ps with
    | nil =>
      intro _ _ _
      exact ⟨_, [], hpar R, ⟨rfl, by intro c hc; simp at hc; subst hc; decide⟩, by simp⟩
    | cons p ps ih =>
      intro h1 h2 h3
      refine ⟨p.text, (ps.map ListParam.text).flatten ++ (';' :: k ++ '=' :: a), ?_,
        ih (fun q hq => h1 q (by simp [hq])) (fun q hq => h2 q (by simp [hq])) (fun q hq => h3 q (by simp [hq])), by simp⟩
      refine kept_paramIs (h1 p (by simp)) (h2 p (by simp)) (h3 p (by simp)) ?_
      cases ps with
      | nil => exact ⟨';', _, by simp; rfl, .inr rfl⟩
      | cons q ps => exact ⟨';', _, by simp [ListParam.text]; rfl, .inr rfl⟩
  rw [property_read_iff]
  refine ⟨name ++ ((before.map ListParam.text).flatten ++ (';' :: k ++ '=' :: a)) ++ ':' :: raw ++ ['\r', '\n'], rest, ?_,
    rfcName_isName hx.1, ?_, .inl ⟨[], (before.map ListParam.text).flatten ++ (';' :: k ++ '=' :: a), raw, ['\r', '\n'],
      by simp, ?_, .inl ⟨rfl, ?_⟩, rfl, ?_⟩⟩
  · simp [Written.text, ListParam.text, hab, raw]
  · have : name ++ ((before.map ListParam.text).flatten ++ (';' :: k ++ '=' :: a)) ++ ':' :: raw ++ ['\r', '\n'] ++ rest =
        (Written.mk name (before ++ ⟨k, vals⟩ :: after) value).text ++ (['\r', '\n'] ++ rest) := by
      simp [Written.text, ListParam.text, hab, raw]
    obtain ⟨c, s, h1, h2⟩ := written_split (Written.mk name (before ++ ⟨k, vals⟩ :: after) value)
    rw [this, h1, List.append_assoc, List.cons_append, name_keyword hx.1 h2]
    rintro (h | h)
    · exact hname.2 h
    · exact hname.1 h
  · have := hall before (value ++ ['\r', '\n'] ++ rest) (fun p h => hs.1 p (.inl h)) (fun p h => hs.2 p (.inl h)) hb
    simpa [raw] using this
  · rintro ⟨x, y, h⟩
    exact hraw (by rw [← h]; simp)
  · simp

/-! ### Examples -/

section Examples

/-- a list that is kept: plain values, and values in quotes after the first -/
example : @readProperty Uni.ascii c!"ATTENDEE;X=a,\"b, c\";Y=\"d:e\":v\r\nREST" =
    some (Written.means ⟨c!"ATTENDEE", [⟨c!"X", [⟨false, c!"a"⟩, ⟨true, c!"b, c"⟩]⟩, ⟨c!"Y", [⟨true, c!"d:e"⟩]⟩], c!"v"⟩) :=
  (@rfc_line_read_iff Uni.ascii ⟨c!"ATTENDEE", [⟨c!"X", [⟨false, c!"a"⟩, ⟨true, c!"b, c"⟩]⟩, ⟨c!"Y", [⟨true, c!"d:e"⟩]⟩], c!"v"⟩
    (by decide) c!"REST").2 (by decide)

example : (Written.means ⟨c!"ATTENDEE", [⟨c!"X", [⟨false, c!"a"⟩, ⟨true, c!"b, c"⟩]⟩, ⟨c!"Y", [⟨true, c!"d:e"⟩]⟩], c!"v"⟩) =
    ⟨c!"ATTENDEE", c!"v", [⟨c!"X", some c!"a,\"b, c\""⟩, ⟨c!"Y", some c!"d:e"⟩]⟩ := by decide +kernel

/-- a colon in quotes after the first value of a list ends the parameters: the value is what follows it -/
example : @readProperty Uni.ascii c!"ATTENDEE;X=a,\"b:c\":v\r\n" =
    some ⟨c!"ATTENDEE", c!"c\":v", [⟨c!"X", some c!"a,\"b"⟩]⟩ := by decide +kernel

example : @readProperty Uni.ascii c!"ATTENDEE;X=a,\"b:c\":v\r\n" =
    some ⟨c!"ATTENDEE", c!"c\":v", [⟨c!"X", some c!"a,\"b"⟩]⟩ :=
  @list_colon_misread Uni.ascii c!"ATTENDEE" [] [] c!"X" [⟨false, c!"a"⟩, ⟨true, c!"b:c"⟩] c!"v" c!"a,\"b" c!"c\""
    (by decide) (by decide) (by simp) (by intro v l h; injection h with h1 h2; rw [← h1]) (by decide) (by decide) []

/-- the empty text in quotes is read as two quotes -/
example : @readProperty Uni.ascii c!"ATTENDEE;X=\"\":v\r\n" =
    some ⟨c!"ATTENDEE", c!"v", [⟨c!"X", some c!"\"\""⟩]⟩ := by decide +kernel

/-- a calendar with an event that has such a line -/
def listEvent (vals : List ListValue) : Part :=
  .comp c!"BEGIN" c!"END" c!"VCALENDAR" [.line ⟨c!"VERSION", [], c!"2.0"⟩,
    .comp c!"BEGIN" c!"END" c!"VEVENT" [.line ⟨c!"ATTENDEE", [⟨c!"MEMBER", vals⟩], c!"mailto:a@x"⟩]]

omit [Uni] in
theorem listEvent_strict {vals : List ListValue}
    (h : (Written.mk c!"ATTENDEE" [⟨c!"MEMBER", vals⟩] c!"mailto:a@x").Strict) : (listEvent vals).Strict := by
  simp only [listEvent, Part.Strict, PartsStrict]
  exact ⟨by decide, by decide, by decide, ⟨by decide, by decide, by decide⟩,
    ⟨by decide, by decide, by decide, ⟨h, by decide, by decide⟩, trivial⟩, trivial⟩

/-- plain members are read -/
example : @readCalendar Uni.ascii (listEvent [⟨false, c!"b"⟩, ⟨false, c!"c"⟩]).text ≠ none := by
  have := (@rfc_written_read_iff Uni.ascii _ _ _ (listEvent_strict
    (vals := [⟨false, c!"b"⟩, ⟨false, c!"c"⟩]) (by decide))).2
    (by simp only [PartsAll, Part.All]; exact ⟨by decide, ⟨by decide, trivial⟩, trivial⟩)
  intro h
  exact absurd (h.symm.trans this) (by simp)

/-- members in quotes, as in RFC 5545, are not -/
example : @readCalendar Uni.ascii (listEvent [⟨true, c!"mailto:b@x"⟩, ⟨true, c!"mailto:c@x"⟩]).text ≠
    some ⟨partsProps [.line ⟨c!"VERSION", [], c!"2.0"⟩], [.mk c!"VEVENT" [Written.means ⟨c!"ATTENDEE",
      [⟨c!"MEMBER", [⟨true, c!"mailto:b@x"⟩, ⟨true, c!"mailto:c@x"⟩]⟩], c!"mailto:a@x"⟩] []]⟩ := by
  intro h
  have := (@rfc_written_read_iff Uni.ascii _ _ _ (listEvent_strict
    (vals := [⟨true, c!"mailto:b@x"⟩, ⟨true, c!"mailto:c@x"⟩]) (by decide))).1
    (by simpa only [partsProps, partsComps, listEvent] using h)
  simp only [PartsAll, Part.All] at this
  exact absurd this.2.1.1 (by decide)

end Examples

end Ical
