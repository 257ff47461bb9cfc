import Verif.Spec.Acceptance
import Verif.Props.Grammar
import Verif.Proofs.Errors
import Verif.Proofs.ParsePrefix
import Verif.Props.Mixed

/-!
The reader on texts as described in `Spec/Acceptance.lean`, and that there are no others.
-/

namespace Ical

open Nom Spec

theorem noBreak_iff {f : Str} : NoBreak f ↔ lineEnding f = .error := by
  unfold NoBreak lineEnding
  split
  · simp
  · simp
  · rename_i h1 h2
    refine ⟨fun _ => rfl, fun _ => ⟨?_, ?_⟩⟩
    · rintro ⟨s, rfl⟩; exact h1 s rfl
    · rintro ⟨s, rfl⟩; exact h2 s rfl

/-- line breaks at the start of a text -/
theorem blank_split (s : Str) : ∃ bl f, s = bl ++ f ∧ Blank bl ∧ NoBreak f := by
  induction hn : s.length using Nat.strongRecOn generalizing s with
  | _ n ih =>
    by_cases h : NoBreak s
    · exact ⟨[], s, rfl, blank_nil, h⟩
    · have : ∃ br : Break, ∃ r, s = br.text ++ r := by
        unfold NoBreak at h
        rw [Classical.not_and_iff_not_or_not, Classical.not_not, Classical.not_not] at h
        rcases h with ⟨r, rfl⟩ | ⟨r, rfl⟩
        · exact ⟨.lf, r, rfl⟩
        · exact ⟨.crlf, r, rfl⟩
      obtain ⟨br, r, rfl⟩ := this
      have hl := break_length_pos br
      obtain ⟨bl, f, h1, h2, h3⟩ := ih r.length (by rw [← hn]; simp; omega) r rfl
      exact ⟨br.text ++ bl, f, by rw [h1]; simp, blank_break br h2, h3⟩

/-- the longest start of a text of which all characters are of a kind -/
theorem split_while (g : Char → Bool) (s : Str) :
    ∃ a f, s = a ++ f ∧ (∀ c ∈ a, g c = true) ∧ First (fun c => g c = false) f :=
  ⟨s.takeWhile g, s.dropWhile g, (List.takeWhile_append_dropWhile).symm, fun _ hc => mem_takeWhile_imp' hc,
    fun _ hc => head_dropWhile' hc⟩

section
variable {α β γ : Type} {p : P α} {q : P β} {u : P γ} {i r r' r'' : Str} {a : α} {b : β} {c : γ}

theorem pair_run (h1 : p i = .ok r a) (h2 : q r = .ok r' b) : pair p q i = .ok r' (a, b) := by
  simp [pair, h1, h2]

theorem preceded_run (h1 : p i = .ok r a) (h2 : q r = .ok r' b) : preceded p q i = .ok r' b := by
  simp [preceded, map, pair_run h1 h2]

theorem separatedPair_run (h1 : p i = .ok r a) (h2 : q r = .ok r' b) (h3 : u r' = .ok r'' c) :
    separatedPair p q u i = .ok r'' (a, c) := by
  simp [separatedPair, map, pair_run h1 (pair_run h2 h3)]

theorem delimited_run (h1 : p i = .ok r a) (h2 : q r = .ok r' b) (h3 : u r' = .ok r'' c) :
    delimited p q u i = .ok r'' b := by
  simp [delimited, map, pair_run h1 (pair_run h2 h3)]

theorem map_run {g : α → β} (h : p i = .ok r a) : map g p i = .ok r (g a) := by
  simp [map, h]

theorem alt_run {p' : P α} (h : p i = .ok r a) : alt p p' i = .ok r a := by
  simp [alt, h]

theorem alt_other {p' : P α} (h : p i = .error) : alt p p' i = p' i := by
  simp [alt, h]

theorem opt_run (h : p i = .ok r a) : opt p i = .ok r (some a) := by
  simp [opt, h]

theorem opt_none (h : p i = .error) : opt p i = .ok i none := by
  simp [opt, h]

theorem cut_run (h : p i = .ok r a) : cut p i = .ok r a := by
  simp [cut, h]

end

variable [Uni]

theorem first_name {f : Str} : First (fun c => ¬ NameChar c) f ↔ StopsAt isKeyChar f := by
  unfold First StopsAt
  simp only [← isKeyChar_iff, Bool.not_eq_true]

/-- the longest name at the start of a text -/
theorem name_split (s : Str) : ∃ k f, s = k ++ f ∧ IsName k ∧ First (fun c => ¬ NameChar c) f := by
  obtain ⟨a, f, h1, h2, h3⟩ := split_while isKeyChar s
  exact ⟨a, f, h1, fun c hc => (isKeyChar_iff c).1 (h2 c hc), first_name.2 h3⟩

/-! ### Parameters -/

omit [Uni] in
theorem semicolon_ok {blanks s : Str} (h1 : ∀ c ∈ blanks, c = ' ' ∨ c = '\t')
    (h2 : First (fun c => c ≠ ' ' ∧ c ≠ '\t') s) :
    pair (tag [';']) space0 (';' :: (blanks ++ s)) = .ok s ([';'], blanks) := by
  have : space0 (blanks ++ s) = .ok s blanks := by
    refine takeWhile_ok (fun c hc => ?_) (fun c hc => ?_)
    · rcases h1 c hc with rfl | rfl <;> rfl
    · have := h2 c hc
      simp [this.1, this.2]
  exact pair_run (tag_ok [';'] _) this

omit [Uni] in
theorem paramValue_inQuotes {v f : Str} (h1 : v ≠ []) (h2 : '"' ∉ v) :
    paramValue ('"' :: v ++ ['"'] ++ f) = .ok f v := by
  unfold paramValue
  rw [alt_other (by rfl)]
  exact alt_run (quoted_reads h1 h2)

omit [Uni] in
theorem quoted_error {i : Str} (h : ∀ w, w ≠ [] → '"' ∉ w → ¬ '"' :: w ++ ['"'] <+: i) :
    delimited (tag ['"']) (isNot '"') (tag ['"']) i = .error := by
  cases hd : delimited (tag ['"']) (isNot '"') (tag ['"']) i with
  | error => rfl
  | failure =>
    exact (noFail_map (noFail_pair (noFail_tag _) (noFail_pair (noFail_takeTill1 _) (noFail_tag _))) _ hd).elim
  | ok r v =>
    obtain ⟨t, rfl, _, _, a, b, c, rfl, ⟨rfl, h1, h2, _⟩, rfl, rfl⟩ :=
      reads_delimited (reads_tag _) (reads_takeTill1 _) (reads_tag _) _ _ _ hd
    exact (h v h1 (fun hc => by simpa using h2 _ hc) (by simp)).elim

omit [Uni] in
theorem paramValue_unquoted {v f : Str} (h1 : v ≠ []) (h2 : ':' ∉ v) (h3 : ';' ∉ v)
    (h4 : First (fun c => c = ':' ∨ c = ';') f) (h5 : ∀ w, w ≠ [] → '"' ∉ w → ¬ '"' :: w ++ ['"'] <+: v ++ f) :
    paramValue (v ++ f) = .ok f v := by
  unfold paramValue
  rw [alt_other, alt_other (quoted_error h5)]
  · refine takeTill1_ok h1 (fun c hc => ?_) (fun c hc => ?_)
    · have e1 : c ≠ ':' := fun h => h2 (h ▸ hc)
      have e2 : c ≠ ';' := fun h => h3 (h ▸ hc)
      simp [e1, e2]
    · rcases h4 c hc with rfl | rfl <;> rfl
  · cases v with
    | nil => exact absurd rfl h1
    | cons c v => rfl

omit [Uni] in
theorem paramValue_none {f : Str} (h : First (fun c => c = ':' ∨ c = ';') f) :
    ∃ o, opt paramValue f = .ok f o ∧ removeEmpty o = none := by
  cases f with
  | nil => exact ⟨some [], rfl, rfl⟩
  | cons c f =>
    refine ⟨none, opt_none ?_, rfl⟩
    rcases h c rfl with rfl | rfl <;> rfl

theorem paramIs_reads {p : PParam} {t f : Str} (h : ParamIs p t f) : parameter (t ++ f) = .ok f p := by
  obtain ⟨k, v⟩ := p
  obtain ⟨h1, blanks, form, h2, rfl, h3, h4, h5⟩ := h
  simp only at h1 h3 h4 h5
  have e : ';' :: blanks ++ k ++ form ++ f = ';' :: (blanks ++ (k ++ (form ++ f))) := by simp
  rw [e]
  have hs := semicolon_ok (s := k ++ (form ++ f)) h2 (by simpa using h3)
  have hk := validKeySequence_ok h1 (first_name.1 h4)
  have hp : ∀ o s, form ++ f = '=' :: s → opt paramValue s = .ok f o → removeEmpty o = v →
      parameter (';' :: (blanks ++ (k ++ (form ++ f)))) = .ok f ⟨k, v⟩ := by
    intro o s he ho hr
    rw [he] at hs hk ⊢
    refine alt_run (map_run (a := (k, v)) (preceded_run hs (separatedPair_run hk (tag_ok ['='] s) ?_)))
    rw [← hr]
    exact map_run ho
  cases v with
  | none =>
    rcases h5 with ⟨rfl, h5⟩ | ⟨rfl, h5⟩
    · have ht : tag ['='] f = .error := by
        cases f with
        | nil => rfl
        | cons c f => exact tag_error (fun h => h5 c rfl h.symm)
      simp only [List.nil_append] at hs hk ⊢
      unfold parameter
      rw [alt_other]
      · refine map_run (a := (k, none)) (pair_run (preceded_run hs hk) (map_run (a := none) (opt_none ?_)))
        simp [preceded, map, pair, ht]
      · simp [pairParameter, map, preceded, separatedPair, pair] at hs ⊢
        simp [hs, hk, ht]
    · obtain ⟨o, h6, h7⟩ := paramValue_none h5
      exact hp o f rfl h6 h7
  | some v =>
    obtain ⟨h6, ⟨rfl, h7⟩ | ⟨rfl, h7, h8, h9, h10⟩⟩ := h5
    · refine hp (some v) ('"' :: v ++ ['"'] ++ f) (by simp) (opt_run (paramValue_inQuotes h6 h7)) ?_
      simp [removeEmpty, h6]
    · refine hp (some v) (v ++ f) (by simp) (opt_run (paramValue_unquoted h6 h7 h8 h9 h10)) ?_
      simp [removeEmpty, h6]

theorem parameter_error {f : Str} (h : First (fun c => c ≠ ';') f) : parameter f = .error := by
  have ht : tag [';'] f = .error := by
    cases f with
    | nil => rfl
    | cons c f => exact tag_error (fun hc => h c rfl hc.symm)
  simp [parameter, alt, pairParameter, baseParameter, map, preceded, pair, ht]

/-- every text after a semicolon starts with a parameter -/
theorem param_total (j : Str) : ∃ p t f, ';' :: j = t ++ f ∧ ParamIs p t f ∧ t ≠ [] := by
  obtain ⟨blanks, j1, rfl, h1, h2⟩ := split_while (fun c => c == ' ' || c == '\t') j
  obtain ⟨k, g, rfl, h3, h4⟩ := name_split j1
  have h1' : ∀ c ∈ blanks, c = ' ' ∨ c = '\t' := fun c hc => by simpa using h1 c hc
  have h2' : First (fun c => c ≠ ' ' ∧ c ≠ '\t') (k ++ g) := fun c hc => by simpa using h2 c hc
  by_cases he : First (fun c => c ≠ '=') g
  · exact ⟨⟨k, none⟩, ';' :: blanks ++ k, g, by simp,
      ⟨h3, blanks, [], h1', by simp, by simpa using h2', h4, .inl ⟨rfl, he⟩⟩, by simp⟩
  · obtain ⟨s, rfl⟩ : ∃ s, g = '=' :: s := by
      cases g with
      | nil => exact absurd (fun c hc => by cases hc) he
      | cons c s =>
        by_cases hc : c = '='
        · exact ⟨s, by rw [hc]⟩
        · exact absurd (fun d hd => by cases hd; exact hc) he
    by_cases hq : ∃ w, w ≠ [] ∧ '"' ∉ w ∧ '"' :: w ++ ['"'] <+: s
    · obtain ⟨w, hw1, hw2, f, rfl⟩ := hq
      exact ⟨⟨k, some w⟩, ';' :: blanks ++ k ++ '=' :: '"' :: w ++ ['"'], f, by simp,
        ⟨h3, blanks, '=' :: '"' :: w ++ ['"'], h1', by simp, by simpa using h2', by simpa using h4, hw1,
          .inl ⟨rfl, hw2⟩⟩, by simp⟩
    · obtain ⟨v, f, rfl, h5, h6⟩ := split_while (fun c => !(c == ':' || c == ';')) s
      have h6' : First (fun c => c = ':' ∨ c = ';') f := fun c hc => Decidable.or_iff_not_imp_left.2 (by simpa using h6 c hc)
      by_cases hv : v = []
      · subst hv
        exact ⟨⟨k, none⟩, ';' :: blanks ++ k ++ ['='], f, by simp,
          ⟨h3, blanks, ['='], h1', by simp, by simpa using h2', by simpa using h4, .inr ⟨rfl, h6'⟩⟩, by simp⟩
      · refine ⟨⟨k, some v⟩, ';' :: blanks ++ k ++ '=' :: v, f, by simp,
          ⟨h3, blanks, '=' :: v, h1', by simp, by simpa using h2', by simpa using h4, hv,
          .inr ⟨rfl, fun h => ?_, fun h => ?_, h6', fun w hw1 hw2 hw3 => hq ⟨w, hw1, hw2, hw3⟩⟩⟩, by simp⟩
        · simpa using h5 _ h
        · simpa using h5 _ h

theorem paramsAre_reads {l : List PParam} {t f : Str} (h : ParamsAre l t f) : parameters (t ++ f) = .ok f l := by
  induction l generalizing t with
  | nil =>
    obtain ⟨rfl, h⟩ := h
    exact many0_error (parameter_error h)
  | cons p l ih =>
    obtain ⟨a, b, h1, h2, rfl⟩ := h
    have := paramIs_reads h1
    rw [List.append_assoc]
    refine many0_ok shrinks_parameter this ?_ (ih h2)
    obtain ⟨_, blanks, form, _, rfl, _⟩ := h1
    simp; omega

theorem params_total (i : Str) : ∃ l t f, i = t ++ f ∧ ParamsAre l t f := by
  induction hn : i.length using Nat.strongRecOn generalizing i with
  | _ n ih =>
    by_cases h : First (fun c => c ≠ ';') i
    · exact ⟨[], [], i, rfl, rfl, h⟩
    · obtain ⟨j, rfl⟩ : ∃ s, i = ';' :: s := by
        cases i with
        | nil => exact absurd (fun c hc => by cases hc) h
        | cons c s =>
          by_cases hc : c = ';'
          · exact ⟨s, by rw [hc]⟩
          · exact absurd (fun d hd => by cases hd; exact hc) h
      obtain ⟨p, t, g, h1, h2, h3⟩ := param_total j
      have hl : g.length < n := by
        have h4 := congrArg List.length h1
        have : 0 < t.length := List.length_pos_iff.2 h3
        rw [List.length_append] at h4
        omega
      obtain ⟨l, b, f, rfl, h5⟩ := ih g.length hl g rfl
      exact ⟨p :: l, t ++ b, f, by rw [h1]; simp, t, b, h2, h5, rfl⟩

/-! ### Properties -/

omit [Uni] in
theorem valueIs_reads {raw br f : Str} (h : ValueIs raw br f) :
    propertyRest (raw ++ (br ++ f)) = .ok (br ++ f) raw ∧ ∃ o, opt lineEnding (br ++ f) = .ok f o := by
  rcases h with ⟨rfl, h⟩ | ⟨rfl, h1, h2⟩ | ⟨rfl, h1, rfl⟩
  · exact ⟨propertyRest_ok (br := .crlf) h (by simp), _, rfl⟩
  · refine ⟨?_, _, rfl⟩
    rw [List.append_assoc] at h2
    unfold propertyRest alt takeUntil
    rw [findSub_absent h2 (by simp), List.singleton_append, findSub_lf h1]
  · exact ⟨by simpa using propertyRest_noLf h1, _, rfl⟩

omit [Uni] in
theorem value_total (s : Str) : ∃ raw br f, s = raw ++ (br ++ f) ∧ ValueIs raw br f := by
  cases h1 : findSub ['\r', '\n'] s with
  | some x =>
    obtain ⟨a, b⟩ := x
    obtain ⟨rfl, f, rfl⟩ := findSub_some h1
    exact ⟨a, _, f, rfl, .inl ⟨rfl, findSub_crlf_free h1⟩⟩
  | none =>
    cases h2 : findSub ['\n'] s with
    | some x =>
      obtain ⟨a, b⟩ := x
      obtain ⟨rfl, f, rfl⟩ := findSub_some h2
      refine ⟨a, _, f, rfl, .inr (.inl ⟨rfl, findSub_lf_free h2, ?_⟩)⟩
      rw [List.append_assoc]
      exact findSub_none h1
    | none =>
      refine ⟨s, [], [], by simp, .inr (.inr ⟨rfl, fun hc => ?_, rfl⟩)⟩
      obtain ⟨a, b, rfl⟩ := List.append_of_mem hc
      exact findSub_none h2 ⟨a, b, by simp⟩

omit [Uni] in
theorem space_iff (c : Char) : (c == ' ' || c == '\t' || c == '\r' || c == '\n') = true ↔ Space c := by
  simp [Space, or_assoc]

theorem stopsAt_params {l : List PParam} {t s : Str} (h : ParamsAre l t (':' :: s)) :
    (∃ r, t ++ ':' :: s = ':' :: r) ∨ ∃ r, t ++ ':' :: s = ';' :: r := by
  cases l with
  | nil => obtain ⟨rfl, _⟩ := h; exact .inl ⟨s, rfl⟩
  | cons p l =>
    obtain ⟨a, b, ⟨_, blanks, form, _, rfl, _⟩, _, rfl⟩ := h
    exact .inr ⟨_, rfl⟩

/-- white space, a name, parameters and a colon -/
theorem head_reads {white k params s : Str} {ps : List PParam} (h1 : ∀ c ∈ white, Space c) (h2 : IsName k)
    (h3 : ParamsAre ps params (':' :: s)) (h4 : ¬ Keyword (white ++ (k ++ (params ++ ':' :: s)))) :
    pair (cut (preceded multispace0 propertyKey)) parameters (white ++ (k ++ (params ++ ':' :: s))) =
      .ok (':' :: s) (k, ps) := by
  have hs : StopsAt isKeyChar (params ++ ':' :: s) := by
    rcases stopsAt_params h3 with ⟨r, h⟩ | ⟨r, h⟩ <;> rw [h]
    · exact stopsAt_colon
    · exact stopsAt_semi
  have hm : multispace0 (white ++ (k ++ (params ++ ':' :: s))) = .ok (k ++ (params ++ ':' :: s)) white := by
    refine takeWhile_ok (fun c hc => (space_iff c).2 (h1 c hc)) (fun c hc => ?_)
    have hc' : isKeyChar c = true ∨ c = ':' ∨ c = ';' := by
      cases k with
      | nil =>
        rw [List.nil_append] at hc
        rcases stopsAt_params h3 with ⟨r, h⟩ | ⟨r, h⟩ <;> rw [h] at hc <;> cases hc <;> simp
      | cons d k => cases hc; exact .inl (name_keyChar h2 c (by simp))
    rcases hc' with hk | rfl | rfl
    · have e1 : c ≠ ' ' := fun h => by rw [h, isKeyChar_sp] at hk; cases hk
      have e2 : c ≠ '\t' := fun h => by rw [h, isKeyChar_tab] at hk; cases hk
      have e3 : c ≠ '\r' := fun h => by rw [h, isKeyChar_cr] at hk; cases hk
      have e4 : c ≠ '\n' := fun h => by rw [h, isKeyChar_lf] at hk; cases hk
      simp [e1, e2, e3, e4]
    · rfl
    · rfl
  have hk : propertyKey (k ++ (params ++ ':' :: s)) = .ok (params ++ ':' :: s) k :=
    propertyKey_ok h2 (fun h => h4 ⟨white, _, h1, rfl, .inl (h.trans (List.prefix_append _ _))⟩)
      (fun h => h4 ⟨white, _, h1, rfl, .inr (h.trans (List.prefix_append _ _))⟩) hs
  exact pair_run (cut_run (preceded_run hm hk)) (paramsAre_reads h3)

theorem mkProperty_eq (p : PProp) (raw : Str) (h : p.val =
    (if IsTextFor p.name ((p.params.find? (fun q => q.key == c!"VALUE")).bind PParam.val) then unescaped raw else raw)) :
    mkProperty ((p.name, p.params), raw) = p := by
  have hv := valueReads_mkProperty p.name p.params raw
  obtain ⟨name, val, params⟩ := p
  simp only at h hv ⊢
  have : (mkProperty ((name, params), raw)).val = val := by
    rw [h]
    split
    · rename_i hc; exact (hv.2 hc).1
    · rename_i hc; exact hv.1 hc
  rw [← this]
  rfl

theorem mkProperty_empty (k : Str) : mkProperty ((k, []), []) = ⟨k, [], []⟩ := by
  unfold mkProperty
  simp only
  cases determineValueType k [] with
  | none => rfl
  | some vt => cases vt <;> rfl

omit [Uni] in
/-- a text that does not start like a keyword after white space -/
theorem notKeyword_split {i : Str} (h : ¬ Keyword i) : ∃ white s, i = white ++ s ∧ (∀ c ∈ white, Space c) ∧
    multispace0 i = .ok s white ∧ ¬ c!"END" <+: s ∧ ¬ c!"BEGIN" <+: s := by
  obtain ⟨white, s, rfl, h1, h2⟩ := split_while (fun c => c == ' ' || c == '\t' || c == '\r' || c == '\n') i
  exact ⟨white, s, rfl, fun c hc => (space_iff c).1 (h1 c hc), takeWhile_ok h1 h2,
    fun hc => h ⟨white, s, fun c hc => (space_iff c).1 (h1 c hc), rfl, .inl hc⟩,
    fun hc => h ⟨white, s, fun c hc => (space_iff c).1 (h1 c hc), rfl, .inr hc⟩⟩

/-- a text that does not start like a keyword is a name with parameters, and maybe a colon follows -/
theorem head_total {i : Str} (h : ¬ Keyword i) : ∃ white k ps params s, i = white ++ (k ++ (params ++ s)) ∧
    (∀ c ∈ white, Space c) ∧ IsName k ∧ ParamsAre ps params s ∧
    pair (cut (preceded multispace0 propertyKey)) parameters i = .ok s (k, ps) := by
  obtain ⟨white, s, rfl, h1, h2, h3, h4⟩ := notKeyword_split h
  obtain ⟨k, g, rfl, h5, h6⟩ := name_split s
  obtain ⟨ps, params, f, rfl, h7⟩ := params_total g
  refine ⟨white, k, ps, params, f, rfl, h1, h5, h7, ?_⟩
  have hk : propertyKey (k ++ (params ++ f)) = .ok (params ++ f) k := by
    unfold propertyKey
    rw [if_neg]
    · exact validKeySequence_ok h5 (first_name.1 h6)
    · rw [Bool.or_eq_true, List.isPrefixOf_iff_prefix, List.isPrefixOf_iff_prefix]
      exact fun hc => hc.elim h3 h4
  exact pair_run (cut_run (preceded_run h2 hk)) (paramsAre_reads h7)

/-- a text without a colon after the name and the parameters -/
theorem noColon_error {i : Str} (h : ¬ Keyword i) (hc : ¬ HasColon i) :
    separatedPair (pair (cut (preceded multispace0 propertyKey)) parameters) (tag [':']) propertyRest i = .error := by
  obtain ⟨white, k, ps, params, s, rfl, h1, h2, h3, h4⟩ := head_total h
  have ht : tag [':'] s = .error := by
    cases s with
    | nil => rfl
    | cons c s =>
      refine tag_error (fun hcc => ?_)
      subst hcc
      exact hc ⟨white, k, ps, params, s, h1, h2, h3, by simp⟩
  simp only [separatedPair, map]
  simp [pair] at h4 ⊢
  simp [h4, ht]

theorem propIs_reads {p : PProp} {t f : Str} (h : PropIs p t f) : property (t ++ f) = .ok f p := by
  obtain ⟨h1, h2, h | h⟩ := h
  · obtain ⟨white, params, raw, br, h3, h4, h5, h6, rfl⟩ := h
    obtain ⟨h7, o, h8⟩ := valueIs_reads h5
    have e : white ++ p.name ++ params ++ ':' :: raw ++ br ++ f =
        white ++ (p.name ++ (params ++ ':' :: (raw ++ (br ++ f)))) := by simp
    rw [e] at h2 ⊢
    have hh := head_reads h3 h1 (by simpa using h4) h2
    have hp : propertyParts (white ++ (p.name ++ (params ++ ':' :: (raw ++ (br ++ f))))) =
        .ok (br ++ f) ((p.name, p.params), raw) :=
      alt_run (separatedPair_run hh (tag_ok [':'] _) h7)
    refine cut_run ?_
    have := map_run (g := fun x : ((Str × List PParam) × Str) × Option Str => mkProperty x.1) (pair_run hp h8)
    rw [this]
    simp only [mkProperty_eq p raw h6]
  · obtain ⟨h3, h4, h5, br, rfl, h6, h7⟩ := h
    have he := noColon_error h2 h5
    have ho : ∃ o, opt lineEnding (br ++ f) = .ok f o := by
      rcases h7 with rfl | rfl | ⟨rfl, h7⟩
      · exact ⟨_, rfl⟩
      · exact ⟨_, rfl⟩
      · exact ⟨none, opt_none (noBreak_iff.1 h7)⟩
    obtain ⟨o, ho⟩ := ho
    rw [List.append_assoc] at he ⊢
    have hp : propertyParts (p.name ++ (br ++ f)) = .ok (br ++ f) ((p.name, []), []) := by
      unfold propertyParts
      rw [alt_other he]
      exact map_run (validKeySequence_ok h1 (first_name.1 h6))
    refine cut_run ?_
    have := map_run (g := fun x : ((Str × List PParam) × Str) × Option Str => mkProperty x.1) (pair_run hp ho)
    rw [this]
    simp only [mkProperty_empty]
    obtain ⟨name, val, params⟩ := p
    simp only at h3 h4
    rw [h3, h4]

theorem keyword_fails {i : Str} (h : Keyword i) : property i = .failure := by
  obtain ⟨white, s, h1, rfl, h2⟩ := h
  have hm : multispace0 (white ++ s) = .ok s white := by
    refine takeWhile_ok (fun c hc => (space_iff c).2 (h1 c hc)) (fun c hc => ?_)
    rcases h2 with ⟨r, rfl⟩ | ⟨r, rfl⟩ <;> cases hc <;> rfl
  have hk : propertyKey s = .error := by
    unfold propertyKey
    rw [if_pos]
    rw [Bool.or_eq_true, List.isPrefixOf_iff_prefix, List.isPrefixOf_iff_prefix]
    exact h2
  simp [property, propertyParts, cut, map, pair, alt, separatedPair, preceded, hm, hk]

theorem prop_total {i : Str} (h : ¬ Keyword i) : ∃ p t f, i = t ++ f ∧ PropIs p t f := by
  by_cases hc : HasColon i
  · obtain ⟨white, k, ps, params, s, h1, h2, h3, rfl⟩ := hc
    obtain ⟨raw, br, f, rfl, h4⟩ := value_total s
    refine ⟨⟨k, if IsTextFor k ((ps.find? (fun q => q.key == c!"VALUE")).bind PParam.val) then unescaped raw
      else raw, ps⟩, white ++ k ++ params ++ ':' :: raw ++ br, f, by simp, h2, by simpa using h, .inl
      ⟨white, params, raw, br, h1, by simpa using h3, h4, rfl, rfl⟩⟩
  · obtain ⟨k, g, rfl, h1, h2⟩ := name_split i
    have : ∃ br f, g = br ++ f ∧ (br = ['\r', '\n'] ∨ br = ['\n'] ∨ br = [] ∧ NoBreak f) := by
      by_cases hb : NoBreak g
      · exact ⟨[], g, rfl, .inr (.inr ⟨rfl, hb⟩)⟩
      · unfold NoBreak at hb
        rw [Classical.not_and_iff_not_or_not, Classical.not_not, Classical.not_not] at hb
        rcases hb with ⟨r, rfl⟩ | ⟨r, rfl⟩
        · exact ⟨_, r, rfl, .inr (.inl rfl)⟩
        · exact ⟨_, r, rfl, .inl rfl⟩
    obtain ⟨br, f, rfl, h3⟩ := this
    exact ⟨⟨k, [], []⟩, k ++ br, f, by simp, h1, by simpa using h, .inr
      ⟨rfl, rfl, by simpa using hc, br, rfl, h2, h3⟩⟩

/-! ### Components -/

omit [Uni] in
theorem begins_iff {k i : Str} (t : Str) (ht : t.map lowerAscii = k) :
    prefixNoCase t i = true ↔ Begins k i := by
  constructor
  · intro h
    obtain ⟨b, r, h1, _, h2⟩ := prefixNoCase_append h
    exact ⟨b, r, h1, by rw [h2, ht]⟩
  · rintro ⟨b, r, rfl, h⟩
    have hl : b.length = t.length := by
      have h1 := congrArg List.length h
      have h2 := congrArg List.length ht
      simp only [List.length_map] at h1 h2
      omega
    rw [prefixNoCase_iff, ← hl]
    simp [h, ht]

omit [Uni] in
theorem begins_begin {i : Str} : prefixNoCase c!"BEGIN:" i = true ↔ Begins c!"begin:" i :=
  begins_iff _ (by decide)

omit [Uni] in
theorem begins_end {i : Str} : prefixNoCase c!"END:" i = true ↔ Begins c!"end:" i :=
  begins_iff _ (by decide)

omit [Uni] in
/-- what starts with BEGIN starts with a letter and not with END -/
theorem begins_begin_head {i : Str} (h : Begins c!"begin:" i) :
    (∃ c s, i = c :: s ∧ lowerAscii c = 'b') ∧ ¬ Begins c!"end:" i ∧ NoBreak i := by
  obtain ⟨b, r, rfl, hb⟩ := h
  obtain ⟨c, s, rfl, hc⟩ := keyword_head hb
  refine ⟨⟨c, s ++ r, rfl, hc⟩, ?_, noBreak_iff.2 ?_⟩
  · rw [← begins_end]
    simp [prefixNoCase_head_ne (show lowerAscii 'E' ≠ lowerAscii c by rw [hc]; decide)]
  · exact keyword_lineEnding hb (by decide) (by decide)

theorem letter_nameChar {k : Char} (hk : 97 ≤ k.toNat ∧ k.toNat ≤ 122) {c : Char} (h : lowerAscii c = k) :
    NameChar c := by
  refine .inl ?_
  unfold lowerAscii at h
  split at h
  · rename_i hc
    simp only [Bool.and_eq_true, decide_eq_true_eq] at hc
    rw [isAlnum_ascii (by omega)]
    simp; omega
  · subst h
    rw [isAlnum_ascii (by omega)]
    simp; omega

/-- what has no name does not start with a keyword -/
theorem nameless {i : Str} (h : First (fun c => ¬ NameChar c) i) : ¬ Begins c!"begin:" i ∧ ¬ Begins c!"end:" i := by
  constructor
  · rintro ⟨b, r, rfl, hb⟩
    obtain ⟨c, s, rfl, hc⟩ := keyword_head hb
    exact h c rfl (letter_nameChar (by decide) hc)
  · rintro ⟨b, r, rfl, hb⟩
    obtain ⟨c, s, rfl, hc⟩ := keyword_head hb
    exact h c rfl (letter_nameChar (by decide) hc)

/-- a property that takes no text has no name, and no name comes next -/
theorem propIs_nil {p : PProp} {f : Str} (h : PropIs p [] f) :
    p = ⟨[], [], []⟩ ∧ First (fun c => ¬ NameChar c) f := by
  obtain ⟨_, _, ⟨white, params, raw, br, _, _, _, _, he⟩ | ⟨h1, h2, _, br, h3, h4, _⟩⟩ := h
  · simp at he
  · obtain ⟨h5, rfl⟩ := List.append_eq_nil_iff.1 h3.symm
    obtain ⟨name, val, params⟩ := p
    simp only at h1 h2 h5
    exact ⟨by rw [h1, h2, h5], by simpa using h4⟩

theorem compIs_begins {c : PComp} {t f : Str} (h : CompIs c t f) : Begins c!"begin:" (t ++ f) ∧ t ≠ [] ∧ NoBreak f := by
  cases h with
  | @mk n _ _ b gap body e trail _ hb _ _ _ _ _ _ _ hf =>
    refine ⟨⟨b, n ++ (gap ++ (body ++ (e ++ (n ++ (trail ++ f))))), by simp only [List.append_assoc], hb⟩, ?_, hf⟩
    obtain ⟨c, s, rfl, hc⟩ := keyword_head hb
    simp

theorem stuck_begins {i : Str} (h : Stuck i) : Begins c!"begin:" i := by
  cases h with
  | mk hb => exact ⟨_, _, rfl, hb⟩

theorem broken_begins {i : Str} (h : Broken i) : Begins c!"begin:" i := by
  cases h with
  | close hb => exact ⟨_, _, rfl, hb⟩
  | word hb => exact ⟨_, _, rfl, hb⟩
  | inner hb => exact ⟨_, _, rfl, hb⟩

/-- the reader does what the specification says -/
structure AsSpecified (i : Str) : Prop where
  comp : ∀ c t f, i = t ++ f → CompIs c t f → component i = .ok f c
  stuck : Stuck i → component i = .error
  broken : Broken i → component i = .failure

omit [Uni] in
theorem componentEnd_other {n i : Str} (h : NoBreak i) (he : ¬ Begins c!"end:" i) : componentEnd n i = .error :=
  line_error (noBreak_iff.1 h) (by rw [← begins_end] at he; simpa using he)

theorem component_other {i : Str} (h : NoBreak i) (he : ¬ Begins c!"begin:" i) : component i = .error :=
  component_error (noBreak_iff.1 h) (by rw [← begins_begin] at he; simpa using he)

/-- a property as an element of a body -/
theorem child_prop {p : PProp} {t trail r : Str} (hn : NoBreak (t ++ (trail ++ r)))
    (hc : component (t ++ (trail ++ r)) = .error) (hp : PropIs p t (trail ++ r)) (ht : Blank trail) (hr : NoBreak r) :
    componentChild component (t ++ (trail ++ r)) = .ok r (.prop p) := by
  rw [noBreak_iff] at hn hr
  obtain ⟨l, hl⟩ := many0_blank ht hr
  unfold componentChild cut alt map
  rw [lineSeparated_error hn hc, lineSeparated_ok hn (propIs_reads hp) hl]

theorem body_reads {N : Nat} (ih : ∀ j : Str, j.length < N → AsSpecified j) {props : List PProp} {comps : List PComp}
    {body f : Str} (h : BodyIs props comps body f) (hb : NoBreak (body ++ f)) (hN : (body ++ f).length < N) :
    ∃ l, childProps l = props ∧ childComps l = comps ∧ NoBreak f ∧ ∀ n,
      manyTill (componentChild component) (componentEnd n) (body ++ f) =
        prependChildren l (manyTill (componentChild component) (componentEnd n) f) := by
  induction hm : body.length using Nat.strongRecOn generalizing props comps body with
  | _ m ihm =>
    have step : ∀ {t trail rest : Str} {p : PProp} {ps : List PProp}, body = t ++ (trail ++ rest) → props = p :: ps →
        component (t ++ (trail ++ (rest ++ f))) = .error → ¬ Begins c!"end:" (t ++ (trail ++ (rest ++ f))) →
        PropIs p t (trail ++ (rest ++ f)) → t ≠ [] → Blank trail → NoBreak (rest ++ f) → BodyIs ps comps rest f →
        ∃ l, childProps l = props ∧ childComps l = comps ∧ NoBreak f ∧ ∀ n,
          manyTill (componentChild component) (componentEnd n) (body ++ f) =
            prependChildren l (manyTill (componentChild component) (componentEnd n) f) := by
      rintro t trail rest p ps rfl rfl hc he hp hne htr hnb hrest
      have hlt : 0 < t.length := List.length_pos_iff.2 hne
      simp only [List.append_assoc] at hb
      simp only [List.length_append] at hN hm
      obtain ⟨l, h1, h2, h3, h4⟩ := ihm rest.length (by omega) hrest hnb
        (by simp only [List.length_append]; omega) rfl
      refine ⟨.prop p :: l, by simpa [childProps] using h1, by simpa [childComps] using h2, h3, fun n => ?_⟩
      simp only [List.append_assoc]
      rw [manyTill_eq (shrinks_componentChild shrinks_component), componentEnd_other hb he,
        child_prop hb hc hp htr hnb]
      simp only
      rw [if_neg (by simp only [List.length_append]; omega), h4]
      cases manyTill (componentChild component) (componentEnd n) f <;> rfl
    cases h with
    | nil =>
      refine ⟨[], rfl, rfl, hb, fun n => ?_⟩
      rw [List.nil_append]
      cases manyTill (componentChild component) (componentEnd n) f <;> rfl
    | prop he hg hp hne htr hnb hrest =>
      exact step rfl rfl (component_other (by simpa using hb) hg) he hp hne htr hnb hrest
    | stuck hs hp hne htr hnb hrest =>
      exact step rfl rfl ((ih _ (by simpa using hN)).stuck hs) (begins_begin_head (stuck_begins hs)).2.1 hp hne htr hnb
        hrest
    | @comp c _ comps t rest _ hc hrest =>
      obtain ⟨h1, h2, h3⟩ := compIs_begins hc
      have hlt : 0 < t.length := List.length_pos_iff.2 h2
      have hr := (ih (t ++ (rest ++ f)) (by simpa using hN)).comp c t (rest ++ f) rfl hc
      simp only [List.append_assoc] at hb
      simp only [List.length_append] at hN hm
      obtain ⟨l, h4, h5, h6, h7⟩ := ihm rest.length (by omega) hrest h3
        (by simp only [List.length_append]; omega) rfl
      refine ⟨.comp c :: l, by simpa [childProps] using h4, by simpa [childComps] using h5, h6, fun n => ?_⟩
      simp only [List.append_assoc]
      have hch : componentChild component (t ++ (rest ++ f)) = .ok (rest ++ f) (.comp c) := by
        unfold componentChild cut alt map
        rw [lineSeparated_ok (noBreak_iff.1 hb) hr (many0_lineEnding_none (noBreak_iff.1 h3))]
      rw [manyTill_eq (shrinks_componentChild shrinks_component),
        componentEnd_other hb (begins_begin_head h1).2.1, hch]
      simp only
      rw [if_neg (by simp only [List.length_append]; omega), h7]
      cases manyTill (componentChild component) (componentEnd n) f <;> rfl

/-- the BEGIN line of a component -/
theorem begin_reads {b n gap s : Str} (h1 : b.map lowerAscii = c!"begin:") (h2 : IsName n)
    (h3 : First (fun c => ¬ NameChar c) (gap ++ s)) (h4 : Blank gap) (h5 : NoBreak s) :
    line c!"BEGIN:" validKeySequence (b ++ (n ++ (gap ++ s))) = .ok s n :=
  line_blank (lead := []) blank_nil (by rw [h1]; decide) (keyword_lineEnding h1 (by decide) (by decide))
    (validKeySequence_ok h2 (first_name.1 h3)) h4 (noBreak_iff.1 h5)

/-- the reader on a component, given what it does after some elements of the body -/
theorem component_run {b n gap body f : Str} {props : List PProp} {comps : List PComp}
    (ih : ∀ j : Str, j.length < (b ++ (n ++ (gap ++ (body ++ f)))).length → AsSpecified j)
    (h1 : b.map lowerAscii = c!"begin:") (h2 : IsName n) (h3 : First (fun c => ¬ NameChar c) (gap ++ (body ++ f)))
    (h4 : Blank gap) (h5 : NoBreak (body ++ f)) (h6 : BodyIs props comps body f) :
    NoBreak f ∧ (manyTill (componentChild component) (componentEnd n) f = .error →
      component (b ++ (n ++ (gap ++ (body ++ f)))) = .error) ∧
    (manyTill (componentChild component) (componentEnd n) f = .failure →
      component (b ++ (n ++ (gap ++ (body ++ f)))) = .failure) ∧
    (∀ r x, NoBreak r → manyTill (componentChild component) (componentEnd n) f = .ok r ([], x) →
      component (b ++ (n ++ (gap ++ (body ++ f)))) = .ok r (.mk n props comps)) := by
  have hl : (body ++ f).length < (b ++ (n ++ (gap ++ (body ++ f)))).length := by
    obtain ⟨c, s, rfl, _⟩ := keyword_head h1
    simp only [List.length_append, List.length_cons]; omega
  obtain ⟨l, rfl, rfl, h7, h8⟩ := body_reads ih h6 h5 hl
  have hb := begin_reads h1 h2 h3 h4 h5
  refine ⟨h7, fun h => ?_, fun h => ?_, fun r x hr h => ?_⟩
  · rw [component_eq]
    simp only [componentBody, hb, h8 n, h, prependChildren]
  · rw [component_eq]
    simp only [componentBody, hb, h8 n, h, prependChildren]
  · rw [component_eq]
    simp only [componentBody, hb, h8 n, h, prependChildren, many0_lf_none (noBreak_iff.1 hr), List.append_nil]

/-- the reader does what the specification says, on all texts -/
theorem as_specified (i : Str) : AsSpecified i := by
  induction hN : i.length using Nat.strongRecOn generalizing i with
  | _ N ih =>
    have ih' : ∀ j : Str, j.length < i.length → AsSpecified j := fun j hj => ih j.length (by omega) j rfl
    refine ⟨?_, ?_, ?_⟩
    · rintro c t f rfl h
      cases h with
      | @mk n props comps b gap body e trail _ h1 h2 h3 h4 h5 h6 h7 h8 h9 =>
        have e1 : b ++ (n ++ (gap ++ (body ++ (e ++ (n ++ trail))))) ++ f =
            b ++ (n ++ (gap ++ (body ++ (e ++ (n ++ (trail ++ f)))))) := by simp only [List.append_assoc]
        rw [e1] at ih' ⊢
        exact (component_run ih' h1 h2 h3 h4 h5 h6).2.2.2 f n h9
          (manyTill_stop (componentEnd_blank h7 h8 (noBreak_iff.1 h9)))
    · intro h
      cases h with
      | @mk n props comps b gap body f h1 h2 h3 h4 h5 h6 h7 =>
        obtain ⟨r1, r2, _⟩ := component_run ih' h1 h2 h3 h4 h5 h6
        refine r2 ?_
        obtain ⟨h8, h9⟩ := nameless (propIs_nil h7).2
        have hch : componentChild component f = .ok f (.prop ⟨[], [], []⟩) :=
          child_prop (t := []) (trail := []) r1 (component_other r1 h8) h7 blank_nil r1
        rw [manyTill_eq (shrinks_componentChild shrinks_component), componentEnd_other r1 h9, hch]
        simp
    · intro h
      cases h with
      | @close n props comps b gap body e f h1 h2 h3 h4 h5 h6 h7 h8 =>
        obtain ⟨r1, _, r3, _⟩ := component_run ih' h1 h2 h3 h4 h5 h6
        refine r3 ?_
        have he : componentEnd n (e ++ f) = .failure := by
          refine lineSeparated_failure (noBreak_iff.1 r1) ?_
          have ht : tag n f = .error := by
            unfold tag
            rw [if_neg]
            rwa [List.isPrefixOf_iff_prefix]
          unfold complete preceded map pair
          rw [tagNoCase_ok (t := c!"END:") (by rw [h7]; decide)]
          simp [cut, ht]
        rw [manyTill_eq (shrinks_componentChild shrinks_component), he]
      | @word n props comps b gap body f h1 h2 h3 h4 h5 h6 h7 h8 h9 =>
        obtain ⟨r1, _, r3, _⟩ := component_run ih' h1 h2 h3 h4 h5 h6
        refine r3 ?_
        have hc : component f = .error := by
          by_cases hg : Begins c!"begin:" f
          · refine (ih' f ?_).stuck (h9 hg)
            obtain ⟨c, s, rfl, _⟩ := keyword_head h1
            simp only [List.length_append, List.length_cons]; omega
          · exact component_other r1 hg
        have hch : componentChild component f = .failure := by
          unfold componentChild cut alt map
          rw [lineSeparated_error (noBreak_iff.1 r1) hc, lineSeparated_failure (noBreak_iff.1 r1) (keyword_fails h7)]
        rw [manyTill_eq (shrinks_componentChild shrinks_component), componentEnd_other r1 h8, hch]
      | @inner n props comps b gap body f h1 h2 h3 h4 h5 h6 h7 =>
        obtain ⟨r1, _, r3, _⟩ := component_run ih' h1 h2 h3 h4 h5 h6
        refine r3 ?_
        have hc : component f = .failure := by
          refine (ih' f ?_).broken h7
          obtain ⟨c, s, rfl, _⟩ := keyword_head h1
          simp only [List.length_append, List.length_cons]; omega
        have hch : componentChild component f = .failure := by
          unfold componentChild cut alt map
          rw [lineSeparated_failure (noBreak_iff.1 r1) hc]
        rw [manyTill_eq (shrinks_componentChild shrinks_component),
          componentEnd_other r1 (begins_begin_head (broken_begins h7)).2.1, hch]

/-! ### There are no other texts -/

/-- what comes after the elements of a body -/
def BodyEnds (f : Str) : Prop :=
  Begins c!"end:" f ∨ PropIs ⟨[], [], []⟩ [] f ∨
    (Keyword f ∧ ¬ Begins c!"end:" f ∧ (Begins c!"begin:" f → Stuck f)) ∨ Broken f

theorem body_total {N : Nat} (ih : ∀ j : Str, j.length < N → Begins c!"begin:" j →
      (∃ c t f, j = t ++ f ∧ CompIs c t f) ∨ Stuck j ∨ Broken j) {g : Str} (hg : NoBreak g) (hN : g.length < N) :
    ∃ props comps body f, g = body ++ f ∧ BodyIs props comps body f ∧ BodyEnds f := by
  induction hm : g.length using Nat.strongRecOn generalizing g with
  | _ m ihm =>
    by_cases he : Begins c!"end:" g
    · exact ⟨[], [], [], g, rfl, .nil, .inl he⟩
    · have byProp : ∀ (hs : Begins c!"begin:" g → Stuck g),
          ∃ props comps body f, g = body ++ f ∧ BodyIs props comps body f ∧ BodyEnds f := by
        intro hs
        by_cases hk : Keyword g
        · exact ⟨[], [], [], g, rfl, .nil, .inr (.inr (.inl ⟨hk, he, hs⟩))⟩
        · obtain ⟨p, t, s, rfl, hp⟩ := prop_total hk
          by_cases ht : t = []
          · subst ht
            obtain ⟨rfl, -⟩ := propIs_nil hp
            exact ⟨[], [], [], s, rfl, .nil, .inr (.inl hp)⟩
          · obtain ⟨trail, r, rfl, h1, h2⟩ := blank_split s
            have hlt : 0 < t.length := List.length_pos_iff.2 ht
            simp only [List.length_append] at hN hm
            obtain ⟨props, comps, body, f, rfl, h3, h4⟩ := ihm r.length (by omega) h2 (by omega) rfl
            refine ⟨p :: props, comps, t ++ (trail ++ body), f, by simp, ?_, h4⟩
            by_cases hb : Begins c!"begin:" (t ++ (trail ++ (body ++ f)))
            · exact .stuck (hs hb) hp ht h1 h2 h3
            · exact .prop he hb hp ht h1 h2 h3
      by_cases hb : Begins c!"begin:" g
      · rcases ih g hN hb with ⟨c, t, s, rfl, hc⟩ | hs | hs
        · obtain ⟨_, h2, h3⟩ := compIs_begins hc
          have hlt : 0 < t.length := List.length_pos_iff.2 h2
          simp only [List.length_append] at hN hm
          obtain ⟨props, comps, body, f, rfl, h4, h5⟩ := ihm s.length (by omega) h3 (by omega) rfl
          exact ⟨props, c :: comps, t ++ body, f, by simp, .comp hc h4, h5⟩
        · exact byProp (fun _ => hs)
        · exact ⟨[], [], [], g, rfl, .nil, .inr (.inr (.inr hs))⟩
      · exact byProp (fun h => absurd h hb)

/-- a text that starts with BEGIN is a component with maybe some text after it, or it is not closed, or reading fails -/
theorem comp_total (i : Str) (h : Begins c!"begin:" i) : (∃ c t f, i = t ++ f ∧ CompIs c t f) ∨ Stuck i ∨ Broken i := by
  induction hN : i.length using Nat.strongRecOn generalizing i with
  | _ N ih =>
    obtain ⟨b, r, rfl, hb⟩ := h
    obtain ⟨n, s, rfl, h1, h2⟩ := name_split r
    obtain ⟨gap, g, rfl, h3, h4⟩ := blank_split s
    have hl : 0 < b.length := by
      obtain ⟨c, s, rfl, _⟩ := keyword_head hb
      simp
    simp only [List.length_append] at hN
    obtain ⟨props, comps, body, f, rfl, h5, h6⟩ := body_total (N := N)
      (fun j hj hjb => ih j.length hj j hjb rfl) h4 (by omega)
    rcases h6 with ⟨e, s, rfl, he⟩ | h6 | ⟨h6, h7, h8⟩ | h6
    · by_cases hn : n <+: s
      · obtain ⟨s', rfl⟩ := hn
        obtain ⟨trail, f, rfl, h8, h9⟩ := blank_split s'
        exact .inl ⟨_, _, f, by simp only [List.append_assoc], .mk hb h1 h2 h3 h4 h5 he h8 h9⟩
      · exact .inr (.inr (.close hb h1 h2 h3 h4 h5 he hn))
    · exact .inr (.inl (.mk hb h1 h2 h3 h4 h5 h6))
    · exact .inr (.inr (.word hb h1 h2 h3 h4 h5 h6 h7 h8))
    · exact .inr (.inr (.inner hb h1 h2 h3 h4 h5 h6))

end Ical
