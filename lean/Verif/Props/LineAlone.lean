import Verif.Spec.LineAlone
import Verif.Props.Acceptance

/-!
C125: the content lines whose reading does not depend on the lines after them.
-/

namespace Ical

open Nom Spec

/-- the end of a text, or a line break and any text -/
def BreakOrEnd (t : Str) : Prop := t = [] ∨ ∃ r, t = '\r' :: '\n' :: r

variable [Uni]

omit [Uni] in
theorem first_append {P : Char → Prop} {s t : Str} (h : First P s) (ht : BreakOrEnd t) (hp : P '\r') : First P (s ++ t) := by
  cases s with
  | nil =>
    rcases ht with rfl | ⟨r, rfl⟩
    · exact h
    · intro c hc
      cases hc
      exact hp
  | cons a s => exact h

omit [Uni] in
theorem head_append {s t : Str} {c : Char} (h : s.head? = some c) : (s ++ t).head? = some c := by
  cases s with
  | nil => cases h
  | cons a s => exact h

theorem cr_not_name : ¬ NameChar '\r' := by
  rw [← isKeyChar_iff, isKeyChar_cr]
  simp

/-- the parameters of a line that ends them -/
theorem endsHere_params {s : Str} (h : EndsHere s) : ∃ ps params f, s = params ++ f ∧
    ∀ t, BreakOrEnd t → ParamsAre ps params (f ++ t) := by
  induction h with
  | @stop s h => exact ⟨[], [], s, rfl, fun t ht => ⟨rfl, first_append h ht (by decide)⟩⟩
  | @param blanks k form s h1 h2 h3 h4 h5 _ ih =>
    obtain ⟨ps, params, f, rfl, ih⟩ := ih
    have e3 : ∀ t, BreakOrEnd t → First (fun c => c ≠ ' ' ∧ c ≠ '\t') (k ++ form ++ (params ++ (f ++ t))) := by
      intro t ht
      have := first_append h3 ht (by decide)
      simpa using this
    have e4 : ∀ t, BreakOrEnd t → First (fun c => ¬ NameChar c) (form ++ (params ++ (f ++ t))) := by
      intro t ht
      have := first_append h4 ht cr_not_name
      simpa using this
    have hcs : ∀ t, ((params ++ f).head? = some ':' ∨ (params ++ f).head? = some ';') →
        First (fun c => c = ':' ∨ c = ';') (params ++ (f ++ t)) := by
      intro t h c hc
      rw [← List.append_assoc] at hc
      rcases h with h | h <;> rw [head_append h] at hc <;> cases hc <;> simp
    rcases h5 with ⟨rfl, h5⟩ | ⟨rfl, h5⟩ | ⟨v, h5, h6, rfl⟩ | ⟨v, h5, h6, h7, rfl, h8, h9⟩
    · refine ⟨⟨k, none⟩ :: ps, ';' :: blanks ++ k ++ params, f, by simp, fun t ht =>
        ⟨';' :: blanks ++ k, params, ⟨h2, blanks, [], h1, by simp, e3 t ht, e4 t ht, .inl ⟨rfl, ?_⟩⟩, ih t ht, rfl⟩⟩
      have := first_append h5 ht (by decide)
      simpa using this
    · exact ⟨⟨k, none⟩ :: ps, ';' :: blanks ++ k ++ ['='] ++ params, f, by simp, fun t ht =>
        ⟨';' :: blanks ++ k ++ ['='], params, ⟨h2, blanks, ['='], h1, rfl, e3 t ht, e4 t ht, .inr ⟨rfl, hcs t h5⟩⟩, ih t ht, rfl⟩⟩
    · exact ⟨⟨k, some v⟩ :: ps, ';' :: blanks ++ k ++ ('=' :: '"' :: v ++ ['"']) ++ params, f, by simp, fun t ht =>
        ⟨_, params, ⟨h2, blanks, _, h1, rfl, e3 t ht, e4 t ht, h5, .inl ⟨rfl, h6⟩⟩, ih t ht, rfl⟩⟩
    · refine ⟨⟨k, some v⟩ :: ps, ';' :: blanks ++ k ++ ('=' :: v) ++ params, f, by simp, fun t ht =>
        ⟨_, params, ⟨h2, blanks, _, h1, rfl, e3 t ht, e4 t ht, h5, .inr ⟨rfl, h6, h7, hcs t h8, ?_⟩⟩, ih t ht, rfl⟩⟩
      rintro w hw1 hw2 hw
      cases v with
      | nil => exact h5 rfl
      | cons a v =>
        cases w with
        | nil => exact hw1 rfl
        | cons b w =>
          simp only [List.cons_append, List.cons_prefix_cons] at hw
          rcases h9 with h9 | h9
          · exact h9 (by simp [← hw.1])
          · simp only [List.cons_prefix_cons] at h9
            cases v with
            | nil => simp at h9
            | cons d v =>
              simp only [List.cons_append, List.cons_prefix_cons] at hw h9
              exact hw2 (by rw [hw.2.1, h9.2.1]; simp)

omit [Uni] in
/-- whether a line starts like a keyword does not depend on what follows -/
theorem keyword_append {blanks s t : Str} (hb : ∀ c ∈ blanks, Space c) (hs : First (fun c => ¬ Space c) s) (hne : s ≠ [])
    (ht : BreakOrEnd t) : Keyword (blanks ++ s ++ t) ↔ Keyword (blanks ++ s) := by
  constructor
  · rintro ⟨white, r, h1, h2, h3⟩
    refine ⟨blanks, s, hb, rfl, ?_⟩
    have hr : s ++ t = r := by
      have hs' : First (fun c => ¬ Space c) (s ++ t) := by
        cases s with
        | nil => exact absurd rfl hne
        | cons a s => exact hs
      have hr' : First (fun c => ¬ Space c) r := by
        intro c hc
        rcases h3 with ⟨u, rfl⟩ | ⟨u, rfl⟩ <;> cases hc <;> simp [Space]
      rw [List.append_assoc] at h2
      clear h3 hne hs ht
      induction blanks generalizing white with
      | nil =>
        cases white with
        | nil => exact h2
        | cons a white =>
          rw [List.nil_append] at h2
          exact absurd (h1 a (by simp)) (hs' a (by rw [h2]; rfl))
      | cons b blanks ih =>
        cases white with
        | nil =>
          rw [List.nil_append] at h2
          exact absurd (hb b (by simp)) (hr' b (by rw [← h2]; rfl))
        | cons a white =>
          simp only [List.cons_append, List.cons.injEq] at h2
          exact ih (fun c hc => hb c (by simp [hc])) white (fun c hc => h1 c (by simp [hc])) h2.2
    subst hr
    have : ∀ K : Str, '\r' ∉ K → K <+: s ++ t → K <+: s := by
      intro K hK hp
      rcases ht with rfl | ⟨r, rfl⟩
      · simpa using hp
      · rw [List.prefix_iff_eq_take] at hp ⊢
        by_cases hl : K.length ≤ s.length
        · rwa [List.take_append_of_le_length hl] at hp
        · exfalso
          apply hK
          rw [hp, List.mem_take_iff_getElem]
          exact ⟨s.length, by simp; omega, by simp⟩
    exact h3.imp (this _ (by decide)) (this _ (by decide))
  · rintro ⟨white, r, h1, h2, h3⟩
    refine ⟨white, r ++ t, h1, by rw [h2]; simp, ?_⟩
    exact h3.imp (fun h => h.trans (List.prefix_append _ _)) (fun h => h.trans (List.prefix_append _ _))

/-- a text that has no colon where it should be -/
theorem readProperty_noColon {i k g : Str} (h1 : ¬ Keyword i) (h2 : ¬ HasColon i) (h3 : i = k ++ g) (h4 : IsName k)
    (h5 : First (fun c => ¬ NameChar c) g) : readProperty i = some ⟨k, [], []⟩ := by
  have : ∃ br f, g = br ++ f ∧ (br = ['\r', '\n'] ∨ br = ['\n'] ∨ br = [] ∧ NoBreak f) := by
    by_cases hb : NoBreak g
    · exact ⟨[], g, rfl, .inr (.inr ⟨rfl, hb⟩)⟩
    · unfold NoBreak at hb
      rw [Classical.not_and_iff_not_or_not, Classical.not_not, Classical.not_not] at hb
      rcases hb with ⟨r, rfl⟩ | ⟨r, rfl⟩
      · exact ⟨_, r, rfl, .inr (.inl rfl)⟩
      · exact ⟨_, r, rfl, .inl rfl⟩
  obtain ⟨br, f, rfl, h6⟩ := this
  subst h3
  have := propIs_reads (p := ⟨k, [], []⟩) (t := k ++ br) (f := f) ⟨h4, by simpa using h1, .inr
      ⟨rfl, rfl, by simpa using h2, br, rfl, h5, h6⟩⟩
  rw [List.append_assoc] at this
  unfold readProperty
  rw [this]
  rfl

/-- a text with a name, parameters, a colon and a value -/
theorem readProperty_colon {white k params raw t : Str} {ps : List PParam} (h1 : ∀ c ∈ white, Space c) (h2 : IsName k)
    (h3 : ParamsAre ps params (':' :: raw ++ t)) (h4 : ¬ Keyword (white ++ (k ++ (params ++ ':' :: raw)) ++ t))
    (ht : BreakOrEnd t) (hr : '\n' ∉ raw) :
    readProperty (white ++ (k ++ (params ++ ':' :: raw)) ++ t) = some ⟨k,
      if IsTextFor k ((ps.find? (fun q => q.key == c!"VALUE")).bind PParam.val) then unescaped raw else raw, ps⟩ := by
  have hin : ¬ ['\r', '\n'] <:+: raw := fun h => hr (h.subset (by simp))
  unfold readProperty
  rcases ht with rfl | ⟨r, rfl⟩
  · have := propIs_reads (p := ⟨k, if IsTextFor k ((ps.find? (fun q => q.key == c!"VALUE")).bind PParam.val)
        then unescaped raw else raw, ps⟩) (t := white ++ k ++ params ++ ':' :: raw ++ []) (f := [])
      ⟨h2, by simpa using h4, .inl ⟨white, params, raw, [], h1, by simpa using h3, .inr (.inr ⟨rfl, hr, rfl⟩), rfl, rfl⟩⟩
    have e : white ++ (k ++ (params ++ ':' :: raw)) ++ [] = white ++ k ++ params ++ ':' :: raw ++ [] ++ [] := by simp
    rw [e, this]
    rfl
  · have := propIs_reads (p := ⟨k, if IsTextFor k ((ps.find? (fun q => q.key == c!"VALUE")).bind PParam.val)
        then unescaped raw else raw, ps⟩) (t := white ++ k ++ params ++ ':' :: raw ++ ['\r', '\n']) (f := r)
      ⟨h2, by simpa using h4, .inl ⟨white, params, raw, ['\r', '\n'], h1, by simpa using h3, .inl ⟨rfl, hin⟩, rfl, rfl⟩⟩
    have e : white ++ (k ++ (params ++ ':' :: raw)) ++ '\r' :: '\n' :: r =
        white ++ k ++ params ++ ':' :: raw ++ ['\r', '\n'] ++ r := by simp
    rw [e, this]
    rfl

/-- what reading the name and the parameters gives, whether or not a colon follows -/
theorem head_known {white k params f : Str} {ps : List PParam} (h1 : ∀ c ∈ white, Space c) (h2 : IsName k)
    (h3 : First (fun c => ¬ Space c) (k ++ (params ++ f))) (h4 : First (fun c => ¬ NameChar c) (params ++ f))
    (h5 : ParamsAre ps params f) (h6 : ¬ Keyword (white ++ (k ++ (params ++ f)))) :
    pair (cut (preceded multispace0 propertyKey)) parameters (white ++ (k ++ (params ++ f))) = .ok f (k, ps) := by
  have hm : multispace0 (white ++ (k ++ (params ++ f))) = .ok (k ++ (params ++ f)) white := by
    refine takeWhile_ok (fun c hc => (space_iff c).2 (h1 c hc)) (fun c hc => ?_)
    have : ¬ Space c := h3 c hc
    rw [← space_iff] at this
    simpa using this
  have hk : propertyKey (k ++ (params ++ f)) = .ok (params ++ f) k := by
    unfold propertyKey
    rw [if_neg]
    · exact validKeySequence_ok h2 (first_name.1 h4)
    · rw [Bool.or_eq_true, List.isPrefixOf_iff_prefix, List.isPrefixOf_iff_prefix]
      exact fun hc => h6 ⟨white, _, h1, rfl, hc⟩
  exact pair_run (cut_run (preceded_run hm hk)) (paramsAre_reads h5)

theorem not_hasColon {white k params f : Str} {ps : List PParam} (h1 : ∀ c ∈ white, Space c) (h2 : IsName k)
    (h3 : First (fun c => ¬ Space c) (k ++ (params ++ f))) (h4 : First (fun c => ¬ NameChar c) (params ++ f))
    (h5 : ParamsAre ps params f) (h6 : ¬ Keyword (white ++ (k ++ (params ++ f)))) (h7 : f.head? ≠ some ':') :
    ¬ HasColon (white ++ (k ++ (params ++ f))) := by
  rintro ⟨white', k', ps', params', rest, g1, g2, g3, g4⟩
  have e1 := head_known h1 h2 h3 h4 h5 h6
  have e : white ++ (k ++ (params ++ f)) = white' ++ (k' ++ (params' ++ ':' :: rest)) := by rw [g4]; simp
  have e2 := head_reads g1 g2 g3 (e ▸ h6)
  rw [← e, e1] at e2
  simp only [Res.ok.injEq] at e2
  exact h7 (by rw [e2.1]; rfl)

/-- a line that is read by itself, and what may follow it -/
theorem byItself_reads {line : Str} (hl : '\n' ∉ line) (h : ByItself line) :
    ∃ o, ∀ t, BreakOrEnd t → readProperty (line ++ t) = o := by
  by_cases hk : Keyword line
  · refine ⟨none, fun t _ => ?_⟩
    have : Keyword (line ++ t) := by
      obtain ⟨white, r, h1, h2, h3⟩ := hk
      exact ⟨white, r ++ t, h1, by rw [h2]; simp,
        h3.imp (fun h => h.trans (List.prefix_append _ _)) (fun h => h.trans (List.prefix_append _ _))⟩
    simp [readProperty, keyword_fails this, finish]
  · obtain ⟨blanks, k, s, rfl, h1, h2, h3, h4, h5, h6⟩ := h.resolve_left hk
    have h1' : ∀ c ∈ blanks, Space c := fun c hc => (h1 c hc).imp id Or.inl
    obtain ⟨ps, params, f, rfl, h7⟩ := endsHere_params h6
    have hkt : ∀ t, BreakOrEnd t → ¬ Keyword (blanks ++ (k ++ (params ++ f)) ++ t) :=
      fun t ht => mt (keyword_append h1' h3 h5 ht).1 hk
    by_cases hf : f.head? = some ':'
    · obtain ⟨raw, rfl⟩ : ∃ raw, f = ':' :: raw := by
        cases f with
        | nil => cases hf
        | cons c raw => cases hf; exact ⟨raw, rfl⟩
      exact ⟨_, fun t ht => readProperty_colon h1' h2 (h7 t ht) (hkt t ht) ht (fun hr => hl (by simp [hr]))⟩
    · obtain ⟨k0, g, e, h8, h9⟩ := name_split (blanks ++ (k ++ (params ++ f)))
      refine ⟨some ⟨k0, [], []⟩, fun t ht => ?_⟩
      have hc : ¬ HasColon (blanks ++ (k ++ (params ++ f)) ++ t) := by
        have e' : blanks ++ (k ++ (params ++ f)) ++ t = blanks ++ (k ++ (params ++ (f ++ t))) := by simp
        have g3 : First (fun c => ¬ Space c) (k ++ (params ++ (f ++ t))) := by
          intro c hc
          refine h3 c ?_
          cases hh : k ++ (params ++ f) with
          | nil => exact absurd hh h5
          | cons a l =>
            have : k ++ (params ++ (f ++ t)) = a :: (l ++ t) := by
              have := congrArg (· ++ t) hh
              simpa using this
            rw [this] at hc
            exact hc
        have g4 : First (fun c => ¬ NameChar c) (params ++ (f ++ t)) := by
          have := first_append h4 ht cr_not_name
          simpa using this
        have g6 := hkt t ht
        rw [e'] at g6 ⊢
        refine not_hasColon h1' h2 g3 g4 (h7 t ht) g6 ?_
        cases f with
        | nil =>
          rcases ht with rfl | ⟨r, rfl⟩
          · exact hf
          · simp
        | cons a f => exact hf
      exact readProperty_noColon (hkt t ht) hc (by rw [e]; simp) h8 (first_append h9 ht cr_not_name)

/-- a text whose parameters do not end in it can be continued so that a colon and any letter come next -/
theorem not_endsHere {s : Str} (hr : '\n' ∉ s) (h : ¬ EndsHere s) : ∃ u : Str, ∀ c : Char, ∃ ps params,
    s ++ '\r' :: '\n' :: (u ++ [':', c]) = params ++ [':', c] ∧ ParamsAre ps params [':', c] := by
  induction hn : s.length using Nat.strongRecOn generalizing s with
  | _ n ih =>
    have hfirst : ∀ {d : Char} {g : Str}, ¬ First (fun c => c ≠ d) g → ∃ j, g = d :: j := by
      intro d g h
      cases g with
      | nil => exact absurd (fun c hc => by cases hc) h
      | cons c j =>
        by_cases hc : c = d
        · exact ⟨j, by rw [hc]⟩
        · exact absurd (fun d hd => by cases hd; exact hc) h
    obtain ⟨j, rfl⟩ := hfirst (fun hc => h (.stop hc))
    obtain ⟨blanks, j1, rfl, h1, h2⟩ := split_while (fun c => c == ' ' || c == '\t') j
    obtain ⟨k, g, rfl, h3, h4⟩ := name_split j1
    have h1' : ∀ c ∈ blanks, c = ' ' ∨ c = '\t' := fun c hc => by simpa using h1 c hc
    have h2' : First (fun c => c ≠ ' ' ∧ c ≠ '\t') (k ++ g) := fun c hc => by simpa using h2 c hc
    have a2 : ∀ r, First (fun c => c ≠ ' ' ∧ c ≠ '\t') (k ++ g ++ '\r' :: '\n' :: r) :=
      fun r => first_append h2' (.inr ⟨r, rfl⟩) (by decide)
    have a4 : ∀ r, First (fun c => ¬ NameChar c) (g ++ '\r' :: '\n' :: r) :=
      fun r => first_append h4 (.inr ⟨r, rfl⟩) cr_not_name
    -- the parameter ends, so the rest of the line does not
    have next : ∀ (form g' : Str) (p : PParam), g = form ++ g' → ¬ EndsHere g' → p.key = k →
        (∀ r, match p.val with
          | none => (form = [] ∧ First (fun c => c ≠ '=') (g' ++ '\r' :: '\n' :: r)) ∨
              (form = ['='] ∧ First (fun c => c = ':' ∨ c = ';') (g' ++ '\r' :: '\n' :: r))
          | some v => v ≠ [] ∧ ((form = '=' :: '"' :: v ++ ['"'] ∧ '"' ∉ v) ∨
              (form = '=' :: v ∧ ':' ∉ v ∧ ';' ∉ v ∧ First (fun c => c = ':' ∨ c = ';') (g' ++ '\r' :: '\n' :: r) ∧
                ∀ w, w ≠ [] → '"' ∉ w → ¬ '"' :: w ++ ['"'] <+: v ++ (g' ++ '\r' :: '\n' :: r)))) →
        ∃ u : Str, ∀ c : Char, ∃ ps params, ';' :: (blanks ++ (k ++ g)) ++ '\r' :: '\n' :: (u ++ [':', c]) =
          params ++ [':', c] ∧ ParamsAre ps params [':', c] := by
      intro form g' p hg hg' hp hv
      subst hg
      obtain ⟨u, hu⟩ := ih g'.length (by rw [← hn]; simp; omega) (fun hx => hr (by simp [hx])) hg' rfl
      refine ⟨u, fun c => ?_⟩
      obtain ⟨ps, params, hu1, hu2⟩ := hu c
      refine ⟨p :: ps, (';' :: blanks ++ k ++ form) ++ params, ?_, _, params, ⟨hp ▸ h3, blanks, form, h1', by rw [hp],
        ?_, ?_, ?_⟩, hu2, rfl⟩
      · have e : ∀ x : Str, ';' :: (blanks ++ (k ++ (form ++ g'))) ++ x = ';' :: blanks ++ k ++ form ++ (g' ++ x) := by simp
        rw [e, hu1]
        simp
      · rw [← hu1, hp]
        have := a2 (u ++ [':', c])
        simpa using this
      · rw [← hu1]
        have := a4 (u ++ [':', c])
        simpa using this
      · rw [← hu1]
        exact hv _
    -- the parameter does not end in this line
    have last : ∀ (u v form : Str), v ≠ [] → (∀ c, g ++ '\r' :: '\n' :: (u ++ [':', c]) = form ++ [':', c]) →
        (form = '=' :: '"' :: v ++ ['"'] ∧ '"' ∉ v ∨ form = '=' :: v ∧ ':' ∉ v ∧ ';' ∉ v ∧
          ∀ c w, w ≠ [] → '"' ∉ w → ¬ '"' :: w ++ ['"'] <+: v ++ [':', c]) →
        ∃ u : Str, ∀ c : Char, ∃ ps params, ';' :: (blanks ++ (k ++ g)) ++ '\r' :: '\n' :: (u ++ [':', c]) =
          params ++ [':', c] ∧ ParamsAre ps params [':', c] := by
      intro u v form hv hg hform
      refine ⟨u, fun c => ⟨[⟨k, some v⟩], ';' :: blanks ++ k ++ form, ?_, ';' :: blanks ++ k ++ form, [],
        ⟨h3, blanks, form, h1', rfl, ?_, ?_, hv, ?_⟩, ⟨rfl, ?_⟩, by simp⟩⟩
      · have := hg c
        simp [this]
      · have := a2 (u ++ [':', c])
        rw [List.append_assoc, hg c] at this
        simpa using this
      · have := a4 (u ++ [':', c])
        rw [hg c] at this
        simpa using this
      · rcases hform with hform | ⟨f1, f2, f3, f4⟩
        · exact .inl hform
        · exact .inr ⟨f1, f2, f3, fun d hd => by cases hd; simp, f4 c⟩
      · intro d hd
        cases hd
        decide
    have notEnds : ∀ form g', g = form ++ g' → (form = [] ∧ First (fun c => c ≠ '=') g' ∨
        form = ['='] ∧ (g'.head? = some ':' ∨ g'.head? = some ';') ∨
        (∃ v, v ≠ [] ∧ '"' ∉ v ∧ form = '=' :: '"' :: v ++ ['"']) ∨
        ∃ v, v ≠ [] ∧ ':' ∉ v ∧ ';' ∉ v ∧ form = '=' :: v ∧ (g'.head? = some ':' ∨ g'.head? = some ';') ∧
          (v.head? ≠ some '"' ∨ ['"', '"'] <+: v)) → ¬ EndsHere g' := by
      intro form g' hg hf hg'
      subst hg
      refine h ?_
      have := EndsHere.param h1' h3 (by simpa using h2') h4 hf hg'
      simpa using this
    have sep : ∀ {g' : Str}, (g'.head? = some ':' ∨ g'.head? = some ';') → ∀ r, First (fun c => c = ':' ∨ c = ';') (g' ++ r) := by
      intro g' hg r c hc
      rcases hg with hg | hg <;> rw [head_append hg] at hc <;> cases hc <;> simp
    by_cases he : First (fun c => c ≠ '=') g
    · exact next [] g ⟨k, none⟩ rfl (notEnds [] g rfl (.inl ⟨rfl, he⟩)) rfl
        (fun r => .inl ⟨rfl, first_append he (.inr ⟨r, rfl⟩) (by decide)⟩)
    · obtain ⟨g1, rfl⟩ := hfirst he
      by_cases hc : g1.head? = some ':' ∨ g1.head? = some ';'
      · exact next ['='] g1 ⟨k, none⟩ rfl (notEnds ['='] g1 rfl (.inr (.inl ⟨rfl, hc⟩))) rfl
          (fun r => .inr ⟨rfl, sep hc _⟩)
      · by_cases hq : g1.head? = some '"' ∧ ¬ ['"', '"'] <+: g1
        · obtain ⟨x, rfl⟩ : ∃ x, g1 = '"' :: x := by
            cases g1 with
            | nil => cases hq.1
            | cons a x => cases hq.1; exact ⟨x, rfl⟩
          obtain ⟨v, g', rfl, b1, b2⟩ := split_while (fun c => c != '"') x
          have b1' : '"' ∉ v := fun hm => by simpa using b1 _ hm
          cases g' with
          | nil =>
            refine last ['"'] (v ++ ['\r', '\n']) ('=' :: '"' :: (v ++ ['\r', '\n']) ++ ['"']) (by simp) (by simp)
              (.inl ⟨rfl, by simpa using b1'⟩)
          | cons d g' =>
            have hd : d = '"' := by simpa using b2 d rfl
            subst hd
            have hv : v ≠ [] := by
              rintro rfl
              exact hq.2 (by simp)
            exact next ('=' :: '"' :: v ++ ['"']) g' ⟨k, some v⟩ (by simp)
              (notEnds _ g' (by simp) (.inr (.inr (.inl ⟨v, hv, b1', rfl⟩)))) rfl
              (fun r => ⟨hv, .inl ⟨rfl, b1'⟩⟩)
        · have hq' : ∀ (y : Str), g1 ≠ [] → ∀ w, w ≠ [] → '"' ∉ w → ¬ '"' :: w ++ ['"'] <+: g1 ++ y := by
            intro y hne w w1 w2 w3
            cases g1 with
            | nil => exact hne rfl
            | cons a x =>
              cases w with
              | nil => exact w1 rfl
              | cons b w =>
                simp only [List.cons_append, List.cons_prefix_cons] at w3
                have ha := w3.1
                subst ha
                have : ['"', '"'] <+: '"' :: x := Classical.not_not.1 (fun hh => hq ⟨rfl, hh⟩)
                simp only [List.cons_prefix_cons] at this
                cases x with
                | nil => simp at this
                | cons d x =>
                  simp only [List.cons_append, List.cons_prefix_cons] at w3 this
                  exact w2 (by rw [w3.2.1, this.2.1]; simp)
          obtain ⟨v, g', rfl, b1, b2⟩ := split_while (fun c => !(c == ':' || c == ';')) g1
          have b1' : ':' ∉ v := fun hm => by simpa using b1 _ hm
          have b1'' : ';' ∉ v := fun hm => by simpa using b1 _ hm
          cases g' with
          | nil =>
            refine last ['X'] (v ++ ['\r', '\n', 'X']) ('=' :: (v ++ ['\r', '\n', 'X'])) (by simp) (by simp)
              (.inr ⟨rfl, by simpa using b1', by simpa using b1'', fun c w w1 w2 w3 => ?_⟩)
            cases v with
            | nil => simp [List.cons_prefix_cons] at w3
            | cons a v =>
              refine hq' ('\r' :: '\n' :: 'X' :: [':', c]) (by simp) w w1 w2 ?_
              simpa using w3
          | cons d g' =>
            have hd : d = ':' ∨ d = ';' := by
              have := b2 d rfl
              simp only [Bool.not_eq_false', Bool.or_eq_true, beq_iff_eq] at this
              exact this
            have hv : v ≠ [] := by
              rintro rfl
              exact hc (by simpa using hd)
            have hd' : (d :: g').head? = some ':' ∨ (d :: g').head? = some ';' := by simpa using hd
            refine next ('=' :: v) (d :: g') ⟨k, some v⟩ (by simp)
              (notEnds _ (d :: g') (by simp) (.inr (.inr (.inr ⟨v, hv, b1', b1'', rfl, hd', ?_⟩)))) rfl
              (fun r => ⟨hv, .inr ⟨rfl, b1', b1'', sep hd' _, ?_⟩⟩)
            · by_cases h1 : v.head? = some '"'
              · right
                cases v with
                | nil => cases h1
                | cons a v =>
                  cases h1
                  have : ['"', '"'] <+: '"' :: v ++ d :: g' := Classical.not_not.1 (fun hh => hq ⟨rfl, hh⟩)
                  cases v with
                  | nil =>
                    simp only [List.cons_append, List.nil_append, List.cons_prefix_cons] at this
                    rcases hd with rfl | rfl <;> simp at this
                  | cons b v =>
                    simp only [List.cons_append, List.cons_prefix_cons] at this
                    rw [← this.2.1]
                    simp
              · exact .inl h1
            · have := hq' ('\r' :: '\n' :: r) (by simp)
              simpa using this

omit [Uni] in
/-- a letter as the value -/
theorem letter_value {k : Str} {o : Option Str} {c : Char} (hc : c = 'y' ∨ c = 'z') :
    (if IsTextFor k o then unescaped [c] else [c]) = [c] := by
  split
  · rcases hc with rfl | rfl <;> simp [unescaped, unescapedRun]
  · rfl

/-- a line that is not read by itself has two readings -/
theorem not_byItself_reads {line : Str} (hl : '\n' ∉ line) (hl' : '\r' ∉ line) (h : ¬ ByItself line) :
    ∃ u : Str, ∀ c, c = 'y' ∨ c = 'z' → ∃ p, readProperty (line ++ '\r' :: '\n' :: (u ++ [':', c])) = some p ∧ p.val = [c] := by
  obtain ⟨blanks, s, rfl, h1, h2⟩ := split_while (fun c => c == ' ' || c == '\t') line
  obtain ⟨k, g, rfl, h3, h4⟩ := name_split s
  have h1' : ∀ c ∈ blanks, c = ' ' ∨ c = '\t' := fun c hc => by simpa using h1 c hc
  have h1'' : ∀ c ∈ blanks, Space c := fun c hc => (h1' c hc).imp id Or.inl
  have h2' : First (fun c => ¬ Space c) (k ++ g) := by
    intro c hc
    have hm : c ∈ k ++ g := List.mem_of_mem_head? hc
    have := h2 c hc
    rintro (rfl | rfl | rfl | rfl)
    · simp at this
    · simp at this
    · exact hl' (List.mem_append_right _ hm)
    · exact hl (List.mem_append_right _ hm)
  have hk : ¬ Keyword (blanks ++ (k ++ g)) := fun hk => h (.inl hk)
  by_cases hne : k ++ g = []
  · obtain ⟨rfl, rfl⟩ := List.append_eq_nil_iff.1 hne
    refine ⟨['A'], fun c hc => ?_⟩
    have e : blanks ++ ([] ++ []) ++ '\r' :: '\n' :: (['A'] ++ [':', c]) =
        (blanks ++ ['\r', '\n']) ++ (['A'] ++ ([] ++ ':' :: [c])) ++ [] := by simp
    have hw : ∀ c ∈ blanks ++ ['\r', '\n'], Space c := by
      intro d hd
      rcases List.mem_append.1 hd with hd | hd
      · exact h1'' d hd
      · simp at hd
        rcases hd with rfl | rfl <;> simp [Space]
    have hkw : ¬ Keyword ((blanks ++ ['\r', '\n']) ++ (['A'] ++ ([] ++ ':' :: [c])) ++ []) := by
      rw [keyword_append hw (by intro d hd; cases hd; simp [Space]) (by simp) (.inl rfl)]
      rintro ⟨white, r, w1, w2, w3⟩
      have : c!"END" <+: ['A', ':', c] ∨ c!"BEGIN" <+: ['A', ':', c] := by
        have hmul : multispace0 ((blanks ++ ['\r', '\n']) ++ ['A', ':', c]) = .ok ['A', ':', c] (blanks ++ ['\r', '\n']) :=
          takeWhile_ok (fun c hc => (space_iff c).2 (hw c hc)) (fun d hd => by cases hd; rfl)
        have hmul' : multispace0 (white ++ r) = .ok r white := by
          refine takeWhile_ok (fun c hc => (space_iff c).2 (w1 c hc)) (fun d hd => ?_)
          rcases w3 with ⟨u, rfl⟩ | ⟨u, rfl⟩ <;> cases hd <;> rfl
        simp only [List.nil_append, List.cons_append] at w2
        rw [← w2, hmul] at hmul'
        simp only [Res.ok.injEq] at hmul'
        rw [hmul'.1]
        exact w3
      rcases this with ⟨u, hu⟩ | ⟨u, hu⟩ <;> simp at hu
    rw [e, readProperty_colon hw (ps := []) (by simp [IsName, NameChar, isAlnum])
      ⟨rfl, fun d hd => by cases hd; decide⟩ hkw (.inl rfl) (by rcases hc with rfl | rfl <;> decide)]
    exact ⟨_, rfl, letter_value (k := ['A']) (o := none) hc⟩
  · have hg : ¬ EndsHere g := fun hg => h (.inr ⟨blanks, k, g, rfl, h1', h3, h2', h4, hne, hg⟩)
    obtain ⟨u, hu⟩ := not_endsHere (fun hx => hl (by simp [hx])) hg
    refine ⟨u, fun c hc => ?_⟩
    obtain ⟨ps, params, hu1, hu2⟩ := hu c
    have hkw := mt (keyword_append h1'' h2' hne (.inr ⟨u ++ [':', c], rfl⟩)).1 hk
    have e : blanks ++ (k ++ g) ++ '\r' :: '\n' :: (u ++ [':', c]) = blanks ++ (k ++ (params ++ ':' :: [c])) ++ [] := by
      rw [List.append_nil, ← hu1]
      simp
    rw [e] at hkw ⊢
    rw [readProperty_colon h1'' h3 (by simpa using hu2) hkw (.inl rfl) (by rcases hc with rfl | rfl <;> decide)]
    exact ⟨_, rfl, letter_value hc⟩

/-- C125: a content line is read the same way whatever text comes after its line break, exactly if it is one of the lines
described by `ByItself`. -/
theorem line_alone_partial {line : Str} (h1 : '\n' ∉ line) (h2 : '\r' ∉ line) :
    (∀ rest, Property.fromStr (line ++ '\r' :: '\n' :: rest) = Property.fromStr line) ↔ ByItself line := by
  constructor
  · intro h
    by_cases hb : ByItself line
    · exact hb
    · exfalso
      obtain ⟨u, hu⟩ := not_byItself_reads h1 h2 hb
      obtain ⟨p, p1, p2⟩ := hu 'y' (.inl rfl)
      obtain ⟨q, q1, q2⟩ := hu 'z' (.inr rfl)
      have e := (h (u ++ [':', 'y'])).trans (h (u ++ [':', 'z'])).symm
      unfold Property.fromStr at e
      rw [p1, q1] at e
      simp only [Option.map_some, Option.some.injEq] at e
      have e' : p.val = q.val := congrArg Property.val e
      rw [p2, q2] at e'
      exact absurd e' (by decide)
  · intro h rest
    obtain ⟨o, ho⟩ := byItself_reads h1 h
    unfold Property.fromStr
    have := ho [] (.inl rfl)
    rw [List.append_nil] at this
    rw [ho _ (.inr ⟨rest, rfl⟩), this]

omit [Uni] in
theorem prefix_cut {K s r : Str} {d : Char} (hd : d ∉ K) (h : K <+: s ++ d :: r) : K <+: s := by
  rw [List.prefix_iff_eq_take] at h ⊢
  by_cases hl : K.length ≤ s.length
  · rwa [List.take_append_of_le_length hl] at h
  · exfalso
    apply hd
    rw [h, List.mem_take_iff_getElem]
    exact ⟨s.length, by simp; omega, by simp⟩

/-- a name and a semicolon do not look like a keyword -/
theorem name_notKeyword {k r : Str} (h1 : IsName k) (h2 : ¬ c!"END" <+: k) (h3 : ¬ c!"BEGIN" <+: k) : ¬ Keyword (k ++ ';' :: r) := by
  rintro ⟨white, s, w1, w2, w3⟩
  cases white with
  | nil =>
    rw [List.nil_append] at w2
    rw [← w2] at w3
    exact w3.elim (fun h => h2 (prefix_cut (by decide) h)) (fun h => h3 (prefix_cut (by decide) h))
  | cons a white =>
    have ha := w1 a (by simp)
    have : isKeyChar a = true ∨ a = ';' := by
      cases k with
      | nil => simp at w2; exact .inr w2.1.symm
      | cons b k =>
        simp at w2
        exact .inl (w2.1 ▸ name_keyChar h1 b (by simp))
    rcases this with hk | rfl
    · rcases ha with rfl | rfl | rfl | rfl
      · simp [isKeyChar_sp] at hk
      · simp [isKeyChar_tab] at hk
      · simp [isKeyChar_cr] at hk
      · simp [isKeyChar_lf] at hk
    · simp [Space] at ha

/-- C125, the code violates the claim: any line that ends in a parameter without a colon after it takes the next
line, up to its colon, into the value of the parameter, although alone it is a property without parameters. -/
theorem line_alone_violated {k a v y z : Str} (hk : IsName k) (h1 : ¬ c!"END" <+: k) (h2 : ¬ c!"BEGIN" <+: k) (ha : IsName a)
    (v1 : ':' ∉ v) (v2 : ';' ∉ v) (v3 : v.head? ≠ some '"') (y1 : ':' ∉ y) (y2 : ';' ∉ y) (hz : '\n' ∉ z)
    (hv : a ≠ c!"VALUE") (ht : k ∉ textNames) :
    Property.fromStr (k ++ ';' :: (a ++ '=' :: v)) = some ⟨k, [], []⟩ ∧
    Property.fromStr (k ++ ';' :: (a ++ '=' :: v) ++ '\r' :: '\n' :: (y ++ ':' :: z)) =
      some ⟨k, z, [(a, v ++ '\r' :: '\n' :: y)]⟩ := by
  have hblank : ∀ s : Str, First (fun c => c ≠ ' ' ∧ c ≠ '\t') (a ++ '=' :: s) := by
    intro s c hc
    cases a with
    | nil => cases hc; decide
    | cons b a =>
      cases hc
      have := name_keyChar ha c (by simp)
      exact ⟨fun h => by simp [h, isKeyChar_sp] at this, fun h => by simp [h, isKeyChar_tab] at this⟩
  have hname : ∀ s : Str, First (fun c => ¬ NameChar c) ('=' :: s) := by
    intro s c hc
    cases hc
    rw [← isKeyChar_iff]
    simp [isKeyChar, isAlnum]
  have hquote : ∀ s : Str, (v ++ s).head? ≠ some '"' → ∀ w, w ≠ [] → '"' ∉ w → ¬ '"' :: w ++ ['"'] <+: v ++ s := by
    rintro s hs w - - ⟨r, hr⟩
    exact hs (by rw [← hr]; rfl)
  constructor
  · have hps : ∃ ps, ParamsAre ps (';' :: [] ++ a ++ '=' :: v) [] := by
      cases v with
      | nil =>
        exact ⟨[⟨a, none⟩], ';' :: [] ++ a ++ ['='], [], ⟨ha, [], ['='], by simp, rfl, by simpa using hblank [],
          hname [], .inr ⟨rfl, fun c hc => by cases hc⟩⟩, ⟨rfl, fun c hc => by cases hc⟩, by simp⟩
      | cons b v =>
        exact ⟨[⟨a, some (b :: v)⟩], ';' :: [] ++ a ++ '=' :: b :: v, [], ⟨ha, [], '=' :: b :: v, by simp, rfl,
          by simpa using hblank (b :: v), hname _, by simp, .inr ⟨rfl, v1, v2, (fun c hc => by cases hc),
            hquote [] (by simpa using v3)⟩⟩, ⟨rfl, fun c hc => by cases hc⟩, by simp⟩
    obtain ⟨ps, hps⟩ := hps
    have hkw := name_notKeyword (r := a ++ '=' :: v) hk h1 h2
    have hsemi : First (fun c => ¬ NameChar c) (';' :: (a ++ '=' :: v)) := by
      intro c hc
      cases hc
      rw [← isKeyChar_iff]
      simp [isKeyChar, isAlnum]
    have hnc : ¬ HasColon (k ++ ';' :: (a ++ '=' :: v)) := by
      have := not_hasColon (white := []) (k := k) (params := ';' :: [] ++ a ++ '=' :: v) (f := []) (ps := ps) (by simp) hk
        (by
          intro c hc
          have : isKeyChar c = true ∨ c = ';' := by
            cases k with
            | nil => cases hc; exact .inr rfl
            | cons b k => cases hc; exact .inl (name_keyChar hk c (by simp))
          rintro (rfl | rfl | rfl | rfl)
          · simp [isKeyChar_sp] at this
          · simp [isKeyChar_tab] at this
          · simp [isKeyChar_cr] at this
          · simp [isKeyChar_lf] at this)
        (by simpa using hsemi) hps (by simpa using hkw) (by simp)
      simpa using this
    unfold Property.fromStr
    rw [readProperty_noColon hkw hnc rfl hk hsemi]
    rfl
  · have hps : ParamsAre [⟨a, some (v ++ '\r' :: '\n' :: y)⟩] (';' :: [] ++ a ++ '=' :: (v ++ '\r' :: '\n' :: y)) (':' :: z) := by
      refine ⟨_, [], ⟨ha, [], '=' :: (v ++ '\r' :: '\n' :: y), by simp, rfl, ?_, hname _, by simp,
        .inr ⟨rfl, by simp [v1, y1], by simp [v2, y2], fun c hc => ?_, ?_⟩⟩, ⟨rfl, fun c hc => ?_⟩, by simp⟩
      · have := hblank (v ++ '\r' :: '\n' :: y ++ ':' :: z)
        simpa using this
      · cases hc
        exact .inl rfl
      · have := hquote ('\r' :: '\n' :: y ++ ':' :: z) (by cases v <;> simp at v3 ⊢; exact v3)
        simpa using this
      · cases hc
        decide
    have e : k ++ ';' :: (a ++ '=' :: v) ++ '\r' :: '\n' :: (y ++ ':' :: z) =
        [] ++ (k ++ (';' :: [] ++ a ++ '=' :: (v ++ '\r' :: '\n' :: y) ++ ':' :: z)) ++ [] := by simp
    have hkw : ¬ Keyword ([] ++ (k ++ (';' :: [] ++ a ++ '=' :: (v ++ '\r' :: '\n' :: y) ++ ':' :: z)) ++ []) := by
      have := name_notKeyword (r := a ++ '=' :: (v ++ '\r' :: '\n' :: y) ++ ':' :: z) hk h1 h2
      simpa using this
    unfold Property.fromStr
    rw [e, readProperty_colon (by simp) hk (by simpa using hps) hkw (.inl rfl) hz]
    have hnt : ¬ IsTextFor k (([⟨a, some (v ++ '\r' :: '\n' :: y)⟩] : List PParam).find? (fun q => q.key == c!"VALUE") |>.bind PParam.val) := by
      have : (([⟨a, some (v ++ '\r' :: '\n' :: y)⟩] : List PParam).find? (fun q => q.key == c!"VALUE")) = none := by
        simp [hv]
      rw [this]
      exact ht
    rw [if_neg hnt]
    rfl

/-! Examples -/

/-- a line that is read by itself, with parameters of three kinds -/
example : ByItself c!"DTSTART;TZID=\"a:b\";X;VALUE=DATE:20240101" := by
  have n : ∀ k : Str, k = c!"DTSTART" ∨ k = c!"TZID" ∨ k = c!"X" ∨ k = c!"VALUE" → IsName k := by
    rintro k (rfl | rfl | rfl | rfl) <;> exact isName_upper _ (by decide)
  have f : ∀ (c : Char) (s : Str), c = '=' ∨ c = ';' → First (fun c => ¬ NameChar c) (c :: s) := by
    rintro c s (rfl | rfl) d hd <;> cases hd <;> simp [NameChar, isAlnum]
  refine .inr ⟨[], c!"DTSTART", c!";TZID=\"a:b\";X;VALUE=DATE:20240101", rfl, by simp, n _ (by simp),
    fun c hc => by cases hc; simp [Space], f _ _ (by simp), by simp, ?_⟩
  refine EndsHere.param (blanks := []) (k := c!"TZID") (form := c!"=\"a:b\"") (s := c!";X;VALUE=DATE:20240101") (by simp)
    (n _ (by simp)) (fun c hc => by cases hc; decide) (f _ _ (by simp)) (.inr (.inr (.inl ⟨c!"a:b", by decide⟩))) ?_
  refine EndsHere.param (blanks := []) (k := c!"X") (form := []) (s := c!";VALUE=DATE:20240101") (by simp)
    (n _ (by simp)) (fun c hc => by cases hc; decide) (f _ _ (by simp)) (.inl ⟨rfl, fun c hc => by cases hc; decide⟩) ?_
  exact EndsHere.param (blanks := []) (k := c!"VALUE") (form := c!"=DATE") (s := c!":20240101") (by simp)
    (n _ (by simp)) (fun c hc => by cases hc; decide) (f _ _ (by simp)) (.inr (.inr (.inr ⟨c!"DATE", by decide⟩)))
    (.stop (fun c hc => by cases hc; decide))

/-- a line that is not -/
example : ¬ ByItself c!"DTSTART;TZID=Berlin" := by
  rw [← line_alone_partial (by decide) (by decide)]
  intro h
  have := line_alone_violated (k := c!"DTSTART") (a := c!"TZID") (v := c!"Berlin") (y := c!"DTEND") (z := c!"20240101")
    (isName_upper _ (by decide)) (by decide) (by decide) (isName_upper _ (by decide)) (by decide) (by decide) (by decide) (by decide)
    (by decide) (by decide) (by decide) (by decide)
  have e := (this.2.symm.trans (h _)).trans this.1
  exact absurd e (by decide)

/-- the next line taken into a parameter -/
example : @Property.fromStr Uni.ascii c!"X-A;B=c\r\nSUMMARY:d" = some ⟨c!"X-A", c!"d", [(c!"B", c!"c\r\nSUMMARY")]⟩ := by
  decide +kernel

end Ical
