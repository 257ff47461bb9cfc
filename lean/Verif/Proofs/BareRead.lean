import Verif.Proofs.Bare
import Verif.Props.Layout
import Verif.Props.Sizes

/-!
Reading what was printed for a parsed tree, line by line (see `Proofs/Bare.lean`).
-/

namespace Ical

open Nom Spec

/-! ### Characters of the printed text -/

theorem shrunkBare_count {d : Char} (hd : Inky d) {l l' : List PParam} (h : ShrunkBare l l') :
    (bareParams l').count d = (l.map (fun q => q.key.count d + (q.val.getD []).count d)).sum := by
  induction l generalizing l' with
  | nil =>
    cases l' with
    | nil => rfl
    | cons => exact h.elim
  | cons p l ih =>
    cases l' with
    | nil => exact h.elim
    | cons q l' =>
      obtain ⟨h1, h2, h3⟩ := h
      obtain ⟨hs, h4, h5, h6, h7, h8⟩ := hd
      have e1 : (';' == d) = false := by simpa using Ne.symm h4
      have e2 : ('=' == d) = false := by simpa using Ne.symm h5
      rw [bareParams_cons, List.count_append, ih h3, List.map_cons, List.sum_cons]
      congr 1
      obtain ⟨k, v⟩ := p
      obtain ⟨k', v'⟩ := q
      have h1 : k' = k := h1
      subst h1
      cases v with
      | none =>
        cases v' with
        | none => simp [bareParam, List.count_cons, e1]
        | some _ => exact h2.elim
      | some v =>
        cases v' with
        | none => exact h2.elim
        | some v' =>
          have h2 : Shrunk v v' := h2
          simp [bareParam, List.count_cons, List.count_append, e1, e2, shrunk_count hs h2]

theorem shrunkProps_count {d : Char} (hd : Inky d) {ps : List PProp} {u : Str} (h : ShrunkProps ps u) :
    u.count d = propsCount d ps := by
  induction h with
  | nil => rfl
  | @cons p ps l r us h1 h2 _ ih =>
    have e : (':' == d) = false := by simpa using Ne.symm hd.2.2.2.2.1
    have e1 : (['\r', '\n'] : Str).count d = 0 := count_space hd.1 (by simp [Space])
    unfold propsCount
    rw [List.map_cons, List.sum_cons]
    unfold propsCount at ih
    rw [← ih]
    unfold propCount
    simp only [List.count_append, List.count_cons, e, e1, shrunkBare_count hd h1, shrunk_count hd.1 h2]
    simp
    omega

theorem plain_keyword {d : Char} (hd : Inky d) (h : d ∉ c!"BEGIND") : (c!"BEGIN:").count d = 0 ∧ (c!"END:").count d = 0 := by
  have : d ≠ ':' := hd.2.2.2.2.1
  simp only [List.mem_cons, List.not_mem_nil, or_false, not_or] at h
  refine ⟨?_, ?_⟩ <;> refine List.count_eq_zero.2 ?_ <;>
    simp only [List.mem_cons, List.not_mem_nil, or_false, not_or] <;>
    simp [h, this]

mutual
theorem shrunkTree_count {d : Char} (hd : Inky d) (hk : d ∉ c!"BEGIND") {c : PComp} {u : Str} : ShrunkTree c u →
    compCount d c ≤ u.count d
  | .mk (name := name) (st := st) _ hp hc => by
    have h1 := shrunkProps_count hd hp
    have h2 := shrunkTrees_count hd hk hc
    simp only [compCount, List.count_append]
    omega
/-- see `shrunkTree_count` -/
theorem shrunkTrees_count {d : Char} (hd : Inky d) (hk : d ∉ c!"BEGIND") {l : List PComp} {u : Str} : ShrunkTrees l u →
    compsCount d l ≤ u.count d
  | .nil => by simp [compsCount]
  | .cons h1 h2 => by
    have := shrunkTree_count hd hk h1
    have := shrunkTrees_count hd hk h2
    simp only [compsCount, List.count_append]
    omega
end

theorem inky_M : Inky 'M' := by refine ⟨?_, ?_⟩ <;> simp [Space]
theorem inky_U : Inky 'U' := by refine ⟨?_, ?_⟩ <;> simp [Space]

mutual
/-- if nothing was added to the text, no lines were -/
theorem shrunkTree_plain {c : PComp} {u : Str} : ShrunkTree c u → u.count 'M' = compCount 'M' c →
    u.count 'U' = compCount 'U' c → PlainTree c u
  | .mk (name := name) (comps := comps) (st := st) (us := us) (vs := vs) hst hp hc, hM, hU => by
    have m1 := shrunkProps_count inky_M hp
    have m2 := shrunkTrees_count inky_M (by decide) hc
    have u1 := shrunkProps_count inky_U hp
    have u2 := shrunkTrees_count inky_U (by decide) hc
    simp only [compCount, List.count_append] at hM hU
    have m3 : st.count 'M' = 0 := by omega
    have u3 : st.count 'U' = 0 := by omega
    have m4 : vs.count 'M' = compsCount 'M' comps := by
      have : (c!"BEGIN:").count 'M' = 0 := by decide
      have : (c!"END:").count 'M' = 0 := by decide
      have : (['\r', '\n'] : Str).count 'M' = 0 := by decide
      omega
    have u4 : vs.count 'U' = compsCount 'U' comps := by
      have : (c!"BEGIN:").count 'U' = 0 := by decide
      have : (c!"END:").count 'U' = 0 := by decide
      have : (['\r', '\n'] : Str).count 'U' = 0 := by decide
      omega
    have : st = [] := by
      rcases hst with h | h | h
      · exact h
      · exact absurd h (List.count_eq_zero.1 m3)
      · exact absurd h (List.count_eq_zero.1 u3)
    subst this
    exact .mk hp (shrunkTrees_plain hc m4 u4)
/-- see `shrunkTree_plain` -/
theorem shrunkTrees_plain {l : List PComp} {u : Str} : ShrunkTrees l u → u.count 'M' = compsCount 'M' l →
    u.count 'U' = compsCount 'U' l → PlainTrees l u
  | .nil, _, _ => .nil
  | .cons h1 h2, hM, hU => by
    have m1 := shrunkTree_count inky_M (by decide) h1
    have m2 := shrunkTrees_count inky_M (by decide) h2
    have u1 := shrunkTree_count inky_U (by decide) h1
    have u2 := shrunkTrees_count inky_U (by decide) h2
    simp only [compsCount, List.count_append] at hM hU
    exact .cons (shrunkTree_plain h1 (by omega) (by omega)) (shrunkTrees_plain h2 (by omega) (by omega))
end

mutual
theorem plainTree_count {d : Char} (hd : Inky d) (hk : d ∉ c!"BEGIND") {c : PComp} {u : Str} : PlainTree c u →
    u.count d = compCount d c
  | .mk (name := name) hp hc => by
    have h1 := shrunkProps_count hd hp
    have h2 := plainTrees_count hd hk hc
    obtain ⟨h3, h4⟩ := plain_keyword hd hk
    have h5 : (['\r', '\n'] : Str).count d = 0 := count_space hd.1 (by simp [Space])
    simp only [compCount, List.count_append]
    omega
/-- see `plainTree_count` -/
theorem plainTrees_count {d : Char} (hd : Inky d) (hk : d ∉ c!"BEGIND") {l : List PComp} {u : Str} : PlainTrees l u →
    u.count d = compsCount d l
  | .nil => by simp [compsCount]
  | .cons h1 h2 => by
    have := plainTree_count hd hk h1
    have := plainTrees_count hd hk h2
    simp only [compsCount, List.count_append]
    omega
end

/-! ### Keywords in capitals -/

theorem lower_inky {d : Char} (h : d ∈ c!"begind") : Inky d ∧ d ∉ c!"BEGIND" := by
  revert d
  unfold Inky Space
  decide

theorem letter_cases {c l : Char} (hl : l ∈ c!"begind") (h : lowerAscii c = l) (hc : c ∉ c!"begind") :
    (l, c) ∈ (c!"begind").zip c!"BEGIND" := by
  have hsub : ∀ l ∈ c!"begind", l ∈ c!"abcdefghijklmnopqrstuvwxyz" := by decide
  have hl' := hsub l hl
  have := (lowerAscii_iff hl').1 h
  have all : ∀ x ∈ (c!"ABCDEFGHIJKLMNOPQRSTUVWXYZ" ++ c!"abcdefghijklmnopqrstuvwxyz").zip
      (c!"abcdefghijklmnopqrstuvwxyz" ++ c!"abcdefghijklmnopqrstuvwxyz"), x.2 ∈ c!"begind" → x.1 ∉ c!"begind" →
      (x.2, x.1) ∈ (c!"begind").zip c!"BEGIND" := by decide
  exact all _ this hl hc


/-- a keyword without small letters -/
theorem begin_capitals {b : Str} (hb : b.map lowerAscii = c!"begin:") (h : ∀ d ∈ c!"begind", b.count d = 0) : b = c!"BEGIN:" := by
  have hn : ∀ c ∈ b, c ∉ c!"begind" := fun c hc hd => List.count_eq_zero.1 (h c hd) hc
  obtain ⟨c1, b, rfl, h1, hb⟩ := List.map_eq_cons_iff.1 hb
  obtain ⟨c2, b, rfl, h2, hb⟩ := List.map_eq_cons_iff.1 hb
  obtain ⟨c3, b, rfl, h3, hb⟩ := List.map_eq_cons_iff.1 hb
  obtain ⟨c4, b, rfl, h4, hb⟩ := List.map_eq_cons_iff.1 hb
  obtain ⟨c5, b, rfl, h5, hb⟩ := List.map_eq_cons_iff.1 hb
  obtain ⟨c6, b, rfl, h6, hb⟩ := List.map_eq_cons_iff.1 hb
  rw [List.map_eq_nil_iff] at hb
  subst hb
  have a1 := letter_cases (by decide) h1 (hn _ (by simp))
  have a2 := letter_cases (by decide) h2 (hn _ (by simp))
  have a3 := letter_cases (by decide) h3 (hn _ (by simp))
  have a4 := letter_cases (by decide) h4 (hn _ (by simp))
  have a5 := letter_cases (by decide) h5 (hn _ (by simp))
  have a6 := lowerAscii_eq (by decide) h6
  simp at a1 a2 a3 a4 a5
  rw [a1, a2, a3, a4, a5, a6]

variable [Uni]

/-! ### Parameters -/

omit [Uni] in
theorem bare_first (l : List PParam) (r : Str) : First (fun c => c = ':' ∨ c = ';') (bareParams l ++ ':' :: r) := by
  intro c hc
  rcases bare_head l r with ⟨y, hy⟩ | ⟨y, hy⟩ <;> rw [hy] at hc <;> cases hc <;> simp

theorem align_bare {L l' : List PParam} {t F rest : Str} (hsh : ShrunkBare L l') (h : ParamsAre L t F)
    (he : t ++ F = bareParams l' ++ ':' :: rest) :
    l' = L ∧ BareTold L (':' :: rest) ∧ F = ':' :: rest := by
  induction L generalizing t l' with
  | nil =>
    cases l' with
    | cons => exact hsh.elim
    | nil =>
      obtain ⟨rfl, -⟩ := h
      exact ⟨rfl, trivial, he⟩
  | cons q L ih =>
    cases l' with
    | nil => exact hsh.elim
    | cons y l' =>
    obtain ⟨k1, v1⟩ := y
    obtain ⟨h1, hv1, hsh⟩ := hsh
    have h1 : k1 = q.key := h1
    subst h1
    obtain ⟨a, b, ⟨hk, blanks, form, hb, rfl, hf1, hf2, hm⟩, h4, rfl⟩ := h
    obtain ⟨k, v⟩ := q
    rw [bareParams_cons] at he
    have hst := bare_first l' rest
    cases v with
    | none =>
      cases v1 with
      | some _ => exact hv1.elim
      | none =>
        have he1 : blanks ++ (k ++ (form ++ (b ++ F))) = k ++ (bareParams l' ++ ':' :: rest) := by
          simpa [bareParam] using he
        have hfk : First (fun c => ¬ NameChar c) (bareParams l' ++ ':' :: rest) := by
          intro c hc
          rcases hst c hc with rfl | rfl <;> exact nameChar_stops (by simp)
        have hbl : blanks = [] := by
          refine span_unique (P := fun c => c = ' ' ∨ c = '\t') (b := []) (x := k ++ (form ++ (b ++ F)))
            (y := k ++ (bareParams l' ++ ':' :: rest)) (by simpa using he1) hb (by simp) ?_ ?_
          · intro c hc
            have := hf1 c (by simpa using hc)
            rintro (h | h)
            · exact this.1 h
            · exact this.2 h
          · intro c hc
            cases k with
            | nil => rcases hst c hc with rfl | rfl <;> decide
            | cons d k =>
              cases hc
              have hd := hk c (by simp)
              rintro (h | h) <;> rw [h] at hd <;> exact nameChar_stops (by simp) hd
        subst hbl
        rw [List.nil_append] at he1
        have he2 := List.append_cancel_left he1
        rcases hm with ⟨rfl, hm⟩ | ⟨rfl, hm⟩
        · obtain ⟨h5, h6, h7⟩ := ih hsh h4 (by simpa using he2)
          exact ⟨by rw [h5], ⟨by simp, h6⟩, h7⟩
        · exfalso
          have := hst '=' (by rw [← he2]; rfl)
          simp at this
    | some v =>
      cases v1 with
      | none => exact hv1.elim
      | some v1 =>
        have hv1 : Shrunk v v1 := hv1
        have he1 : blanks ++ (k ++ (form ++ (b ++ F))) = k ++ ('=' :: (v1 ++ (bareParams l' ++ ':' :: rest))) := by
          simpa [bareParam] using he
        have hbl : blanks = [] := by
          refine span_unique (P := fun c => c = ' ' ∨ c = '\t') (b := []) (x := k ++ (form ++ (b ++ F)))
            (y := k ++ ('=' :: (v1 ++ (bareParams l' ++ ':' :: rest)))) (by simpa using he1) hb (by simp) ?_ ?_
          · intro c hc
            have := hf1 c (by simpa using hc)
            rintro (h | h)
            · exact this.1 h
            · exact this.2 h
          · intro c hc
            cases k with
            | nil => cases hc; decide
            | cons d k =>
              cases hc
              have hd := hk c (by simp)
              rintro (h | h) <;> rw [h] at hd <;> exact nameChar_stops (by simp) hd
        subst hbl
        rw [List.nil_append] at he1
        have he2 := List.append_cancel_left he1
        have hquote : '"' ∈ v1 ↔ '"' ∈ v := shrunk_mem (by simp [Space]) hv1
        obtain ⟨hne, ⟨rfl, hnq⟩ | ⟨rfl, hc1, hc2, hm1, hm2⟩⟩ := hm
        · exfalso
          cases v1 with
          | nil =>
            have := hst '"' (by
              have he3 : '"' :: (v ++ ('"' :: (b ++ F))) = bareParams l' ++ ':' :: rest := by simpa using he2
              rw [← he3]; rfl)
            simp at this
          | cons c v1 =>
            simp only [List.cons_append, List.cons.injEq, true_and] at he2
            exact hnq (hquote.1 (by simp [← he2.1]))
        · have he3 : v ++ (b ++ F) = v1 ++ (bareParams l' ++ ':' :: rest) := by simpa using he2
          have hv : v = v1 := by
            refine span_unique (P := fun c => ¬ (c = ':' ∨ c = ';')) he3 ?_ ?_ ?_ ?_
            · rintro c hc (rfl | rfl)
              · exact hc1 hc
              · exact hc2 hc
            · rintro c hc (rfl | rfl)
              · exact hc1 ((shrunk_mem (by simp [Space]) hv1).1 hc)
              · exact hc2 ((shrunk_mem (by simp [Space]) hv1).1 hc)
            · intro c hc
              exact fun h => h (hm1 c hc)
            · intro c hc
              exact fun h => h (hst c hc)
          subst hv
          have he4 := List.append_cancel_left he3
          obtain ⟨h5, h6, h7⟩ := ih hsh h4 he4
          subst h5
          refine ⟨rfl, ⟨?_, h6⟩, h7⟩
          intro v' hv'
          cases hv'
          refine ⟨hne, hc1, hc2, ?_⟩
          rw [he4] at hm2
          cases v with
          | nil => exact absurd rfl hne
          | cons c v =>
            by_cases hc : c = '"'
            · subst hc
              by_cases h2 : ['"'] <+: v
              · exact .inr (.inl (by simpa using h2))
              · right; right
                have hno : '"' ∉ v ++ (bareParams l' ++ ':' :: rest) := by
                  intro hin
                  obtain ⟨w, r, hwr, hw⟩ := first_split hin
                  refine hm2 w ?_ hw ⟨r, by simpa using hwr.symm⟩
                  rintro rfl
                  rw [List.nil_append] at hwr
                  cases v with
                  | nil =>
                    rcases bare_head l' rest with ⟨r', hr'⟩ | ⟨r', hr'⟩ <;> rw [List.nil_append, hr'] at hwr <;>
                      simp at hwr
                  | cons c v =>
                    simp only [List.cons_append, List.cons.injEq] at hwr
                    exact h2 ⟨v, by rw [hwr.1]; rfl⟩
                simpa using hno
            · left
              simp [List.cons_prefix_cons, Ne.symm hc]

/-! ### One line -/

omit [Uni] in
theorem value_short {raw br f r y : Str} (hv : ValueIs raw br f) (hr : r.length ≤ raw.length)
    (he : raw ++ (br ++ f) = r ++ (['\r', '\n'] ++ y)) : raw = r ∧ br = ['\r', '\n'] ∧ f = y := by
  refine value_end hv ?_ he
  rcases hv with ⟨rfl, h⟩ | ⟨rfl, -, h⟩ | ⟨rfl, h, rfl⟩
  · rcases List.append_eq_append_iff.1 he with ⟨c, h1, h2⟩ | ⟨c, h1, h2⟩
    · have : c = [] := by
        rw [h1, List.length_append] at hr
        exact List.length_eq_zero_iff.1 (by omega)
      rw [h1, this, List.append_nil]
      exact h
    · rw [h1] at h
      exact fun hc => h (hc.trans (List.prefix_append _ _).isInfix)
  · refine absurd ⟨r, y, ?_⟩ h
    rw [List.append_assoc raw, he]
    simp
  · refine absurd ?_ h
    rw [List.append_nil, List.append_nil] at he
    rw [he]
    simp

omit [Uni] in
theorem unescaped_length (s : Str) : (unescaped s).length ≤ s.length := by
  rw [← unescapeText_unescaped]
  exact unescapeText_length s

theorem bare_line {q : PProp} {l' : List PParam} {r t f y : Str} (hq : PropIs q t f) (hsh : ShrunkBare q.params l')
    (hr : Shrunk q.val r) (he : t ++ f = q.name ++ (bareParams l' ++ ':' :: (r ++ (['\r', '\n'] ++ y))))
    (hc : ¬ (q.params = [] ∧ q.val = [] ∧ ¬ HasColon (t ++ f) ∧ ∃ br, t = q.name ++ br ∧
      First (fun c => ¬ NameChar c) (br ++ f) ∧ (br = ['\r', '\n'] ∨ br = ['\n'] ∨ br = [] ∧ NoBreak f))) :
    l' = q.params ∧ r = q.val ∧ t = bareLine q ++ ['\r', '\n'] ∧ f = y ∧
      BareTold q.params (':' :: q.val ++ ['\r', '\n'] ++ y) ∧ ¬ ['\r', '\n'] <:+: q.val ∧
      (IsTextFor q.name (pvalueParam q.params) → NoEscapes q.val) := by
  have hn := propIs_named hq
  obtain ⟨hname, hkw, ⟨white, params, raw, br, hwh, hps, hvis, hv, rfl⟩ | h⟩ := hq
  · have he1 : white ++ (q.name ++ (params ++ (':' :: (raw ++ (br ++ f))))) =
        q.name ++ (bareParams l' ++ ':' :: (r ++ (['\r', '\n'] ++ y))) := by simpa using he
    have hst := bare_first l' (r ++ (['\r', '\n'] ++ y))
    have hwhite : white = [] := by
      cases white with
      | nil => rfl
      | cons c white =>
        exfalso
        have hc := hwh c (by simp)
        cases hk : q.name with
        | nil =>
          rw [hk] at he1
          have := hst c (by
            have he3 : c :: white ++ (params ++ ':' :: (raw ++ (br ++ f))) =
              bareParams l' ++ ':' :: (r ++ (['\r', '\n'] ++ y)) := he1
            rw [← he3]; rfl)
          rcases this with rfl | rfl <;> simp [Space] at hc
        | cons d k =>
          rw [hk] at he1
          simp only [List.cons_append, List.cons.injEq] at he1
          have := hname d (by rw [hk]; simp)
          rw [← he1.1] at this
          refine nameChar_stops ?_ this
          rcases hc with rfl | rfl | rfl | rfl <;> simp
    subst hwhite
    rw [List.nil_append] at he1
    have he2 := List.append_cancel_left he1
    obtain ⟨rfl, h3, h4⟩ := align_bare hsh hps (by simpa using he2)
    have h5 : raw ++ (br ++ f) = r ++ (['\r', '\n'] ++ y) := by simpa using h4
    have hlen : q.val.length ≤ raw.length := by
      rw [hv]
      split
      · exact unescaped_length _
      · exact Nat.le_refl _
    obtain ⟨hl1, hl2⟩ := shrunk_length hr
    obtain ⟨rfl, rfl, rfl⟩ := value_short hvis (by omega) h5
    have hrv : raw = q.val := hl2 (by omega)
    have hpar : params = bareParams q.params := List.append_cancel_right he2
    subst hpar
    refine ⟨rfl, hrv, ?_, rfl, ?_, ?_, ?_⟩
    · rw [bareLine_eq, ← hrv]; simp
    · rw [← hrv]; simpa using h3
    · rw [← hrv]
      rcases hvis with ⟨-, h⟩ | ⟨h, -⟩ | ⟨h, -⟩
      · exact h
      · simp at h
      · simp at h
    · intro ht
      have ht' : IsTextFor q.name ((q.params.find? (fun q => q.key == c!"VALUE")).bind PParam.val) := ht
      rw [if_pos ht', ← hrv] at hv
      rw [← hrv]
      exact (unescaped_eq_iff raw).1 hv.symm
  · exact absurd h hc


/-! ### Lines -/

theorem shrunkProps_noBreak {ps : List PProp} {us y : Str} (h : ShrunkProps ps us) (hn : ∀ p ∈ ps, IsName p.name) (hy : NoBreak y) :
    NoBreak (us ++ y) := by
  cases h with
  | nil => exact hy
  | @cons p ps l r us h1 h2 h3 =>
    have hk := hn p (by simp)
    have hst := bare_first l (r ++ (['\r', '\n'] ++ us) ++ y)
    have e : p.name ++ (bareParams l ++ ':' :: (r ++ (['\r', '\n'] ++ us))) ++ y =
      p.name ++ (bareParams l ++ ':' :: (r ++ (['\r', '\n'] ++ us) ++ y)) := by simp
    rw [e]
    cases hk' : p.name with
    | nil =>
      rw [List.nil_append]
      refine ⟨?_, ?_⟩ <;> rintro ⟨z, hz⟩ <;> rw [← hz] at hst
      · have := hst '\n' rfl; simp at this
      · have := hst '\r' rfl; simp at this
    | cons d k =>
      have hd := hk d (by rw [hk']; simp)
      refine ⟨?_, ?_⟩ <;> rintro ⟨z, hz⟩ <;> simp only [List.cons_append, List.cons.injEq] at hz <;> rw [← hz.1] at hd <;>
        exact nameChar_stops (by simp) hd

omit [Uni] in
theorem begins_append {k a b : Str} (h : Begins k a) : Begins k (a ++ b) := by
  obtain ⟨x, r, rfl, hx⟩ := h
  exact ⟨x, r ++ b, by simp, hx⟩

theorem stuck_starts {t : Str} (h : Stuck t) : Begins c!"begin:" t := by
  cases h with
  | mk hb _ _ _ _ _ _ => exact ⟨_, _, rfl, hb⟩

omit [Uni] in
theorem begins_both {t : Str} (h1 : Begins c!"begin:" t) (h2 : Begins c!"end:" t) : False := by
  obtain ⟨a, r, rfl, ha⟩ := h1
  obtain ⟨b, r', he, hb⟩ := h2
  obtain ⟨c, a, rfl, hc⟩ := keyword_head ha
  obtain ⟨d, b, rfl, hd⟩ := keyword_head hb
  simp only [List.cons_append, List.cons.injEq] at he
  rw [he.1, hd] at hc
  revert hc
  decide

theorem begin_name {k s x : Str} (hk : IsName k) (hs : (∃ r, s = ':' :: r) ∨ ∃ r, s = ';' :: r) (h : c!"BEGIN:" ++ x = k ++ s) :
    k = c!"BEGIN" := by
  refine span_unique (P := fun c => ¬ (c = ':' ∨ c = ';')) (x := s) (y := ':' :: x) (by rw [← h]; rfl) ?_ (by decide) ?_ (by simp)
  · rintro c hc (rfl | rfl)
    · exact (name_stops hk).1 hc
    · exact (name_stops hk).2 hc
  · intro c hc
    rcases hs with ⟨r, rfl⟩ | ⟨r, rfl⟩ <;> cases hc <;> simp

omit [Uni] in
theorem bareLines_cons (p : PProp) (l : List PProp) : bareLines (p :: l) = bareLine p ++ (['\r', '\n'] ++ bareLines l) := by
  simp [bareLines]

omit [Uni] in
theorem propsCount_cons (d : Char) (p : PProp) (l : List PProp) : propsCount d (p :: l) = propCount d p + propsCount d l := by
  simp [propsCount]

/-- no letters in a text but those of what was read -/
def Spare (t : Str) (n : Char → Nat) : Prop := ∀ d ∈ c!"begind", t.count d ≤ n d

theorem bare_lines {ps : List PProp} {us : Str} (h : ShrunkProps ps us) : ∀ {comps : List PComp} {body F y : Str},
    BodyIs ps comps body F → EndText F → Spare body (fun d => propsCount d ps + compsCount d comps) → NoBreak y →
    body ++ F = us ++ y →
    us = bareLines ps ∧ ∃ body', BodyIs [] comps body' F ∧ body = us ++ body' ∧ body' ++ F = y ∧ BareLinesTold ps y ∧
      Spare body' (fun d => compsCount d comps) := by
  induction h with
  | nil =>
    intro comps body F y hb hF hc hy he
    refine ⟨rfl, body, hb, rfl, he, trivial, ?_⟩
    intro d hd
    have := hc d hd
    simpa [propsCount] using this
  | @cons p ps l r us h1 h2 h3 ih =>
    intro comps body F y hb hF hc hy he
    obtain ⟨hn, -⟩ := bodyIs_named hb
    have hp := hn p (by simp)
    have he0 : body ++ F = p.name ++ (bareParams l ++ ':' :: (r ++ (['\r', '\n'] ++ (us ++ y)))) := by rw [he]; simp
    -- one line
    have line : ∀ {t trail rest : Str}, PropIs p t (trail ++ (rest ++ F)) → Blank trail → NoBreak (rest ++ F) →
        BodyIs ps comps rest F → body = t ++ (trail ++ rest) →
        (t ++ (trail ++ (rest ++ F)) = bareLine p ++ (['\r', '\n'] ++ (rest ++ F)) →
          ¬ Begins c!"end:" (bareLine p) ∧ (Begins c!"begin:" (bareLine p) → Stuck (bareLine p ++ (['\r', '\n'] ++ (rest ++ F))))) →
        p.name ++ (bareParams l ++ ':' :: (r ++ (['\r', '\n'] ++ us))) = bareLines (p :: ps) ∧ ∃ body', BodyIs [] comps body' F ∧
          body = p.name ++ (bareParams l ++ ':' :: (r ++ (['\r', '\n'] ++ us))) ++ body' ∧ body' ++ F = y ∧
          BareLinesTold (p :: ps) y ∧ Spare body' (fun d => compsCount d comps) := by
      intro t trail rest hq htr hnb hr hbody hk
      have he1 : t ++ (trail ++ (rest ++ F)) = p.name ++ (bareParams l ++ ':' :: (r ++ (['\r', '\n'] ++ (us ++ y)))) := by
        rw [← he0, hbody]; simp
      have halone := line_alone hp.name (bare_head l (r ++ (['\r', '\n'] ++ (us ++ y)))) hF hq.1 htr hr he1
      obtain ⟨rfl, rfl, rfl, e4, e5, e6, e7⟩ := bare_line hq h1 h2 he1 halone
      have hnu : NoBreak (us ++ y) := shrunkProps_noBreak h3 (fun x hx => (hn x (by simp [hx])).name) hy
      obtain ⟨rfl, e8⟩ := blank_unique htr blank_nil hnb hnu (by simpa using e4)
      have hc' : Spare rest (fun d => propsCount d ps + compsCount d comps) := by
        intro d hd
        have := hc d hd
        obtain ⟨i1, -⟩ := propIs_inky (lower_inky hd).1 hq
        simp only [propsCount_cons] at this
        rw [hbody, List.nil_append, List.count_append] at this
        dsimp only
        omega
      obtain ⟨j1, body', j2, j3, j4, j5, j6⟩ := ih hr hF hc' hy e8
      obtain ⟨k1, k2⟩ := hk (by simp)
      refine ⟨?_, body', j2, ?_, j4, ⟨?_, j5⟩, j6⟩
      · rw [bareLines_cons, ← j1, bareLine_eq]; simp
      · rw [hbody, j3, bareLine_eq]; simp
      · refine ⟨hp.name, hp.notEnd, hp.notBegin, k1, ?_, hp.keys, ?_, e6, e7⟩
        · intro hb
          have := k2 hb
          rw [e8] at this
          rw [← j1]
          simpa using this
        · rw [← j1]; exact e5
    cases hb with
    | prop k1 k2 hq hne htr hnb hr =>
      refine line hq htr hnb hr rfl (fun e => ?_)
      rw [e] at k1 k2
      exact ⟨fun h => k1 (begins_append h), fun h => absurd (begins_append h) k2⟩
    | stuck k1 hq hne htr hnb hr =>
      refine line hq htr hnb hr rfl (fun e => ?_)
      rw [e] at k1
      exact ⟨fun h => begins_both (stuck_starts k1) (begins_append h), fun _ => k1⟩
    | @comp c _ comps t rest _ hcomp hr =>
      exfalso
      cases hcomp with
      | @mk n props comps' b gap body' e trail f hb _ _ hgap _ hbody hend htr _ =>
        have hb' : b = c!"BEGIN:" := by
          refine begin_capitals hb (fun d hd => ?_)
          have := hc d hd
          obtain ⟨i1, -⟩ := bodyIs_inky (lower_inky hd).1 hr
          obtain ⟨i2, -⟩ := bodyIs_inky (lower_inky hd).1 hbody
          simp only [compsCount, compCount, List.count_append] at this
          omega
        subst hb'
        have := begin_name hp.name (bare_head l (r ++ (['\r', '\n'] ++ (us ++ y)))) (by
          rw [← he0]
          simp only [List.append_assoc]
          rfl)
        exact hp.notBegin (by rw [this]; exact ⟨[], rfl⟩)

/-! ### Components -/

omit [Uni] in
theorem plainTrees_noBreak {l : List PComp} {u y : Str} (h : PlainTrees l u) (hy : NoBreak y) : NoBreak (u ++ y) := by
  cases h with
  | nil => exact hy
  | cons h1 _ =>
    cases h1 with
    | mk _ _ =>
      simp only [List.append_assoc]
      exact begin_noBreak _

mutual
theorem bare_comp {c : PComp} {u : Str} : PlainTree c u → ∀ {t f y : Str}, CompIs c t f → Spare t (fun d => compCount d c) →
    NoBreak y → t ++ f = u ++ y → t = u ∧ f = y ∧ u = bareComp c ∧ TreeTold c y
  | .mk (name := name) (props := props) (comps := comps) (us := us) (vs := vs) hp hc, t, f, y, h, hs, hy, he => by
    cases h with
    | @mk _ _ _ b gap body e trail f hb hn hf hgap hnb hbody hend htrail hnf =>
      have he1 : b ++ (name ++ (gap ++ (body ++ (e ++ (name ++ (trail ++ f)))))) =
          c!"BEGIN:" ++ (name ++ (['\r', '\n'] ++ (us ++ (vs ++ (c!"END:" ++ (name ++ (['\r', '\n'] ++ y))))))) := by
        simpa using he
      obtain ⟨rfl, he2⟩ := List.append_inj he1 (by
        have := congrArg List.length hb
        rw [List.length_map] at this
        exact this)
      have he3 := List.append_cancel_left he2
      have hnv : NoBreak (vs ++ (c!"END:" ++ (name ++ (['\r', '\n'] ++ y)))) := plainTrees_noBreak hc (end_noBreak _)
      obtain ⟨rfl, he4⟩ := blank_unique hgap blank_crlf hnb
        (shrunkProps_noBreak hp (fun p hp' => ((bodyIs_named hbody).1 p hp').name) hnv) he3
      have hs1 : Spare body (fun d => propsCount d props + compsCount d comps) := by
        intro d hd
        have := hs d hd
        simp only [compCount, List.count_append] at this
        dsimp only
        omega
      have hF : EndText (e ++ (name ++ (trail ++ f))) := ⟨e, _, rfl, hend⟩
      obtain ⟨i1, body', i2, i3, i4, i5, i6⟩ := bare_lines hp hbody hF hs1 hnv he4
      obtain ⟨rfl, j2, j3, j4⟩ := bare_comps hc i2 i6 (end_noBreak _) i4
      obtain ⟨rfl, k1⟩ := List.append_inj j2 (by
        have := congrArg List.length hend
        rw [List.length_map] at this
        exact this)
      have k2 := List.append_cancel_left k1
      obtain ⟨rfl, rfl⟩ := blank_unique htrail blank_crlf hnf hy k2
      refine ⟨?_, rfl, ?_, ?_⟩
      · rw [i3]; simp
      · rw [bareComp, ← i1, ← j3]; simp
      · rw [TreeTold, ← j3]
        simp only [List.append_assoc]
        exact ⟨hn, i5, j4⟩
/-- see `bare_comp` -/
theorem bare_comps {l : List PComp} {u : Str} : PlainTrees l u → ∀ {body F z : Str}, BodyIs [] l body F →
    Spare body (fun d => compsCount d l) → NoBreak z → body ++ F = u ++ z →
    body = u ∧ F = z ∧ u = bareComps l ∧ TreesTold l z
  | .nil, body, F, z, h, hs, hz, he => by
    cases h with
    | nil =>
      exact ⟨rfl, he, by rw [bareComps], by rw [TreesTold]; trivial⟩
  | .cons (c := c) (l := l) (u := u) (us := us) h1 h2, body, F, z, h, hs, hz, he => by
    cases h with
    | @comp _ _ _ t rest _ hc hr =>
      have hnb := plainTrees_noBreak h2 hz
      have c1 : Spare t (fun d => compCount d c) := by
        intro d hd
        have := hs d hd
        obtain ⟨i1, -⟩ := bodyIs_inky (lower_inky hd).1 hr
        simp only [compsCount, List.count_append] at this
        dsimp only
        omega
      have c2 : Spare rest (fun d => compsCount d l) := by
        intro d hd
        have := hs d hd
        obtain ⟨i1, -⟩ := compIs_inky (lower_inky hd).1 hc
        simp only [compsCount, List.count_append] at this
        dsimp only
        omega
      obtain ⟨rfl, i2, i3, i4⟩ := bare_comp h1 hc c1 hnb (by simpa using he)
      obtain ⟨rfl, rfl, j3, j4⟩ := bare_comps h2 hr c2 hz i2
      refine ⟨rfl, rfl, ?_, ?_⟩
      · rw [bareComps, ← i3, ← j3]
      · rw [TreesTold, ← j3]
        exact ⟨i4, j4⟩
end

end Ical
