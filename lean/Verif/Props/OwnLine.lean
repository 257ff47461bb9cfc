import Verif.Spec.OwnLine
import Verif.Props.Acceptance
import Verif.Props.ReprintExact
import Verif.Props.Rewrite
import Verif.Props.Reread
import Verif.Props.CutFile
import Verif.Props.ContentLine
import Verif.Props.PropertyRoundtrip

/-!
C118: exactly which properties survive being written and read. The argument: reading never adds a semicolon, so if as many
parameters come back as were written none was read twice; then reading adds no line feed to what is between
the line breaks, so unfolding took none away; then the text is the content line and can be compared with it piece by piece.
-/

namespace Ical

open Nom Spec

/-! ### Maps made of lists -/

/-- the sum over pairs -/
def msum (f : Str × Str → Nat) (l : List (Str × Str)) : Nat := (l.map f).sum

theorem msum_perm {f : Str × Str → Nat} {l m : List (Str × Str)} (h : l.Perm m) : msum f l = msum f m :=
  (h.map f).sum_nat

theorem insert_fresh {k v : Str} {m : BMap Str} (hk : ∀ x ∈ m, x.1 ≠ k) :
    (BMap.insert k v m).Perm ((k, v) :: m) := by
  induction m with
  | nil => exact List.Perm.refl _
  | cons y m ih =>
    obtain ⟨k', v'⟩ := y
    simp only [BMap.insert]
    cases hc : strCmp k k' with
    | lt => exact List.Perm.refl _
    | eq => exact absurd (strCmp_eq.1 hc).symm (hk _ List.mem_cons_self)
    | gt => exact ((ih (fun x hx => hk x (List.mem_cons_of_mem _ hx))).cons _).trans (List.Perm.swap _ _ _)

theorem insert_old {f : Str × Str → Nat} (hf : ∀ x, 0 < f x) {k v : Str} {m : BMap Str} (hs : BMap.Sorted m)
    (hk : ∃ x ∈ m, x.1 = k) : msum f (BMap.insert k v m) < f (k, v) + msum f m := by
  induction m with
  | nil => simp at hk
  | cons y m ih =>
    obtain ⟨k', v'⟩ := y
    obtain ⟨h1, h2⟩ := List.pairwise_cons.1 hs
    simp only [BMap.insert]
    have hp := hf (k', v')
    cases hc : strCmp k k' with
    | lt =>
      obtain ⟨x, hx, rfl⟩ := hk
      rcases List.mem_cons.1 hx with rfl | hx
      · exact absurd hc strCmp_irrefl
      · exact absurd (strCmp_trans hc (h1 x hx)) strCmp_irrefl
    | eq => simp only [msum, List.map_cons, List.sum_cons] at *; omega
    | gt =>
      obtain ⟨x, hx, rfl⟩ := hk
      rcases List.mem_cons.1 hx with rfl | hx
      · rw [strCmp_refl] at hc; cases hc
      · have := ih h2 ⟨x, hx, rfl⟩
        simp only [msum, List.map_cons, List.sum_cons] at *
        omega

theorem foldl_msum {f : Str × Str → Nat} (hf : ∀ x, 0 < f x) (l : List (Str × Str)) (m : BMap Str)
    (hs : BMap.Sorted m) :
    (l.foldl (fun m kv => BMap.insert kv.1 kv.2 m) m).Perm (l.reverse ++ m) ∨
      msum f (l.foldl (fun m kv => BMap.insert kv.1 kv.2 m) m) < msum f l + msum f m := by
  induction l generalizing m with
  | nil => exact .inl (List.Perm.refl _)
  | cons x l ih =>
    rw [List.foldl_cons]
    have e : msum f (x :: l) = f x + msum f l := rfl
    by_cases hx : ∃ y ∈ m, y.1 = x.1
    · right
      have h1 := insert_old hf (v := x.2) hs hx
      have hle : msum f (l.foldl (fun m kv => BMap.insert kv.1 kv.2 m) (BMap.insert x.1 x.2 m)) ≤
          msum f l + msum f (BMap.insert x.1 x.2 m) := by
        rcases ih _ (BMap.sorted_insert (k := x.1) (v := x.2) hs) with h | h
        · rw [msum_perm h]
          simp [msum]
        · exact Nat.le_of_lt h
      exact Nat.lt_of_le_of_lt hle (by have e' : f (x.1, x.2) = f x := rfl; omega)
    · have hp : (BMap.insert x.1 x.2 m).Perm (x :: m) :=
        insert_fresh (fun y hy he => hx ⟨y, hy, he⟩)
      rcases ih _ (BMap.sorted_insert (k := x.1) (v := x.2) hs) with h | h
      · left
        refine h.trans ?_
        rw [List.reverse_cons, List.append_assoc]
        exact hp.append_left _
      · right
        rw [msum_perm hp] at h
        have e' : msum f (x :: m) = f x + msum f m := rfl
        exact Nat.lt_of_lt_of_le h (by omega)

theorem ofList_msum {f : Str × Str → Nat} (hf : ∀ x, 0 < f x) (l : List (Str × Str)) :
    (BMap.ofList l).Perm l ∨ msum f (BMap.ofList l) < msum f l := by
  rcases foldl_msum hf l [] BMap.sorted_nil with h | h
  · left
    rw [List.append_nil] at h
    exact h.trans (List.reverse_perm l)
  · right
    have e : msum f [] = 0 := rfl
    rw [e] at h
    exact h

/-! ### Counting characters -/

/-- how often a character occurs in the text of a parameter -/
def pcount (d : Char) (x : Str × Str) : Nat := ([';'] ++ x.1 ++ ['='] ++ quoteIfContainsColon x.2).count d

theorem count_paramsText (d : Char) (l : List (Str × Str)) : (paramsText l).count d = msum (pcount d) l := by
  induction l with
  | nil => rfl
  | cons x l ih =>
    obtain ⟨k, v⟩ := x
    rw [paramsText, List.count_append, ih]
    rfl

theorem pcount_pos (x : Str × Str) : 0 < pcount ';' x := by
  unfold pcount
  rw [List.append_assoc, List.append_assoc, List.singleton_append, List.count_cons_self]
  omega

theorem count_quote {d : Char} (hd : d ≠ '"') (v : Str) : (quoteIfContainsColon v).count d = v.count d := by
  have e : ('"' == d) = false := by simpa using Ne.symm hd
  unfold quoteIfContainsColon
  split <;> simp [List.count_cons, e]

theorem count_unescaped {d : Char} (h1 : d ≠ '\\') (h2 : d ≠ '\n') (s : Str) : (unescaped s).count d ≤ s.count d := by
  have h1' : ('\\' == d) = false := by simpa using Ne.symm h1
  have h2' : ('\n' == d) = false := by simpa using Ne.symm h2
  have hr : ∀ n, (List.replicate n '\\').count d = 0 := by
    intro n
    rw [List.count_replicate]
    simp [h1']
  unfold unescaped
  generalize 0 = k
  induction s generalizing k with
  | nil => rw [unescapedRun, hr]; exact Nat.zero_le _
  | cons c s ih =>
    rw [unescapedRun]
    split
    · exact Nat.le_trans (ih _) (by rw [List.count_cons]; omega)
    · split
      · rw [List.count_cons, List.count_cons]
        have := ih 0
        omega
      · have := ih 0
        split
        · rename_i m hm
          rw [List.count_append, hr, List.count_cons, List.count_cons]
          have : (if (m == d) = true then 1 else 0) ≤ (if (c == d) = true then 1 else 0) := by
            unfold escapeMeaning at hm
            repeat' split at hm
            all_goals cases hm
            all_goals subst_vars
            all_goals simp_all
          omega
        · rw [List.count_append, hr, List.count_cons, List.count_cons]
          omega

theorem count_escaped (s : Str) : (s.flatMap escaped).count ';' = s.count ';' := by
  induction s with
  | nil => rfl
  | cons c s ih =>
    rw [List.flatMap_cons, List.count_append, ih, List.count_cons]
    unfold escaped
    repeat' split
    all_goals simp_all
    all_goals omega

theorem escaped_noLf (s : Str) : '\n' ∉ s.flatMap escaped := by
  intro hc
  obtain ⟨d, hd, hc⟩ := List.mem_flatMap.1 hc
  unfold escaped at hc
  repeat' split at hc
  all_goals simp only [List.mem_cons, List.not_mem_nil, or_false] at hc
  all_goals simp_all [eq_comm]

theorem count_rawText (p : Property) : (rawText p).count ';' = p.val.count ';' := by
  unfold rawText
  split
  · exact count_escaped _
  · rfl

theorem quote_rawText (p : Property) : '"' ∈ rawText p ↔ '"' ∈ p.val := by
  unfold rawText
  split
  · simp only [List.mem_flatMap]
    constructor
    · rintro ⟨c, hc, h⟩
      unfold escaped at h
      repeat' split at h
      all_goals simp at h
      all_goals exact h ▸ hc
    · intro h
      exact ⟨'"', h, by decide⟩
  · exact Iff.rfl

/-- unfolding changes nothing or takes line feeds away -/
theorem unfoldSpec_lf (s : Str) : unfoldSpec s = s ∨ (unfoldSpec s).count '\n' < s.count '\n' := by
  fun_induction unfoldSpec s with
  | case1 => exact .inl rfl
  | case2 s ih => right; rcases ih with h | h <;> simp <;> first | (rw [h]; omega) | omega
  | case3 s ih => right; rcases ih with h | h <;> simp <;> first | (rw [h]; omega) | omega
  | case4 s ih => right; rcases ih with h | h <;> simp <;> first | (rw [h]; omega) | omega
  | case5 s ih => right; rcases ih with h | h <;> simp <;> first | (rw [h]; omega) | omega
  | case6 c s h1 h2 h3 h4 ih =>
    rcases ih with h | h
    · left; rw [h]
    · right
      rw [List.count_cons, List.count_cons]
      omega

theorem unfold_folded_lf (qs : List Str) (t : Str) :
    unfoldSpec (folded qs ++ t) = qs.flatten ++ t ∨
      (unfoldSpec (folded qs ++ t)).count '\n' < (qs.flatten ++ t).count '\n' := by
  induction qs with
  | nil => exact unfoldSpec_lf t
  | cons q qs ih =>
    have e : folded (q :: qs) ++ t = q ++ (Marker.crlfSp.text ++ (folded qs ++ t)) := by
      simp [folded, Marker.text]
    rw [e, unfoldSpec_append_marker q .crlfSp _ (by intro h; simp [Marker.isLf] at h), List.flatten_cons, List.append_assoc,
      List.count_append, List.count_append]
    rcases unfoldSpec_lf q with h1 | h1 <;> rcases ih with h2 | h2
    · left; rw [h1, h2]
    · right; rw [h1]; omega
    · right; rw [h2]; omega
    · right; omega

theorem count_folded {d : Char} (hd : ¬ Space d) (qs : List Str) : (folded qs).count d = qs.flatten.count d := by
  unfold Space at hd
  simp only [not_or] at hd
  obtain ⟨d1, d2, d3, d4⟩ := hd
  have e1 := Ne.symm d1
  have e3 := Ne.symm d3
  have e4 := Ne.symm d4
  induction qs with
  | nil => rfl
  | cons q qs ih =>
    have e : folded (q :: qs) = q ++ (['\r', '\n', ' '] ++ folded qs) := by simp [folded]
    rw [e, List.count_append, List.count_append, ih, List.flatten_cons, List.count_append]
    simp [e1, e3, e4]

theorem unfoldSpec_end (s : Str) : unfoldSpec (s ++ ['\r', '\n']) = unfoldSpec s ++ ['\r', '\n'] := by
  have := unfoldSpec_break s .crlf [] noIndent_nil
  rw [List.append_nil] at this
  exact this.trans (by simp [unfoldSpec, Break.text])


variable [Uni]

/-! ### Sufficiency -/

theorem nameChar_stops {c : Char} (h : c ∈ [':', ';', '=', '"', '\r', '\n', ' ', '\t']) : ¬ NameChar c := by
  rw [← isKeyChar_iff]
  simp only [List.mem_cons, List.not_mem_nil, or_false] at h
  rcases h with rfl | rfl | rfl | rfl | rfl | rfl | rfl | rfl <;>
    simp [isKeyChar_cr, isKeyChar_lf, isKeyChar_sp, isKeyChar_tab, isKeyChar_colon, isKeyChar_semi, isKeyChar_eq,
      isKeyChar_quote]

/-- a parameter as it is read -/
def readParam (x : Str × Str) : PParam := ⟨x.1, if x.2 = [] then none else some x.2⟩

omit [Uni] in
theorem paramsText_head (l : List (Str × Str)) (rest : Str) :
    (∃ r, paramsText l ++ ':' :: rest = ':' :: r) ∨ ∃ r, paramsText l ++ ':' :: rest = ';' :: r := by
  cases l with
  | nil => exact .inl ⟨_, rfl⟩
  | cons x l => exact .inr ⟨_, rfl⟩

omit [Uni] in
theorem quote_eq (v : Str) : quoteIfContainsColon v = if ':' ∈ v ∨ ';' ∈ v then '"' :: v ++ ['"'] else v := by
  unfold quoteIfContainsColon
  by_cases h : ':' ∈ v ∨ ';' ∈ v
  · rw [if_pos h, if_pos (by simpa using h)]
    rfl
  · rw [if_neg h, if_neg (by simpa using h)]

theorem noQuote_params {l : List (Str × Str)} (hn : ∀ x ∈ l, IsName x.1) :
    '"' ∉ paramsText l ↔ ∀ x ∈ l, '"' ∉ x.2 ∧ ':' ∉ x.2 ∧ ';' ∉ x.2 := by
  induction l with
  | nil => simp [paramsText]
  | cons x l ih =>
    obtain ⟨k, v⟩ := x
    have hk : '"' ∉ k := fun h => nameChar_stops (by simp) (hn (k, v) (by simp) _ h)
    rw [paramsText, quote_eq, List.mem_append, not_or, ih (fun y hy => hn y (by simp [hy]))]
    simp only [List.mem_cons, forall_eq_or_imp]
    refine and_congr_left fun _ => ?_
    split
    · rename_i h
      simp only [List.mem_append, List.mem_cons, true_or, or_true, not_true, false_iff]
      rintro ⟨-, h1, h2⟩
      rcases h with h | h
      · exact h1 h
      · exact h2 h
    · rename_i h
      rw [not_or] at h
      simp [hk, h]

theorem told_params {l : List (Str × Str)} {val rest : Str} (hn : ∀ x ∈ l, IsName x.1) (ht : ValuesTold l val)
    (hq : '"' ∈ rest → '"' ∈ val) : ParamsAre (l.map readParam) (paramsText l) (':' :: rest) := by
  induction l with
  | nil => exact ⟨rfl, fun c hc => by cases hc; decide⟩
  | cons x l ih =>
    obtain ⟨k, v⟩ := x
    obtain ⟨h1, h2⟩ := ht
    have hk : IsName k := hn (k, v) (by simp)
    have hn' : ∀ x ∈ l, IsName x.1 := fun y hy => hn y (by simp [hy])
    refine ⟨[';'] ++ k ++ ['='] ++ quoteIfContainsColon v, paramsText l, ?_, ih hn' h2, rfl⟩
    refine ⟨hk, [], '=' :: quoteIfContainsColon v, by simp, by simp [readParam], ?_, ?_, ?_⟩
    · intro c hc
      cases k with
      | nil => cases hc; decide
      | cons d k =>
        cases hc
        have := hk c (by simp)
        exact ⟨fun h => nameChar_stops (c := ' ') (by simp) (h ▸ this),
          fun h => nameChar_stops (c := '\t') (by simp) (h ▸ this)⟩
    · intro c hc
      cases hc
      exact nameChar_stops (by simp)
    · have hf : First (fun c => c = ':' ∨ c = ';') (paramsText l ++ ':' :: rest) := by
        intro c hc
        rcases paramsText_head l rest with ⟨r, hr⟩ | ⟨r, hr⟩ <;> rw [hr] at hc <;> cases hc <;> simp
      by_cases hv : v = []
      · subst hv
        exact .inr ⟨rfl, hf⟩
      · simp only [readParam, hv, if_false]
        refine ⟨by simpa using hv, ?_⟩
        rw [quote_eq]
        by_cases hs : ':' ∈ v ∨ ';' ∈ v
        · rw [if_pos hs] at h1 ⊢
          exact .inl ⟨by simp, h1⟩
        · rw [if_neg hs] at h1 ⊢
          rw [not_or] at hs
          refine .inr ⟨rfl, hs.1, hs.2, hf, ?_⟩
          rintro w hw1 hw2 ⟨r, hr⟩
          cases v with
          | nil => exact hv rfl
          | cons a v =>
            simp only [List.cons_append, List.append_assoc, List.cons.injEq] at hr
            obtain ⟨rfl, hr⟩ := hr
            rcases h1 with h1 | h1 | ⟨h1, h3, h4⟩
            · exact h1 ⟨v, rfl⟩
            · obtain ⟨r', hr'⟩ := h1
              simp only [List.cons_append, List.nil_append, List.cons.injEq, true_and] at hr'
              subst hr'
              cases w with
              | nil => exact hw1 rfl
              | cons b w =>
                simp only [List.cons_append, List.cons.injEq] at hr
                exact hw2 (by simp [hr.1])
            · have : '"' ∈ v ++ (paramsText l ++ ':' :: rest) := by rw [← hr]; simp
              simp only [List.mem_append, List.mem_cons] at this
              rcases this with h | h | h | h
              · exact h1 h
              · exact (noQuote_params hn').2 h3 h
              · cases h
              · exact h4 (hq h)

omit [Uni] in
theorem word_in_name {w k s : Str} (hw : ':' ∉ w ∧ ';' ∉ w)
    (hs : (∃ r, s = ':' :: r) ∨ ∃ r, s = ';' :: r) (h : w <+: k ++ s) : w <+: k := by
  induction k generalizing w with
  | nil =>
    cases w with
    | nil => exact List.nil_prefix
    | cons c w =>
      obtain ⟨t, ht⟩ := h
      rcases hs with ⟨r, rfl⟩ | ⟨r, rfl⟩ <;> simp at ht <;> simp [ht.1] at hw
  | cons d k ih =>
    cases w with
    | nil => exact List.nil_prefix
    | cons c w =>
      rw [List.cons_append, List.cons_prefix_cons] at h
      rw [List.cons_prefix_cons]
      simp only [List.mem_cons, not_or] at hw
      exact ⟨h.1, ih ⟨hw.1.2, hw.2.2⟩ h.2⟩

theorem notKeyword_line {k s : Str} (hk : IsName k) (h1 : ¬ c!"END" <+: k) (h2 : ¬ c!"BEGIN" <+: k)
    (hs : (∃ r, s = ':' :: r) ∨ ∃ r, s = ';' :: r) : ¬ Keyword (k ++ s) := by
  rintro ⟨white, t, hw, he, h⟩
  have hwhite : white = [] := by
    cases white with
    | nil => rfl
    | cons c white =>
      exfalso
      have hc := hw c (by simp)
      cases k with
      | nil =>
        rcases hs with ⟨r, rfl⟩ | ⟨r, rfl⟩ <;> simp at he <;> rw [← he.1] at hc <;> simp [Space] at hc
      | cons d k =>
        simp only [List.cons_append, List.cons.injEq] at he
        have := hk d (by simp)
        rw [he.1] at this
        refine nameChar_stops ?_ this
        rcases hc with rfl | rfl | rfl | rfl <;> simp
  subst hwhite
  rw [List.nil_append] at he
  rw [← he] at h
  rcases h with h | h
  · exact h1 (word_in_name (by decide) hs h)
  · exact h2 (word_in_name (by decide) hs h)

omit [Uni] in
theorem raw_read {p : Property} (h : IsText p) : unescaped (rawText p) = p.val ↔ TextSafe p.val := by
  have e : rawText p = escapeText p.val := by
    unfold rawText
    rw [if_pos h, escapeText_eq]
    exact congrArg (fun f => p.val.flatMap f) (funext escaped_eq)
  rw [e, ← unescapeText_unescaped, text_reread, rereadText_iff]

theorem isText_read (p : Property) (hs : BMap.Sorted p.params) {l : List (Str × Str)} (hp : l.Perm p.params) :
    IsTextFor p.key (((l.map readParam).find? (fun q => q.key == c!"VALUE")).bind PParam.val) ↔ IsText p := by
  have e : l.map readParam = (l.map dparam).map DParam.meaning := by
    rw [List.map_map]
    rfl
  rw [e, valueTypeOf_text, valueTypeOf_dparams p hs hp, isText_iff]

omit [Uni] in
theorem readParam_pair (x : Str × Str) : (readParam x).toPair = x := by
  obtain ⟨k, v⟩ := x
  unfold readParam PParam.toPair
  by_cases h : v = [] <;> simp [h]

theorem told_reads {p : Property} (hs : BMap.Sorted p.params) (ho : OwnLine p) {u : Str} (hu : LineTold p u) :
    (readProperty u).map PProp.toProperty = some p := by
  obtain ⟨l, forms, h1, h2, h3, rfl⟩ := hu
  rw [forms_unique h2]
  have hn : ∀ x ∈ l, IsName x.1 := fun x hx => ho.paramName x (h1.mem_iff.1 hx)
  have hq : '"' ∈ rawText p ++ ['\r', '\n'] → '"' ∈ p.val := by
    intro h
    rw [List.mem_append] at h
    rcases h with h | h
    · exact (quote_rawText p).1 h
    · simp at h
  have hps := told_params hn h3 hq
  have hv := ho.value
  unfold ValueTold at hv
  have hr : readProperty (p.key ++ paramsText l ++ ':' :: rawText p ++ ['\r', '\n']) =
      some ⟨p.key, p.val, l.map readParam⟩ := by
    refine property_read_iff.2 ⟨_, [], (List.append_nil _).symm, ho.name, ?_, .inl ⟨[], paramsText l, rawText p,
      ['\r', '\n'], by simp, by simpa using hps, .inl ⟨rfl, ?_⟩, ?_, by simp⟩⟩
    · have := notKeyword_line ho.name ho.notEnd ho.notBegin (paramsText_head l (rawText p ++ ['\r', '\n']))
      simpa using this
    · intro hc
      by_cases ht : IsText p
      · refine escaped_noLf p.val ?_
        unfold rawText at hc
        rw [if_pos ht] at hc
        exact hc.mem (by simp)
      · rw [if_neg ht] at hv
        unfold rawText at hc
        rw [if_neg ht] at hc
        exact hv hc
    · simp only [isText_read p hs h1]
      split
      · rename_i ht
        rw [if_pos ht] at hv
        exact ((raw_read ht).2 hv).symm
      · rename_i ht
        unfold rawText
        rw [if_neg ht]
  rw [hr, Option.map_some]
  unfold PProp.toProperty
  simp only [List.map_map]
  rw [show PParam.toPair ∘ readParam = id from funext readParam_pair, List.map_id, BMap.ofList_perm hs h1]

/-! ### Necessity -/

theorem paramIs_count {d : Char} (h1 : d ≠ '=') (h2 : d ≠ '"') {q : PParam} {t f : Str} (h : ParamIs q t f) :
    pcount d q.toPair ≤ t.count d := by
  obtain ⟨-, blanks, form, -, rfl, -, -, hm⟩ := h
  have e1 : ('=' == d) = false := by simpa using Ne.symm h1
  unfold pcount PParam.toPair
  simp only [List.count_append, count_quote h2, List.count_cons, List.count_nil, e1]
  have : (q.val.getD []).count d ≤ form.count d := by
    cases hv : q.val with
    | none => simp
    | some v =>
      rw [hv] at hm
      rcases hm.2 with ⟨rfl, -⟩ | ⟨rfl, -⟩
      · simp [List.count_cons, e1]; omega
      · simp [List.count_cons, e1]
  simp
  omega

theorem paramsAre_count {d : Char} (h1 : d ≠ '=') (h2 : d ≠ '"') {L : List PParam} {t f : Str} (h : ParamsAre L t f) :
    msum (pcount d) (L.map PParam.toPair) ≤ t.count d := by
  induction L generalizing t with
  | nil => exact Nat.zero_le _
  | cons q L ih =>
    obtain ⟨a, b, h3, h4, rfl⟩ := h
    have := paramIs_count h1 h2 h3
    have := ih h4
    simp only [List.map_cons, msum, List.sum_cons, List.count_append] at *
    omega

theorem paramsAre_val {L : List PParam} {t f : Str} (h : ParamsAre L t f) :
    ∀ q ∈ L, IsName q.key ∧ q.val ≠ some [] := by
  induction L generalizing t with
  | nil => simp
  | cons p L ih =>
    obtain ⟨a, b, ⟨h1, blanks, form, -, -, -, -, hm⟩, h4, rfl⟩ := h
    intro q hq
    rcases List.mem_cons.1 hq with rfl | hq
    · refine ⟨h1, ?_⟩
      intro hv
      rw [hv] at hm
      exact hm.1 rfl
    · exact ih h4 q hq

theorem align {l : List (Str × Str)} {L : List PParam} {t F rest val : Str} (hn : ∀ x ∈ l, IsName x.1)
    (hnd : (l.map Prod.fst).Nodup) (hp : (L.map PParam.toPair).Perm l) (h : ParamsAre L t F)
    (he : t ++ F = paramsText l ++ ':' :: rest) (hq : '"' ∈ val → '"' ∈ rest) :
    ValuesTold l val ∧ F = ':' :: rest := by
  induction l generalizing L t with
  | nil =>
    have : L = [] := by simpa using hp.length_eq
    subst this
    obtain ⟨rfl, -⟩ := h
    exact ⟨trivial, he⟩
  | cons x l ih =>
    obtain ⟨k, v⟩ := x
    cases L with
    | nil => simpa using hp.length_eq
    | cons q L =>
      obtain ⟨a, b, ⟨hk, blanks, form, hb, rfl, hf1, hf2, hm⟩, h4, rfl⟩ := h
      have hkn : IsName k := hn (k, v) (by simp)
      have hn' : ∀ x ∈ l, IsName x.1 := fun y hy => hn y (by simp [hy])
      have he1 : blanks ++ (q.key ++ (form ++ (b ++ F))) =
          k ++ ('=' :: (quoteIfContainsColon v ++ (paramsText l ++ ':' :: rest))) := by
        have := he
        rw [paramsText] at this
        simpa using this
      -- no blanks
      have hbl : blanks = [] := by
        refine span_unique (P := fun c => c = ' ' ∨ c = '\t') (b := []) (x := q.key ++ (form ++ (b ++ F)))
          (y := k ++ ('=' :: (quoteIfContainsColon v ++ (paramsText l ++ ':' :: rest)))) ?_ hb (by simp) ?_ ?_
        · simpa using he1
        · intro c hc
          have := hf1 c (by simpa using hc)
          rintro (h | h)
          · exact this.1 h
          · exact this.2 h
        · intro c hc
          cases k with
          | nil => cases hc; decide
          | cons d k =>
            cases hc
            have hd := hkn c (by simp)
            rintro (h | h) <;> rw [h] at hd <;> exact nameChar_stops (by simp) hd
      subst hbl
      rw [List.nil_append] at he1
      have hkey : q.key = k := by
        refine span_unique (P := NameChar) he1 hk hkn hf2 ?_
        intro c hc
        cases hc
        exact nameChar_stops (by simp)
      rw [hkey] at he1
      have he2 := List.append_cancel_left he1
      -- the value
      have hval : q.val.getD [] = v := by
        have hmem : q.toPair ∈ (k, v) :: l := hp.mem_iff.1 (by simp)
        rcases List.mem_cons.1 hmem with h | h
        · exact congrArg Prod.snd h
        · exfalso
          simp only [List.map_cons, List.nodup_cons] at hnd
          refine hnd.1 (List.mem_map.2 ⟨_, h, ?_⟩)
          exact hkey
      have hpair : q.toPair = (k, v) := Prod.ext hkey hval
      have hp' : (L.map PParam.toPair).Perm l := by
        rw [List.map_cons, hpair] at hp
        exact hp.cons_inv
      have hnd' : (l.map Prod.fst).Nodup := by
        simp only [List.map_cons, List.nodup_cons] at hnd
        exact hnd.2
      have done : b ++ F = paramsText l ++ ':' :: rest →
          (if ':' ∈ v ∨ ';' ∈ v then '"' ∉ v
            else ¬ ['"'] <+: v ∨ ['"', '"'] <+: v ∨
              ('"' ∉ v.tail ∧ (∀ x ∈ l, '"' ∉ x.2 ∧ ':' ∉ x.2 ∧ ';' ∉ x.2) ∧ '"' ∉ val)) →
          ValuesTold ((k, v) :: l) val ∧ F = ':' :: rest := by
        intro h h'
        obtain ⟨h5, h6⟩ := ih hn' hnd' hp' h4 h
        exact ⟨⟨h', h5⟩, h6⟩
      cases hqv : q.val with
      | none =>
        rw [hqv] at hm hval
        rw [Option.getD_none] at hval
        subst hval
        rcases hm with ⟨rfl, hm⟩ | ⟨rfl, hm⟩
        · exfalso
          rw [List.nil_append] at he2
          exact hm '=' (by rw [he2]; rfl) rfl
        · refine done (by simpa [quoteIfContainsColon] using he2) ?_
          simp
      | some v' =>
        rw [hqv] at hm hval
        rw [Option.getD_some] at hval
        subst hval
        obtain ⟨hne, ⟨rfl, hnq⟩ | ⟨rfl, hc1, hc2, hm1, hm2⟩⟩ := hm
        · rw [quote_eq] at he2
          by_cases hs : ':' ∈ v' ∨ ';' ∈ v'
          · rw [if_pos hs] at he2
            refine done ?_ (by rw [if_pos hs]; exact hnq)
            simpa using he2
          · exfalso
            rw [if_neg hs] at he2
            cases v' with
            | nil => exact hne rfl
            | cons c v' =>
              simp only [List.cons_append, List.cons.injEq, true_and] at he2
              exact hnq (by simp [← he2.1])
        · have hs : ¬ (':' ∈ v' ∨ ';' ∈ v') := by simp [hc1, hc2]
          rw [quote_eq, if_neg hs] at he2
          have he3 : b ++ F = paramsText l ++ ':' :: rest := by simpa using he2
          refine done he3 ?_
          rw [if_neg hs]
          rw [he3] at hm2
          cases v' with
          | nil => exact absurd rfl hne
          | cons c v' =>
            by_cases hc : c = '"'
            · subst hc
              by_cases h2 : ['"'] <+: v'
              · exact .inr (.inl (by simpa using h2))
              · right; right
                have hno : '"' ∉ v' ++ (paramsText l ++ ':' :: rest) := by
                  intro hin
                  obtain ⟨w, r, hwr, hw⟩ := first_split hin
                  refine hm2 w ?_ hw ⟨r, by simpa using hwr.symm⟩
                  rintro rfl
                  rw [List.nil_append] at hwr
                  cases v' with
                  | nil =>
                    rcases paramsText_head l rest with ⟨r', hr'⟩ | ⟨r', hr'⟩ <;> rw [List.nil_append, hr'] at hwr <;>
                      simp at hwr
                  | cons c v' =>
                    simp only [List.cons_append, List.cons.injEq] at hwr
                    exact h2 ⟨v', by rw [hwr.1]; rfl⟩
                simp only [List.mem_append, List.mem_cons, not_or] at hno
                exact ⟨hno.1, (noQuote_params hn').1 hno.2.1, fun h => hno.2.2.2 (hq h)⟩
            · left
              simp [List.cons_prefix_cons, Ne.symm hc]


theorem rawText_valueText (p : Property) : p.valueText = rawText p := by
  unfold rawText
  split
  · rename_i ht
    rw [valueText_of_text ((isText_iff p).1 ht), escapeText_eq]
    exact congrArg (fun f => p.val.flatMap f) (funext fun c => (escaped_eq c).symm)
  · rename_i ht
    exact valueText_of_not (fun hc => ht ((isText_iff p).2 hc))

omit [Uni] in
theorem count_zero_of_not {d : Char} {s : Str} (h : d ∉ s) : s.count d = 0 := List.count_eq_zero.2 h

/-- what is left of a written property after unfolding -/
theorem written_unfolded {p : Property} {w : World} {out : Str} (h : p.fmtWrite w = .ok out) :
    (∃ s, unfoldSpec out = s ++ ['\r', '\n']) ∧
    (unfoldSpec out).count ';' = (p.line w).count ';' ∧
    (unfoldSpec out = p.line w ++ ['\r', '\n'] ∨
      (unfoldSpec out).count '\n' ≤ (p.line w).count '\n') := by
  unfold Property.fmtWrite at h
  cases hf : foldLine (p.line w) with
  | error e => rw [hf] at h; cases h
  | ok s =>
    rw [hf] at h
    cases h
    obtain ⟨qs, v, h1, h2, -⟩ := foldLine_ok hf
    rw [show crlf = ['\r', '\n'] from rfl]
    refine ⟨⟨_, unfoldSpec_end s⟩, ?_, ?_⟩
    · rw [unfoldSpec_count (by simp [Space]), h2, h1]
      simp [List.count_append, count_folded (d := ';') (by simp [Space])]
    · have := unfold_folded_lf qs (v ++ ['\r', '\n'])
      rw [← List.append_assoc, ← h2, ← List.append_assoc, ← h1] at this
      rcases this with h | h
      · exact .inl h
      · right
        rw [List.count_append (l₁ := p.line w)] at h
        have e : (['\r', '\n'] : Str).count '\n' = 1 := by decide
        rw [e] at h
        omega

omit [Uni] in
theorem keyword_prefix {k s w : Str} (hw : w = c!"END" ∨ w = c!"BEGIN") (h : ¬ Keyword (k ++ s)) : ¬ w <+: k := by
  intro hc
  refine h ⟨[], k ++ s, by simp, rfl, ?_⟩
  have := hc.trans (List.prefix_append k s)
  rcases hw with rfl | rfl
  · exact .inl this
  · exact .inr this

/-- if what is read from a written property is the property, the text was its line and could only be read in one way -/
theorem reads_told {p : Property} (hs : BMap.Sorted p.params) {w : World} (hw : World.Ok w) {out : Str}
    (h : p.fmtWrite w = .ok out) (hr : (readProperty (unfold out)).map PProp.toProperty = some p) :
    OwnLine p ∧ ValuesTold (w.order [] p.params) p.val ∧ unfoldSpec out = p.line w ++ ['\r', '\n'] := by
  obtain ⟨q, hq, hp⟩ := Option.map_eq_some_iff.1 hr
  rw [unfold_eq_spec] at hq
  obtain ⟨t, f, hu, hname, hkw, hprop⟩ := property_read_iff.1 hq
  obtain ⟨⟨s0, hend⟩, hsemi, hlf⟩ := written_unfolded h
  have hkey : q.name = p.key := by rw [← hp]; rfl
  have hval : q.val = p.val := by rw [← hp]; rfl
  have hpar : BMap.ofList (q.params.map PParam.toPair) = p.params := by rw [← hp]; rfl
  have hperm : (w.order [] p.params).Perm p.params := hw.order [] p.params
  have hline : p.line w = p.key ++ (paramsText (w.order [] p.params) ++ ':' :: rawText p) := by
    unfold Property.line
    rw [rawText_valueText]
    simp
  generalize w.order [] p.params = l at *
  generalize unfoldSpec out = u at *
  rw [hline] at hsemi hlf
  rw [hkey] at hname
  have hname0 : ∀ d ∈ [':', ';', '=', '"', '\r', '\n', ' ', '\t'], p.key.count d = 0 := fun d hd =>
    count_zero_of_not (fun hc => nameChar_stops hd (hname d hc))
  rcases hprop with ⟨white, params, raw, br, hwh, hps, hvis, hv, rfl⟩ | ⟨h1, h2, -, br, rfl, -⟩
  · -- a line with a colon
    rw [hkey] at hv
    have hwc : white.count ';' = 0 := count_zero_of_not (fun hc => by have := hwh _ hc; simp [Space] at this)
    have hcu : ∀ d, u.count d = white.count d + p.key.count d + params.count d + ([':'] : Str).count d + raw.count d +
        (br ++ f).count d := by
      intro d
      rw [hu, hkey]
      simp only [List.count_append, List.count_cons, List.count_nil]
      omega
    -- as many parameters were read as written
    have hperm2 : (q.params.map PParam.toPair).Perm p.params := by
      rcases ofList_msum pcount_pos (q.params.map PParam.toPair) with h | h
      · rw [← hpar]; exact h.symm
      · exfalso
        rw [hpar, ← msum_perm hperm, ← count_paramsText] at h
        have h3 := paramsAre_count (d := ';') (by decide) (by decide) hps
        have h4 : p.val.count ';' ≤ raw.count ';' := by
          rw [← hval, hv]
          split
          · exact count_unescaped (by decide) (by decide) _
          · exact Nat.le_refl _
        have h5 := hcu ';'
        rw [hsemi] at h5
        simp only [List.count_append, List.count_cons, count_rawText] at h5
        have h6 := hname0 ';' (by simp)
        simp at h5
        omega
    -- the reader and the writer agree about escaping
    have hread : (q.params.map PParam.toPair).map readParam = q.params := by
      rw [List.map_map]
      refine (List.map_congr_left ?_).trans (List.map_id _)
      intro x hx
      have := (paramsAre_val hps x hx).2
      obtain ⟨k, v⟩ := x
      cases v with
      | none => rfl
      | some v =>
        have hv0 : v ≠ [] := by simpa using this
        simp [readParam, PParam.toPair, hv0]
    have htext := isText_read p hs hperm2
    rw [hread] at htext
    simp only [htext] at hv
    -- unfolding took no line feed away
    have hbr : 1 ≤ (br ++ f).count '\n' := by
      rcases hvis with ⟨rfl, -⟩ | ⟨rfl, -⟩ | ⟨rfl, hno, rfl⟩
      · simp
      · simp
      · exfalso
        have he : ([':'] ++ raw).getLast? = some '\n' := by
          have := congrArg List.getLast? (hend.symm.trans hu)
          simpa using this.symm
        have : '\n' ∈ [':'] ++ raw := List.mem_of_getLast? he
        simp at this
        exact hno this
    have hlfp : (paramsText l).count '\n' ≤ params.count '\n' := by
      rw [count_paramsText, msum_perm (hperm.trans hperm2.symm)]
      exact paramsAre_count (by decide) (by decide) hps
    have hlfr : (rawText p).count '\n' ≤ raw.count '\n' := by
      by_cases ht : IsText p
      · unfold rawText
        rw [if_pos ht, count_zero_of_not (escaped_noLf _)]
        exact Nat.zero_le _
      · rw [if_neg ht, hval] at hv
        unfold rawText
        rw [if_neg ht, hv]
        exact Nat.le_refl _
    have hu2 : u = p.key ++ (paramsText l ++ ':' :: rawText p) ++ ['\r', '\n'] := by
      rcases hlf with h | h
      · exact h
      · exfalso
        have h5 := hcu '\n'
        simp only [List.count_append, List.count_cons] at h h5
        have h6 := hname0 '\n' (by simp)
        simp at h h5
        rw [List.count_append] at hbr
        omega
    -- no white space
    have hpn : ∀ x ∈ l, IsName x.1 := by
      intro x hx
      have := hperm2.mem_iff.2 (hperm.mem_iff.1 hx)
      obtain ⟨y, hy, rfl⟩ := List.mem_map.1 this
      exact (paramsAre_val hps y hy).1
    have hwhite : white = [] := by
      cases white with
      | nil => rfl
      | cons c white =>
        exfalso
        have hc := hwh c (by simp)
        have he := hu2.symm.trans hu
        cases hk : p.key with
        | nil =>
          rw [hk] at he
          rcases paramsText_head l (rawText p) with ⟨r, hr⟩ | ⟨r, hr⟩ <;> rw [hr] at he <;> simp at he <;>
            rw [← he.1] at hc <;> simp [Space] at hc
        | cons d k =>
          rw [hk] at he
          simp only [List.cons_append, List.cons.injEq] at he
          have := hname d (by rw [hk]; simp)
          rw [he.1] at this
          refine nameChar_stops ?_ this
          rcases hc with rfl | rfl | rfl | rfl <;> simp
    subst hwhite
    -- piece by piece
    have he : params ++ (':' :: (raw ++ (br ++ f))) = paramsText l ++ ':' :: (rawText p ++ ['\r', '\n']) := by
      have he := hu.symm.trans hu2
      rw [hkey] at he
      simpa using he
    obtain ⟨htold, hrest⟩ := align (val := p.val) hpn ((hperm.map Prod.fst).symm.nodup (BMap.nodup_keys hs))
      (hperm2.trans hperm.symm) hps (by simpa using he) (fun h => by simp [(quote_rawText p).2 h])
    have hrest : raw ++ (br ++ f) = rawText p ++ ['\r', '\n'] := by simpa using hrest
    refine ⟨⟨hname, ?_, ?_, fun x hx => hpn x (hperm.mem_iff.2 hx), ?_⟩, htold, by rw [hu2, hline]⟩
    · rw [← hu, hu2, List.append_assoc] at hkw
      exact keyword_prefix (.inl rfl) hkw
    · rw [← hu, hu2, List.append_assoc] at hkw
      exact keyword_prefix (.inr rfl) hkw
    · unfold ValueTold
      by_cases ht : IsText p
      · rw [if_pos ht] at hv ⊢
        have hno : '\n' ∉ rawText p := by
          unfold rawText
          rw [if_pos ht]
          exact escaped_noLf _
        have hraw : raw = rawText p := by
          rcases hvis with ⟨rfl, -⟩ | ⟨rfl, -, hno2⟩ | ⟨rfl, hno2, rfl⟩
          · have hc := congrArg (List.count '\n') hrest
            have h0 := count_zero_of_not hno
            simp only [List.count_append, h0] at hc
            simp at hc
            have h1 : raw ++ ['\r'] = rawText p ++ ['\r'] := by
              refine span_unique (P := fun c => c ≠ '\n') (x := '\n' :: f) (y := ['\n']) (by simpa using hrest) ?_ ?_
                (by simp) (by simp)
              · intro c hc' he
                subst he
                simp at hc'
                exact absurd hc' (List.count_eq_zero.1 (by omega))
              · intro c hc' he
                subst he
                simp at hc'
                exact hno hc'
            exact List.append_cancel_right h1
          · refine absurd ⟨rawText p, [], ?_⟩ hno2
            rw [List.append_assoc raw, hrest]
            simp
          · refine absurd ?_ hno2
            have : raw = rawText p ++ ['\r', '\n'] := by simpa using hrest
            rw [this]
            simp
        rw [← raw_read ht, ← hraw, ← hv, hval]
      · rw [if_neg ht] at hv ⊢
        rw [← hval, hv]
        rcases hvis with ⟨rfl, h⟩ | ⟨rfl, -, hno2⟩ | ⟨rfl, hno2, rfl⟩
        · exact h
        · refine absurd ⟨rawText p, [], ?_⟩ hno2
          rw [List.append_assoc raw, hrest]
          simp
        · exact fun hc => hno2 (hc.mem (by simp))
  · -- a name alone
    rw [h2] at hval
    rw [h1] at hpar
    have hl : l = [] := by
      rw [← hpar] at hperm
      exact List.perm_nil.1 hperm
    subst hl
    have hraw : rawText p = [] := by
      unfold rawText
      rw [← hval]
      split <;> rfl
    rw [hkey, List.append_assoc] at hkw
    refine ⟨⟨hname, keyword_prefix (.inl rfl) hkw, keyword_prefix (.inr rfl) hkw, by rw [← hpar]; simp [BMap.ofList], ?_⟩,
      trivial, ?_⟩
    · unfold ValueTold
      rw [← hval]
      split
      · decide
      · decide
    · rcases hlf with h | h
      · rw [h, hline]
      · exfalso
        rw [hend, hraw] at h
        have h6 := hname0 '\n' (by simp)
        simp [paramsText, h6] at h


theorem line_told {p : Property} {w : World} (hw : World.Ok w) (h : ValuesTold (w.order [] p.params) p.val) :
    LineTold p (p.line w ++ ['\r', '\n']) := by
  obtain ⟨forms, h1, h2⟩ := paramsText_forms (w.order [] p.params)
  refine ⟨_, forms, hw.order [] p.params, h1, h, ?_⟩
  unfold Property.line
  rw [h2, rawText_valueText]
  simp

/-- **C118.** A written property is read back as it was exactly if its names are names, none starts like a keyword, its
value can be told from its text, and the text is, after unfolding, its content line with parameters whose values can be
told. -/
theorem property_survives_iff (p : Property) (hs : p.params.Pairwise (fun a b => strCmp a.1 b.1 = .lt)) (w : World)
    (hw : World.Ok w) (out : Str) (h : p.fmtWrite w = .ok out) :
    (readProperty (unfold out)).map PProp.toProperty = some p ↔ OwnLine p ∧ LineTold p (unfoldSpec out) := by
  refine ⟨fun hr => ?_, fun hr => ?_⟩
  · obtain ⟨h1, h2, h3⟩ := reads_told hs hw h hr
    exact ⟨h1, h3 ▸ line_told hw h2⟩
  · rw [unfold_eq_spec]
    exact told_reads hs hr.1 hr.2

omit [Uni] in
theorem valuesTold_plain {l : List (Str × Str)} {val : Str} (h : ∀ x ∈ l, ¬ ['"'] <+: x.2) :
    ValuesTold l val ↔ ∀ x ∈ l, ':' ∈ x.2 ∨ ';' ∈ x.2 → '"' ∉ x.2 := by
  induction l with
  | nil => simp [ValuesTold]
  | cons x l ih =>
    obtain ⟨k, v⟩ := x
    have hv := h (k, v) (by simp)
    rw [ValuesTold, ih (fun y hy => h y (by simp [hy]))]
    simp only [List.mem_cons, forall_eq_or_imp]
    refine and_congr_left fun _ => ?_
    split
    · rename_i hc; exact ⟨fun h _ => h, fun h => h hc⟩
    · rename_i hc; exact ⟨fun _ h => absurd h hc, fun _ => .inl hv⟩

/-- **C118.** If no value of a parameter starts with a quote and none looks like a folded line, what matters is only: the
names are names, none starts like a keyword, values with a colon or semicolon have no quote, and the value of
the property can be told from its text. -/
theorem plain_property_survives_iff (p : Property) (hs : p.params.Pairwise (fun a b => strCmp a.1 b.1 = .lt))
    (hq : ∀ x ∈ p.params, ¬ ['"'] <+: x.2) (hm : ∀ line, ContentLine p line → MarkerFree line) (w : World)
    (hw : World.Ok w) (out : Str) (h : p.fmtWrite w = .ok out) :
    (readProperty (unfold out)).map PProp.toProperty = some p ↔
      OwnLine p ∧ ∀ x ∈ p.params, ':' ∈ x.2 ∨ ';' ∈ x.2 → '"' ∉ x.2 := by
  rw [property_survives_iff p hs w hw out h]
  refine and_congr_right fun _ => ⟨?_, fun hv => ?_⟩
  · rintro ⟨l, forms, h1, h2, h3, -⟩
    have := (valuesTold_plain (fun x hx => hq x (h1.mem_iff.1 hx))).1 h3
    exact fun x hx => this x (h1.mem_iff.2 hx)
  · obtain ⟨line, ⟨l, forms, h1, h2, h3⟩, hu⟩ := written_unfold p hm w hw out h
    rw [unfold_eq_spec] at hu
    refine ⟨l, forms, h1, h2, ?_, by rw [hu, h3]⟩
    exact (valuesTold_plain (fun x hx => hq x (h1.mem_iff.1 hx))).2 (fun x hx => hv x (h1.mem_iff.1 hx))

omit [Uni] in
/-- only texts without markers are left alone by unfolding -/
theorem markerFree_of_unfold {s : Str} (h : unfoldSpec s = s) : MarkerFree s := by
  have hc : ∀ {t : Str} {x : Str}, 0 < x.count '\n' → unfoldSpec t = x ++ t → False := by
    intro t x hx he
    have := congrArg (List.count '\n') he
    rw [List.count_append] at this
    rcases unfoldSpec_lf t with h | h
    · rw [h] at this; omega
    · omega
  fun_induction unfoldSpec s with
  | case1 => exact markerFree_nil
  | case2 s ih => exact (hc (x := ['\r', '\n', ' ']) (by decide) h).elim
  | case3 s ih => exact (hc (x := ['\r', '\n', '\t']) (by decide) h).elim
  | case4 s ih => exact (hc (x := ['\n', ' ']) (by decide) h).elim
  | case5 s ih => exact (hc (x := ['\n', '\t']) (by decide) h).elim
  | case6 c s h1 h2 h3 h4 ih =>
    have ih := ih (List.cons.inj h).2
    refine ⟨?_, ?_⟩ <;> rw [List.infix_cons_iff] <;> rintro (hp | hp)
    · obtain ⟨t, ht⟩ := hp
      simp only [List.cons_append, List.nil_append, List.cons.injEq] at ht
      exact h3 t ht.1.symm ht.2.symm
    · exact ih.1 hp
    · obtain ⟨t, ht⟩ := hp
      simp only [List.cons_append, List.nil_append, List.cons.injEq] at ht
      exact h4 t ht.1.symm ht.2.symm
    · exact ih.2 hp

/-- **C118.** A property that fits in one physical line survives exactly if it can be told from its line and there is
nothing in the line that looks like a fold. -/
theorem short_property_survives_iff (p : Property) (hs : p.params.Pairwise (fun a b => strCmp a.1 b.1 = .lt))
    (hl : ∀ line, ContentLine p line → blen line ≤ 75) (w : World)
    (hw : World.Ok w) (out : Str) (h : p.fmtWrite w = .ok out) :
    (readProperty (unfold out)).map PProp.toProperty = some p ↔ OwnLine p ∧ LineTold p out ∧ MarkerFree out := by
  have hout : out = p.line w ++ ['\r', '\n'] := by
    unfold Property.fmtWrite at h
    rw [fold_short _ (hl _ (line_contentLine p hw))] at h
    cases h
    rfl
  refine ⟨fun hr => ?_, fun ⟨h1, h2, h3⟩ => ?_⟩
  · obtain ⟨h1, h2, h3⟩ := reads_told hs hw h hr
    rw [← hout] at h3
    exact ⟨h1, hout ▸ line_told hw h2, markerFree_of_unfold h3⟩
  · rw [property_survives_iff p hs w hw out h, unfoldSpec_markerFree _ h3]
    exact ⟨h1, h2⟩

/-- **C118, C94.** A property read from any text is, when it is written, read as the same property again exactly if its
value can be told from its text and the line from the unfolded text. -/
theorem reread_property_iff (s : Str) (q : PProp) (hq : readProperty s = some q) (w : World) (hw : World.Ok w) (out : Str)
    (h : q.toProperty.fmtWrite w = .ok out) :
    (readProperty (unfold out)).map PProp.toProperty = some q.toProperty ↔
      ValueTold q.toProperty ∧ LineTold q.toProperty (unfoldSpec out) := by
  rw [property_survives_iff q.toProperty (BMap.sorted_ofList (q.params.map PParam.toPair)) w hw out h]
  refine and_congr_left fun _ => ⟨fun ho => ho.value, fun hv => ?_⟩
  obtain ⟨t, f, hu, hname, hkw, hprop⟩ := property_read_iff.1 hq
  have hkey : q.toProperty.key = q.name := rfl
  refine ⟨hname, ?_, ?_, ?_, hv⟩
  · rcases hprop with ⟨white, params, raw, br, hwh, -, -, -, rfl⟩ | ⟨-, -, -, br, rfl, -⟩
    · intro hc
      refine hkw ⟨white, q.name ++ (params ++ ':' :: raw ++ br ++ f), hwh, by simp, .inl ?_⟩
      exact hc.trans (List.prefix_append _ _)
    · rw [List.append_assoc] at hkw
      exact keyword_prefix (.inl rfl) hkw
  · rcases hprop with ⟨white, params, raw, br, hwh, -, -, -, rfl⟩ | ⟨-, -, -, br, rfl, -⟩
    · intro hc
      refine hkw ⟨white, q.name ++ (params ++ ':' :: raw ++ br ++ f), hwh, by simp, .inr ?_⟩
      exact hc.trans (List.prefix_append _ _)
    · rw [List.append_assoc] at hkw
      exact keyword_prefix (.inr rfl) hkw
  · intro x hx
    obtain ⟨y, hy, rfl⟩ := List.mem_map.1 (mem_ofList hx)
    rcases hprop with ⟨white, params, raw, br, -, hps, -⟩ | ⟨hps, -⟩
    · exact (paramsAre_val hps y hy).1
    · rw [hps] at hy; simp at hy

end Ical

namespace Ical

open Nom Spec

/-- parameters with quotes that are not mixed up, and a value with a backslash -/
def toldProp : Property :=
  ⟨c!"X-A", c!"a\\b,c;d", [(c!"A", c!"x:y"), (c!"B", c!"\"\""), (c!"C", c!"\"z")]⟩

/-- the same parameters in the other order: the quote at the start of one value is taken to end in a later one -/
def mixedProp : Property :=
  ⟨c!"X-A", c!"v", [(c!"A", c!"\"z"), (c!"B", c!"p\"q")]⟩

def toldWorld : World := ⟨fun _ => ⟨⟨⟨2026, 1, 1⟩, 0, 0, 0, 0⟩⟩, fun _ => c!"0", fun _ l => l⟩

example : ValuesTold toldProp.params toldProp.val ∧ ¬ ValuesTold mixedProp.params mixedProp.val ∧
    ValuesTold mixedProp.params.reverse mixedProp.val := by decide +kernel

/-- a property with quotes in its values survives -/
example : @Property.fmtWrite Uni.ascii toldProp toldWorld = .ok c!"X-A;A=\"x:y\";B=\"\";C=\"z:a\\b,c;d\r\n" ∧
    (@readProperty Uni.ascii c!"X-A;A=\"x:y\";B=\"\";C=\"z:a\\b,c;d\r\n").map PProp.toProperty = some toldProp := by
  refine ⟨by decide +kernel, by decide +kernel⟩

/-- another one is read as a property with other parameters -/
example : @Property.fmtWrite Uni.ascii mixedProp toldWorld = .ok c!"X-A;A=\"z;B=p\"q:v\r\n" ∧
    (@readProperty Uni.ascii c!"X-A;A=\"z;B=p\"q:v\r\n").map PProp.toProperty ≠ some mixedProp := by
  refine ⟨by decide +kernel, by decide +kernel⟩

/-- values with a CR LF, a backslash before a colon or something like a fold do not survive -/
example : ¬ ValueTold ⟨c!"X-A", c!"a\r\nb", []⟩ ∧ ¬ ValueTold ⟨c!"SUMMARY", c!"a\\:b", []⟩ ∧
    ValueTold ⟨c!"SUMMARY", c!"a\r\nb", []⟩ ∧ ¬ MarkerFree c!"X-A:a\n b\r\n" := by
  unfold ValueTold
  decide +kernel

/-- a property read from a line of another writer survives, one read from a line with a backslash before a colon does not -/
example : ∃ q, @readProperty Uni.ascii c!"SUMMARY;X=1:a\\,b\n" = some q ∧ ValueTold q.toProperty ∧
    @LineTold q.toProperty c!"SUMMARY;X=1:a\\,b\r\n" := by
  refine ⟨⟨c!"SUMMARY", c!"a,b", [⟨c!"X", some c!"1"⟩]⟩, by decide +kernel, by unfold ValueTold; decide +kernel, ?_⟩
  exact ⟨[(c!"X", c!"1")], [c!";X=1"], .refl _, ⟨by unfold ParamForm; decide +kernel, trivial⟩, by decide +kernel, by decide +kernel⟩

example : ∃ q, @readProperty Uni.ascii c!"SUMMARY:a\\\\\\:b\r\n" = some q ∧ ¬ ValueTold q.toProperty :=
  ⟨⟨c!"SUMMARY", c!"a\\:b", []⟩, by decide +kernel, by unfold ValueTold; decide +kernel⟩

end Ical
