import Verif.Proofs.Kept

/-!
Reading what was written, line by line: if it gives back what was written, every line was read as that line.
-/

namespace Ical

open Nom Spec

theorem crlf_unique {a b x y : Str} (h : a ++ ('\r' :: '\n' :: x) = b ++ ('\r' :: '\n' :: y))
    (ha : ¬ ['\r', '\n'] <:+: a) (hb : ¬ ['\r', '\n'] <:+: b) : a = b ∧ x = y := by
  have key : ∀ {a b x y : Str}, a ++ ('\r' :: '\n' :: x) = b ++ ('\r' :: '\n' :: y) → ¬ ['\r', '\n'] <:+: b →
      ∀ c, b = a ++ c → c = [] := by
    intro a b x y h hb c hc
    subst hc
    rw [List.append_assoc] at h
    have h := List.append_cancel_left h
    cases c with
    | nil => rfl
    | cons d c =>
      exfalso
      simp only [List.cons_append, List.cons.injEq] at h
      cases c with
      | nil => simp at h
      | cons e c =>
        simp only [List.cons_append, List.cons.injEq] at h
        obtain ⟨rfl, rfl, -⟩ := h
        exact hb ⟨a, c, by simp⟩
  rcases List.append_eq_append_iff.1 h with ⟨c, h1, h2⟩ | ⟨c, h1, h2⟩
  · have := key h hb c h1
    subst this
    simp at h1 h2
    exact ⟨h1.symm, h2⟩
  · have := key h.symm ha c h1
    subst this
    simp at h1 h2
    exact ⟨h1, h2.symm⟩

/-- the text starts with END -/
def EndText (f : Str) : Prop := ∃ e f', f = e ++ f' ∧ e.map lowerAscii = c!"end:"

theorem endText_head {f : Str} (h : EndText f) : ∃ c r, f = c :: r ∧ lowerAscii c = 'e' := by
  obtain ⟨e, f', rfl, he⟩ := h
  obtain ⟨c, r, rfl, hc⟩ := keyword_head he
  exact ⟨c, r ++ f', rfl, hc⟩

variable [Uni]

omit [Uni] in
theorem readParam_toPair {L : List PParam} (h : ∀ q ∈ L, q.val ≠ some []) : (L.map PParam.toPair).map readParam = L := by
  rw [List.map_map]
  refine (List.map_congr_left ?_).trans (List.map_id _)
  intro x hx
  have := h x hx
  obtain ⟨k, v⟩ := x
  cases v with
  | none => rfl
  | some v =>
    have hv0 : v ≠ [] := by simpa using this
    simp [readParam, PParam.toPair, hv0]

/-- parameters that are the ones written -/
theorem align_shrunk {l l' : List (Str × Str)} {L : List PParam} {t F rest : Str} (hn : ∀ x ∈ l, IsName x.1)
    (hnd : (l.map Prod.fst).Nodup) (hp : (L.map PParam.toPair).Perm l) (hsh : ShrunkParams l l') (h : ParamsAre L t F)
    (he : t ++ F = paramsText l' ++ ':' :: rest) :
    l' = l ∧ L.map PParam.toPair = l ∧ ParamsTold l (':' :: rest) ∧ F = ':' :: rest := by
  induction l generalizing L t l' with
  | nil =>
    have : L = [] := by simpa using hp.length_eq
    subst this
    cases l' with
    | cons => exact hsh.elim
    | nil =>
      obtain ⟨rfl, -⟩ := h
      exact ⟨rfl, rfl, trivial, he⟩
  | cons x l ih =>
    obtain ⟨k, v⟩ := x
    cases l' with
    | nil => exact hsh.elim
    | cons y l' =>
    obtain ⟨k1, v1⟩ := y
    obtain ⟨h1, hv1, hsh⟩ := hsh
    have h1 : k1 = k := h1
    subst h1
    have hv1 : Shrunk v v1 := hv1
    cases L with
    | nil => simpa using hp.length_eq
    | cons q L =>
      obtain ⟨a, b, ⟨hk, blanks, form, hb, rfl, hf1, hf2, hm⟩, h4, rfl⟩ := h
      have hkn : IsName k1 := hn (k1, v) (by simp)
      have hn' : ∀ x ∈ l, IsName x.1 := fun y hy => hn y (by simp [hy])
      have he1 : blanks ++ (q.key ++ (form ++ (b ++ F))) =
          k1 ++ ('=' :: (quoteIfContainsColon v1 ++ (paramsText l' ++ ':' :: rest))) := by
        have := he
        rw [paramsText] at this
        simpa using this
      have hbl : blanks = [] := by
        refine span_unique (P := fun c => c = ' ' ∨ c = '\t') (b := []) (x := q.key ++ (form ++ (b ++ F)))
          (y := k1 ++ ('=' :: (quoteIfContainsColon v1 ++ (paramsText l' ++ ':' :: rest)))) ?_ hb (by simp) ?_ ?_
        · simpa using he1
        · intro c hc
          have := hf1 c (by simpa using hc)
          rintro (h | h)
          · exact this.1 h
          · exact this.2 h
        · intro c hc
          cases k1 with
          | nil => cases hc; decide
          | cons d k =>
            cases hc
            have hd := hkn c (by simp)
            rintro (h | h) <;> rw [h] at hd <;> exact nameChar_stops (by simp) hd
      subst hbl
      rw [List.nil_append] at he1
      have hkey : q.key = k1 := by
        refine span_unique (P := NameChar) he1 hk hkn hf2 ?_
        intro c hc
        cases hc
        exact nameChar_stops (by simp)
      rw [hkey] at he1
      have he2 := List.append_cancel_left he1
      have hval : q.val.getD [] = v := by
        have hmem : q.toPair ∈ (k1, v) :: l := hp.mem_iff.1 (by simp)
        rcases List.mem_cons.1 hmem with h | h
        · exact congrArg Prod.snd h
        · exfalso
          simp only [List.map_cons, List.nodup_cons] at hnd
          refine hnd.1 (List.mem_map.2 ⟨_, h, ?_⟩)
          exact hkey
      have hpair : q.toPair = (k1, v) := Prod.ext hkey hval
      have hp' : (L.map PParam.toPair).Perm l := by
        rw [List.map_cons, hpair] at hp
        exact hp.cons_inv
      have hnd' : (l.map Prod.fst).Nodup := by
        simp only [List.map_cons, List.nodup_cons] at hnd
        exact hnd.2
      -- what follows the value
      have hst : ∀ c ∈ (paramsText l' ++ ':' :: rest).head?, c = ':' ∨ c = ';' := by
        intro c hc
        rcases paramsText_head l' rest with ⟨r, hr⟩ | ⟨r, hr⟩ <;> rw [hr] at hc <;> cases hc <;> simp
      have hcolon : (':' ∈ v1 ∨ ';' ∈ v1) ↔ (':' ∈ v ∨ ';' ∈ v) := by
        rw [shrunk_mem (by simp [Space]) hv1, shrunk_mem (by simp [Space]) hv1]
      have hquote : '"' ∈ v1 ↔ '"' ∈ v := shrunk_mem (by simp [Space]) hv1
      have done : v1 = v → b ++ F = paramsText l' ++ ':' :: rest →
          (l' = l → if ':' ∈ v ∨ ';' ∈ v then '"' ∉ v
            else ¬ ['"'] <+: v ∨ ['"', '"'] <+: v ∨ '"' ∉ v.tail ++ paramsText l ++ ':' :: rest) →
          (k1, v1) :: l' = (k1, v) :: l ∧ (q :: L).map PParam.toPair = (k1, v) :: l ∧
            ParamsTold ((k1, v) :: l) (':' :: rest) ∧ F = ':' :: rest := by
        intro hv h h'
        obtain ⟨h5, h6, h7, h8⟩ := ih hn' hnd' hp' hsh h4 h
        obtain ⟨forms, hf, hf'⟩ := paramsText_forms l
        refine ⟨by rw [hv, h5], by rw [List.map_cons, hpair, h6], ⟨?_, h7⟩, h8⟩
        have h' := h' h5
        split at h'
        · rename_i hc; rw [if_pos hc]; exact h'
        · rename_i hc
          rw [if_neg hc]
          rcases h' with h' | h' | h'
          · exact .inl h'
          · exact .inr (.inl h')
          · exact .inr (.inr ⟨forms, hf, by rw [← hf']; exact h'⟩)
      cases hqv : q.val with
      | none =>
        rw [hqv] at hm hval
        rw [Option.getD_none] at hval
        subst hval
        have := shrunk_nil hv1
        subst this
        rcases hm with ⟨rfl, hm⟩ | ⟨rfl, hm⟩
        · exfalso
          rw [List.nil_append] at he2
          exact hm '=' (by rw [he2]; rfl) rfl
        · refine done rfl (by simpa [quoteIfContainsColon] using he2) ?_
          simp
      | some v' =>
        rw [hqv] at hm hval
        rw [Option.getD_some] at hval
        subst hval
        obtain ⟨hne, ⟨rfl, hnq⟩ | ⟨rfl, hc1, hc2, hm1, hm2⟩⟩ := hm
        · rw [quote_eq] at he2
          by_cases hs : ':' ∈ v' ∨ ';' ∈ v'
          · rw [if_pos (hcolon.2 hs)] at he2
            have he3 : v' ++ ('"' :: (b ++ F)) = v1 ++ ('"' :: (paramsText l' ++ ':' :: rest)) := by simpa using he2
            have hv : v' = v1 := by
              refine span_unique (P := fun c => c ≠ '"') he3 ?_ ?_ (by simp) (by simp)
              · rintro c hc rfl; exact hnq hc
              · rintro c hc rfl; exact hnq (hquote.1 hc)
            rw [hv] at he3
            refine done hv.symm ?_ (fun _ => by rw [if_pos hs]; exact hnq)
            simpa using he3
          · exfalso
            rw [if_neg (fun h => hs (hcolon.1 h))] at he2
            cases v1 with
            | nil =>
              have := hst '"' (by
                have he3 : '"' :: (v' ++ ('"' :: (b ++ F))) = paramsText l' ++ ':' :: rest := by simpa using he2
                rw [← he3]; rfl)
              simp at this
            | cons c v1 =>
              simp only [List.cons_append, List.cons.injEq, true_and] at he2
              exact hnq (hquote.1 (by simp [← he2.1]))
        · have hs : ¬ (':' ∈ v' ∨ ';' ∈ v') := by simp [hc1, hc2]
          rw [quote_eq, if_neg (fun h => hs (hcolon.1 h))] at he2
          have he3 : v' ++ (b ++ F) = v1 ++ (paramsText l' ++ ':' :: rest) := by simpa using he2
          have hs1 : ¬ (':' ∈ v1 ∨ ';' ∈ v1) := fun h => hs (hcolon.1 h)
          have hv : v' = v1 := by
            refine span_unique (P := fun c => ¬ (c = ':' ∨ c = ';')) he3 ?_ ?_ ?_ ?_
            · rintro c hc (rfl | rfl)
              · exact hc1 hc
              · exact hc2 hc
            · rintro c hc (rfl | rfl)
              · exact hs1 (.inl hc)
              · exact hs1 (.inr hc)
            · intro c hc
              exact fun h => h (hm1 c hc)
            · intro c hc
              exact fun h => h (hst c hc)
          rw [hv] at he3
          have he4 := List.append_cancel_left he3
          refine done hv.symm he4 (fun hl => ?_)
          rw [if_neg hs]
          rw [he4] at hm2
          rw [hl] at hm2
          cases v' with
          | nil => exact absurd rfl hne
          | cons c v' =>
            by_cases hc : c = '"'
            · subst hc
              by_cases h2 : ['"'] <+: v'
              · exact .inr (.inl (by simpa using h2))
              · right; right
                have hno : '"' ∉ v' ++ (paramsText l ++ ':' :: rest) := by
                  intro hin
                  obtain ⟨w, r, hwr, hw⟩ := first_split hin
                  refine hm2 w ?_ hw ⟨r, by simpa using hwr.symm⟩
                  rintro rfl
                  rw [List.nil_append] at hwr
                  cases v' with
                  | nil =>
                    rcases paramsText_head l rest with ⟨r', hr'⟩ | ⟨r', hr'⟩ <;> rw [List.nil_append, hr'] at hwr <;>
                      simp at hwr
                  | cons c v' =>
                    simp only [List.cons_append, List.cons.injEq] at hwr
                    exact h2 ⟨v', by rw [hwr.1]; rfl⟩
                simpa using hno
            · left
              simp [List.cons_prefix_cons, Ne.symm hc]

/-! ### One line -/

omit [Uni] in
theorem shrunkParams_nil {l l' : List (Str × Str)} (h : ShrunkParams l l') : l' = [] ↔ l = [] := by
  cases l <;> cases l' <;> simp [ShrunkParams] at *

omit [Uni] in
theorem raw_noCrlf {p : Property} (h : InLine p) {r : Str} (hr : Shrunk (rawText p) r) : ¬ ['\r', '\n'] <:+: r := by
  refine shrunk_noCrlf hr ?_
  unfold rawText
  split
  · exact fun hc => escaped_noLf p.val (hc.mem (by simp))
  · rename_i ht; exact h ht

omit [Uni] in
theorem value_end {raw br f r y : Str} (hv : ValueIs raw br f) (hr : ¬ ['\r', '\n'] <:+: r)
    (he : raw ++ (br ++ f) = r ++ (['\r', '\n'] ++ y)) : raw = r ∧ br = ['\r', '\n'] ∧ f = y := by
  rcases hv with ⟨rfl, h⟩ | ⟨rfl, -, h⟩ | ⟨rfl, h, rfl⟩
  · obtain ⟨h1, h2⟩ := crlf_unique he h hr
    exact ⟨h1, rfl, h2⟩
  · refine absurd ⟨r, y, ?_⟩ h
    rw [List.append_assoc raw, he]
    simp
  · refine absurd ?_ h
    rw [List.append_nil, List.append_nil] at he
    rw [he]
    simp

theorem line_read {p : Property} {l l' : List (Str × Str)} {r u y t f : Str} {q : PProp} (hn : Named p)
    (hs : BMap.Sorted p.params) (ho : InLine p) (hl : ShrunkLine p l l' r u) (hq : PropIs q t f) (he : t ++ f = u ++ y)
    (hc : ¬ (q.params = [] ∧ q.val = [] ∧ ¬ HasColon (t ++ f) ∧ ∃ br, t = q.name ++ br ∧
      First (fun c => ¬ NameChar c) (br ++ f) ∧ (br = ['\r', '\n'] ∨ br = ['\n'] ∨ br = [] ∧ NoBreak f)))
    (H : p.params ≠ [] → q.params ≠ [] → (q.params.map PParam.toPair).Perm p.params) :
    l' = l ∧ q.name = p.key ∧ q.params = l.map readParam ∧ ParamsTold l (':' :: (r ++ (['\r', '\n'] ++ y))) ∧ t = u ∧ f = y ∧
      q.val = if IsText p then unescaped r else r := by
  obtain ⟨hperm, hsh, hr, rfl⟩ := hl
  obtain ⟨hname, hkw, ⟨white, params, raw, br, hwh, hps, hvis, hv, rfl⟩ | h⟩ := hq
  · have he1 : white ++ (q.name ++ (params ++ (':' :: (raw ++ (br ++ f))))) =
        p.key ++ (paramsText l' ++ ':' :: (r ++ (['\r', '\n'] ++ y))) := by simpa using he
    have hpn : ∀ x ∈ l, IsName x.1 := fun x hx => hn.2 x (hperm.mem_iff.1 hx)
    have hwhite : white = [] := by
      cases white with
      | nil => rfl
      | cons c white =>
        exfalso
        have hc := hwh c (by simp)
        cases hk : p.key with
        | nil =>
          rw [hk] at he1
          rcases paramsText_head l' (r ++ (['\r', '\n'] ++ y)) with ⟨z, hz⟩ | ⟨z, hz⟩ <;> rw [hz] at he1 <;> simp at he1 <;>
            rw [he1.1] at hc <;> simp [Space] at hc
        | cons d k =>
          rw [hk] at he1
          simp only [List.cons_append, List.cons.injEq] at he1
          have := hn.1 d (by rw [hk]; simp)
          rw [← he1.1] at this
          refine nameChar_stops ?_ this
          rcases hc with rfl | rfl | rfl | rfl <;> simp
    subst hwhite
    rw [List.nil_append] at he1
    have hkey : q.name = p.key := by
      refine span_unique (P := NameChar) he1 hname hn.1 ?_ ?_
      · intro c hc
        cases hqp : q.params with
        | nil =>
          rw [hqp] at hps
          obtain ⟨rfl, -⟩ := hps
          cases hc
          exact nameChar_stops (by simp)
        | cons x L =>
          rw [hqp] at hps
          obtain ⟨a, b, ⟨-, blanks, form, -, rfl, -⟩, -, rfl⟩ := hps
          cases hc
          exact nameChar_stops (by simp)
      · intro c hc
        rcases paramsText_head l' (r ++ (['\r', '\n'] ++ y)) with ⟨z, hz⟩ | ⟨z, hz⟩ <;> rw [hz] at hc <;> cases hc <;>
          exact nameChar_stops (by simp)
    rw [hkey] at he1
    have he2 := List.append_cancel_left he1
    have hpq : (q.params.map PParam.toPair).Perm l := by
      cases hqp : q.params with
      | nil =>
        rw [hqp] at hps
        obtain ⟨rfl, hf⟩ := hps
        cases l with
        | nil => exact .refl _
        | cons x l =>
          exfalso
          cases l' with
          | nil => exact hsh
          | cons y' l' =>
            rw [paramsText] at he2
            simp at he2
      | cons x L =>
        rw [← hqp]
        refine (H ?_ (by rw [hqp]; simp)).trans hperm.symm
        intro hp0
        rw [hp0, List.perm_nil] at hperm
        subst hperm
        have : l' = [] := (shrunkParams_nil hsh).2 rfl
        subst this
        rw [hqp] at hps
        obtain ⟨a, b, ⟨-, blanks, form, -, rfl, -⟩, -, rfl⟩ := hps
        simp [paramsText] at he2
    obtain ⟨h1, h2, h3, h4⟩ := align_shrunk hpn ((hperm.map Prod.fst).symm.nodup (BMap.nodup_keys hs)) hpq hsh hps (by simpa using he2)
    subst h1
    have hread := readParam_toPair (fun x hx => (paramsAre_val hps x hx).2)
    rw [h2] at hread
    have h5 : raw ++ (br ++ f) = r ++ (['\r', '\n'] ++ y) := by simpa using h4
    obtain ⟨rfl, rfl, rfl⟩ := value_end hvis (raw_noCrlf ho hr) h5
    have hpar : params = paramsText l' := by
      exact List.append_cancel_right he2
    refine ⟨rfl, hkey, hread.symm, h3, ?_, rfl, ?_⟩
    · rw [hkey, hpar]; simp
    · rw [hv, hkey, ← hread]
      simp only [isText_read p hs hperm]
  · exact absurd h hc

/-! ### Lines -/

/-- what is true of every property that was read and written -/
structure Fine (p : Property) : Prop where
  named : Named p
  sorted : BMap.Sorted p.params
  inLine : InLine p
  notKeyword : NotKeyword p

omit [Uni] in
theorem begins_line {w k s : Str} (hw : ∀ c ∈ w, c ≠ ':' ∧ c ≠ ';') (hk : ':' ∉ k ∧ ';' ∉ k)
    (hs : (∃ r, s = ':' :: r) ∨ ∃ r, s = ';' :: r) (h : Begins (w ++ [':']) (k ++ s)) :
    k.map lowerAscii = w ∧ ∃ r, s = ':' :: r := by
  obtain ⟨b, rest, he, hb⟩ := h
  obtain ⟨b0, rfl, hb0⟩ := lower_cut hb
  rw [List.append_assoc] at he
  have hne : ∀ c ∈ b0, ¬ (c = ':' ∨ c = ';') := by
    rintro c hc (rfl | rfl)
    · exact (hw _ (by rw [← hb0]; exact List.mem_map_of_mem hc)).1 (by decide)
    · exact (hw _ (by rw [← hb0]; exact List.mem_map_of_mem hc)).2 (by decide)
  have : k = b0 := by
    refine span_unique (P := fun c => ¬ (c = ':' ∨ c = ';')) he ?_ hne ?_ (by simp)
    · rintro c hc (rfl | rfl)
      · exact hk.1 hc
      · exact hk.2 hc
    · intro c hc
      rcases hs with ⟨r, rfl⟩ | ⟨r, rfl⟩ <;> cases hc <;> simp
  subst this
  refine ⟨hb0, rest, ?_⟩
  have := List.append_cancel_left he
  simpa using this

theorem name_stops {k : Str} (h : IsName k) : ':' ∉ k ∧ ';' ∉ k :=
  ⟨fun hc => nameChar_stops (by simp) (h _ hc), fun hc => nameChar_stops (by simp) (h _ hc)⟩

theorem line_notKeyword {p : Property} (hn : IsName p.key) (hk : NotKeyword p) {l l' : List (Str × Str)} (hp : l.Perm p.params)
    (hsh : ShrunkParams l l') (z : Str) :
    ¬ Begins c!"end:" (p.key ++ (paramsText l' ++ ':' :: z)) ∧ ¬ Begins c!"begin:" (p.key ++ (paramsText l' ++ ':' :: z)) := by
  have key : ∀ w : Str, (∀ c ∈ w, c ≠ ':' ∧ c ≠ ';') → (p.params = [] → p.key.map lowerAscii ≠ w) →
      ¬ Begins (w ++ [':']) (p.key ++ (paramsText l' ++ ':' :: z)) := by
    intro w hw h hb
    obtain ⟨h1, r, h2⟩ := begins_line hw (name_stops hn) (paramsText_head l' z) hb
    refine h ?_ h1
    cases l' with
    | nil =>
      have : l = [] := (shrunkParams_nil hsh).1 rfl
      subst this
      exact List.perm_nil.1 hp.symm
    | cons x l' => rw [paramsText] at h2; simp at h2
  exact ⟨key c!"end" (by decide) (fun h => (hk h).1), key c!"begin" (by decide) (fun h => (hk h).2)⟩

omit [Uni] in
theorem begin_head {f : Str} {b r : Str} (hb : b.map lowerAscii = c!"begin:") (h : f = b ++ r) : Begins c!"begin:" f :=
  ⟨b, r, h, hb⟩

omit [Uni] in
theorem blank_head {bl : Str} (h : Blank bl) {c : Char} {r s : Str} (he : bl ++ s = c :: r) (hc : ¬ Space c) : bl = [] := by
  cases bl with
  | nil => rfl
  | cons d bl =>
    exfalso
    obtain ⟨l, hl⟩ := h
    cases l with
    | nil => simp at hl
    | cons br l =>
      simp only [List.cons_append, List.cons.injEq] at he
      rw [← he.1] at hc
      cases br <;> simp [Break.text] at hl <;> simp [hl.1, Space] at hc

/-- a line with a colon is not read as a name alone -/
theorem line_alone {k s : Str} (hk : IsName k) (hs : (∃ r, s = ':' :: r) ∨ ∃ r, s = ';' :: r) {comps : List PComp} {F : Str}
    (hF : EndText F) {q : PProp} {props' : List PProp} {t trail rest : Str} : IsName q.name → Blank trail →
    BodyIs props' comps rest F → t ++ (trail ++ (rest ++ F)) = k ++ s →
    ¬ (q.params = [] ∧ q.val = [] ∧ ¬ HasColon (t ++ (trail ++ (rest ++ F))) ∧ ∃ br, t = q.name ++ br ∧
      First (fun c => ¬ NameChar c) (br ++ (trail ++ (rest ++ F))) ∧
      (br = ['\r', '\n'] ∨ br = ['\n'] ∨ br = [] ∧ NoBreak (trail ++ (rest ++ F)))) := by
  rintro hqn htr hb he ⟨-, -, hnc, br, rfl, hf, hbr⟩
  rw [he] at hnc
  rw [List.append_assoc] at he
  have hkey : q.name = k := by
    refine span_unique (P := NameChar) he hqn hk hf ?_
    intro c hc
    rcases hs with ⟨y, rfl⟩ | ⟨y, rfl⟩ <;> cases hc <;> exact nameChar_stops (by simp)
  rw [hkey] at he
  have he := List.append_cancel_left he
  rcases hs with ⟨z, rfl⟩ | ⟨r, hr⟩
  · refine hnc ⟨[], k, [], [], z, by simp, hk, ⟨rfl, ?_⟩, by simp⟩
    intro c hc; cases hc; decide
  · rw [hr] at he
    have hbr : br = [] := by
      rcases hbr with rfl | rfl | ⟨rfl, -⟩
      · simp at he
      · simp at he
      · rfl
    subst hbr
    rw [List.nil_append] at he
    have := blank_head htr he (by simp [Space])
    subst this
    rw [List.nil_append] at he
    have prop : ∀ {q2 : PProp} {t2 f2 : Str}, PropIs q2 t2 f2 → t2 ≠ [] → t2 ++ f2 = ';' :: r → False := by
      rintro q2 t2 f2 ⟨hn2, -, ⟨white, params, raw, br, hwh, hps, -, -, rfl⟩ | ⟨-, -, -, br, rfl, hf2, hb2⟩⟩ hne h
      · have hw0 : white = [] := by
          cases white with
          | nil => rfl
          | cons c white =>
            simp at h
            have := hwh c (by simp)
            rw [h.1] at this
            simp [Space] at this
        subst hw0
        have hn0 : q2.name = [] := by
          cases hq : q2.name with
          | nil => rfl
          | cons c m =>
            rw [hq] at h
            simp at h
            have := hn2 c (by rw [hq]; simp)
            rw [h.1] at this
            exact absurd this (nameChar_stops (by simp))
        rw [hn0] at h
        refine hnc ⟨[], k, q2.params, params, raw ++ (br ++ f2), by simp, hk, by simpa using hps, ?_⟩
        rw [hr, ← h]
        simp
      · have hn0 : q2.name = [] := by
          cases hq : q2.name with
          | nil => rfl
          | cons c m =>
            rw [hq] at h
            simp at h
            have := hn2 c (by rw [hq]; simp)
            rw [h.1] at this
            exact absurd this (nameChar_stops (by simp))
        rw [hn0] at h hne
        rcases hb2 with rfl | rfl | ⟨rfl, -⟩
        · simp at h
        · simp at h
        · exact hne rfl
    cases hb with
    | nil =>
      obtain ⟨c, r', hF, hc⟩ := endText_head hF
      rw [List.nil_append, hF] at he
      simp only [List.cons.injEq] at he
      rw [he.1] at hc
      revert hc
      decide
    | prop _ _ hp hne _ _ _ => exact prop hp hne (by simpa using he)
    | stuck _ hp hne _ _ _ => exact prop hp hne (by simpa using he)
    | comp hc _ =>
      cases hc with
      | mk hb _ _ _ _ _ _ _ _ =>
        obtain ⟨c, r', rfl, hc⟩ := keyword_head hb
        simp at he
        rw [he.1] at hc
        revert hc
        decide

/-- elements that start with a line: the first one is a property, read up to the next line break -/
theorem body_line {k : Str} (hk : IsName k) {l : List (Str × Str)} {z : Str} {props : List PProp} {comps : List PComp}
    {body F : Str} (h : BodyIs props comps body F) (hF : EndText F)
    (he : body ++ F = k ++ (paramsText l ++ ':' :: z))
    (h1 : ¬ Begins c!"end:" (k ++ (paramsText l ++ ':' :: z))) (h2 : ¬ Begins c!"begin:" (k ++ (paramsText l ++ ':' :: z))) :
    ∃ q props' t trail rest, props = q :: props' ∧ PropIs q t (trail ++ (rest ++ F)) ∧ Blank trail ∧ NoBreak (rest ++ F) ∧
      BodyIs props' comps rest F ∧ body = t ++ (trail ++ rest) ∧
      ¬ (q.params = [] ∧ q.val = [] ∧ ¬ HasColon (t ++ (trail ++ (rest ++ F))) ∧ ∃ br, t = q.name ++ br ∧
        First (fun c => ¬ NameChar c) (br ++ (trail ++ (rest ++ F))) ∧
        (br = ['\r', '\n'] ∨ br = ['\n'] ∨ br = [] ∧ NoBreak (trail ++ (rest ++ F)))) := by
  cases h with
  | nil =>
    exfalso
    obtain ⟨e, f', rfl, he'⟩ := hF
    exact h1 ⟨e, f', by rw [← he]; simp, he'⟩
  | prop _ _ hp _ htr hnb hb =>
    exact ⟨_, _, _, _, _, rfl, hp, htr, hnb, hb, rfl, line_alone hk (paramsText_head l z) hF hp.1 htr hb (by simpa using he)⟩
  | stuck _ hp _ htr hnb hb =>
    exact ⟨_, _, _, _, _, rfl, hp, htr, hnb, hb, rfl, line_alone hk (paramsText_head l z) hF hp.1 htr hb (by simpa using he)⟩
  | comp hc _ =>
    exfalso
    cases hc with
    | mk hb _ _ _ _ _ _ _ _ => exact h2 ⟨_, _, by rw [← he]; simp only [List.append_assoc]; rfl, hb⟩

/-- lines that were read as what they are -/
inductive LinesRead : List PProp → List Property → Str → Str → Prop
  | nil {y : Str} : LinesRead [] [] [] y
  | cons {q : PProp} {qs : List PProp} {p : Property} {ps : List Property} {l : List (Str × Str)} {r us y : Str} :
    q.name = p.key → l.Perm p.params → q.params = l.map readParam →
    ParamsTold l (':' :: (r ++ (['\r', '\n'] ++ (us ++ y)))) → Shrunk (rawText p) r →
    q.val = (if IsText p then unescaped r else r) → LinesRead qs ps us y →
    LinesRead (q :: qs) (p :: ps) ((p.key ++ (paramsText l ++ ':' :: (r ++ ['\r', '\n']))) ++ us) y

/-- what is read at the place of a property has its parameters -/
def SamePlace (props : List PProp) (ps : List Property) : Prop :=
  ∀ qs1 q qs2 ps1 p ps2, props = qs1 ++ q :: qs2 → ps = ps1 ++ p :: ps2 → qs1.map PProp.name = ps1.map Property.key →
    q.name = p.key → p.params ≠ [] → q.params ≠ [] → (q.params.map PParam.toPair).Perm p.params

omit [Uni] in
theorem linesRead_names {qs : List PProp} {ps : List Property} {us y : Str} (h : LinesRead qs ps us y) :
    qs.map PProp.name = ps.map Property.key := by
  induction h with
  | nil => rfl
  | cons h1 _ _ _ _ _ _ ih => rw [List.map_cons, List.map_cons, h1, ih]

theorem name_noSpace {k : Str} (hk : IsName k) (l : List (Str × Str)) (z : Str) {c : Char} {r : Str}
    (h : c :: r = k ++ (paramsText l ++ ':' :: z)) : ¬ Space c := by
  cases k with
  | nil =>
    rw [List.nil_append] at h
    rcases paramsText_head l z with ⟨y, hy⟩ | ⟨y, hy⟩ <;> rw [hy] at h <;> simp at h <;> rw [h.1] <;> simp [Space]
  | cons d k =>
    simp at h
    have := hk d (by simp)
    rw [← h.1] at this
    rintro (rfl | rfl | rfl | rfl) <;> exact nameChar_stops (by simp) this

theorem line_noBreak {k : Str} (hk : IsName k) (l : List (Str × Str)) (z : Str) : NoBreak (k ++ (paramsText l ++ ':' :: z)) := by
  refine ⟨?_, ?_⟩ <;> rintro ⟨r, hr⟩
  · exact name_noSpace hk l z hr (by simp [Space])
  · exact name_noSpace hk l z hr (by simp [Space])

theorem lines_noBreak {ps : List Property} {us y : Str} (h : ShrunkLines ps us) (hp : ∀ p ∈ ps, IsName p.key) (hy : NoBreak y) :
    NoBreak (us ++ y) := by
  cases h with
  | nil => exact hy
  | cons h1 _ =>
    obtain ⟨-, -, -, rfl⟩ := h1
    simp only [List.append_assoc, List.cons_append]
    exact line_noBreak (hp _ List.mem_cons_self) _ _

theorem lines_read {ps : List Property} {us : Str} (h : ShrunkLines ps us) : ∀ {props : List PProp} {comps : List PComp}
    {body F y : Str}, (∀ p ∈ ps, Fine p) → SamePlace props ps → BodyIs props comps body F → EndText F → NoBreak y →
    body ++ F = us ++ y →
    ∃ qs props' body', props = qs ++ props' ∧ LinesRead qs ps us y ∧ BodyIs props' comps body' F ∧ body' ++ F = y ∧
      body = us ++ body' := by
  induction h with
  | nil => exact fun {props _ body _ _} _ _ hb _ _ he => ⟨[], props, body, rfl, .nil, hb, by simpa using he, rfl⟩
  | @cons p ps l l' r u us h1 h2 ih =>
    intro props comps body F y hf hpl hb hF hy he
    have hp := hf p (by simp)
    have h1' := h1
    obtain ⟨hperm, hsh, hr, hu⟩ := h1
    have he' : body ++ F = p.key ++ (paramsText l' ++ ':' :: (r ++ (['\r', '\n'] ++ (us ++ y)))) := by
      rw [he, hu]; simp
    obtain ⟨k1, k2⟩ := line_notKeyword hp.named.1 hp.notKeyword hperm hsh (r ++ (['\r', '\n'] ++ (us ++ y)))
    obtain ⟨q, props', t, trail, rest, rfl, hq, htr, hnb, hb', rfl, hal⟩ := body_line hp.named.1 hb hF he' k1 k2
    have hy' := lines_noBreak h2 (fun p hp => (hf p (by simp [hp])).named.1) hy
    have hF' : t ++ (trail ++ (rest ++ F)) = u ++ (us ++ y) := by simpa using he
    -- the name
    have hname : q.name = p.key ∨ q.params = [] := by
      by_cases hqp : q.params = []
      · exact .inr hqp
      · left
        obtain ⟨hqn, -, ⟨white, params, raw, br, hwh, hps, -, -, rfl⟩ | h⟩ := hq
        · have he1 : white ++ (q.name ++ (params ++ (':' :: (raw ++ (br ++ (trail ++ (rest ++ F))))))) =
              p.key ++ (paramsText l' ++ ':' :: (r ++ (['\r', '\n'] ++ (us ++ y)))) := by
            rw [hu] at hF'; simpa using hF'
          have hwhite : white = [] := by
            cases white with
            | nil => rfl
            | cons c white =>
              exfalso
              have hc := hwh c (by simp)
              exact name_noSpace hp.named.1 l' (r ++ (['\r', '\n'] ++ (us ++ y))) he1 hc
          subst hwhite
          rw [List.nil_append] at he1
          refine span_unique (P := NameChar) he1 hqn hp.named.1 ?_ ?_
          · intro c hc
            cases hqp' : q.params with
            | nil => exact absurd hqp' hqp
            | cons x L =>
              rw [hqp'] at hps
              obtain ⟨a, b, ⟨-, blanks, form, -, rfl, -⟩, -, rfl⟩ := hps
              cases hc
              exact nameChar_stops (by simp)
          · intro c hc
            rcases paramsText_head l' (r ++ (['\r', '\n'] ++ (us ++ y))) with ⟨z, hz⟩ | ⟨z, hz⟩ <;> rw [hz] at hc <;>
              cases hc <;> exact nameChar_stops (by simp)
        · exact absurd h.1 hqp
    obtain ⟨e1, e2, e3, e4, e5, e6, e7⟩ := line_read hp.named hp.sorted hp.inLine h1' hq hF' hal (by
      intro a1 a2
      rcases hname with h | h
      · exact hpl [] q props' [] p ps rfl rfl rfl h a1 a2
      · exact absurd h a2)
    subst e1 e5
    obtain ⟨rfl, e8⟩ := blank_unique htr blank_nil hnb hy' (by simpa using e6)
    obtain ⟨qs, props2, body', rfl, f1, f2, f3, f4⟩ := ih (fun p hp => hf p (by simp [hp])) (by
      intro qs1 q1 qs2 ps1 p1 ps2 a1 a2 a3 a4 a5 a6
      exact hpl (q :: qs1) q1 qs2 (p :: ps1) p1 ps2 (by rw [a1]; rfl) (by rw [a2]; rfl) (by simp [e2, a3]) a4 a5 a6) hb' hF hy e8
    refine ⟨q :: qs, props2, body', rfl, ?_, f2, f3, by rw [f4]; simp⟩
    rw [hu]
    exact .cons e2 hperm e3 e4 hr e7 f1

end Ical
