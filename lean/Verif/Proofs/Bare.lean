import Verif.Props.Survives
import Verif.Spec.Reprinted

/-!
Reading what was printed for a parsed tree, line by line. Reading never adds a letter, and it takes letters away only in
keywords that are not in capitals and in escapes; so if the tree comes back, all its keywords were the printed ones.
-/

namespace Ical

open Nom Spec

/-! ### Counting characters -/

/-- how often a character occurs in a property -/
def propCount (d : Char) (p : PProp) : Nat :=
  p.name.count d + (p.params.map (fun q => q.key.count d + (q.val.getD []).count d)).sum + p.val.count d

/-- how often a character occurs in properties -/
def propsCount (d : Char) (l : List PProp) : Nat := (l.map (propCount d)).sum

mutual
/-- how often a character occurs in a component -/
def compCount (d : Char) : PComp → Nat
  | .mk n props comps => n.count d + n.count d + propsCount d props + compsCount d comps
/-- see `compCount` -/
def compsCount (d : Char) : List PComp → Nat
  | [] => 0
  | c :: l => compCount d c + compsCount d l
end

/-- a character that is not punctuation -/
def Inky (d : Char) : Prop := ¬ Space d ∧ d ≠ ';' ∧ d ≠ '=' ∧ d ≠ '"' ∧ d ≠ ':' ∧ d ≠ '\\'

/-- a character that is in no keyword either -/
def Foreign (d : Char) : Prop := Inky d ∧ lowerAscii d ∉ c!"begin:" ∧ lowerAscii d ∉ c!"end:"

theorem count_unescaped_eq {d : Char} (h : Foreign d) (s : Str) : (unescaped s).count d = s.count d := by
  obtain ⟨⟨hs, h3, h4, h5, h6, h1⟩, h7, -⟩ := h
  have hn : 'n' ≠ d := by rintro rfl; exact h7 (by decide)
  have hN : 'N' ≠ d := by rintro rfl; exact h7 (by decide)
  have h2 : '\n' ≠ d := by rintro rfl; exact hs (by simp [Space])
  have h1' : ('\\' == d) = false := by simpa using Ne.symm h1
  have h2' : ('\n' == d) = false := by simpa using h2
  have hn' : ('n' == d) = false := by simpa using hn
  have hN' : ('N' == d) = false := by simpa using hN
  have hr : ∀ n, (List.replicate n '\\').count d = 0 := by
    intro n
    rw [List.count_replicate]
    simp [h1']
  have key : ∀ (s : Str) (k : Nat), (unescapedRun k s).count d = s.count d := by
    intro s
    induction s with
    | nil => intro k; rw [unescapedRun, hr]; rfl
    | cons c s ih =>
      intro k
      rw [unescapedRun]
      split
      · rename_i hc
        rw [ih, List.count_cons, hc, h1']
        simp
      · split
        · rw [List.count_cons, List.count_cons, ih]
        · split
          · rename_i m hm
            rw [List.count_append, hr, List.count_cons, List.count_cons, ih]
            have : (m == d) = (c == d) := by
              unfold escapeMeaning at hm
              repeat' split at hm
              all_goals cases hm
              all_goals subst_vars
              all_goals first | rfl | rw [h2', hn'] | rw [h2', hN']
            rw [this]
            omega
          · rw [List.count_append, hr, List.count_cons, List.count_cons, ih]
            omega
  exact key s 0

theorem count_space {d : Char} (h : ¬ Space d) {s : Str} (hs : ∀ c ∈ s, Space c) : s.count d = 0 :=
  List.count_eq_zero.2 (fun hc => h (hs d hc))

theorem count_blank {d : Char} (h : ¬ Space d) {s : Str} (hs : Blank s) : s.count d = 0 := by
  obtain ⟨l, rfl⟩ := hs
  refine count_space h ?_
  intro c hc
  obtain ⟨x, hx, hc⟩ := List.mem_flatten.1 hc
  obtain ⟨b, -, rfl⟩ := List.mem_map.1 hx
  cases b <;> simp [Break.text] at hc <;> simp [Space, hc]

theorem count_keyword {d : Char} {k b : Str} (hb : b.map lowerAscii = k) (h : lowerAscii d ∉ k) : b.count d = 0 := by
  refine List.count_eq_zero.2 (fun hc => h ?_)
  rw [← hb]
  exact List.mem_map_of_mem hc

variable [Uni]

theorem paramsAre_inky {d : Char} (hd : Inky d) {L : List PParam} {t f : Str} (h : ParamsAre L t f) :
    t.count d = (L.map (fun q => q.key.count d + (q.val.getD []).count d)).sum := by
  induction L generalizing t with
  | nil => obtain ⟨rfl, -⟩ := h; rfl
  | cons q L ih =>
    obtain ⟨a, b, ⟨-, blanks, form, hb, rfl, -, -, hm⟩, h2, rfl⟩ := h
    obtain ⟨hs, h3, h4, h5, h6, h1⟩ := hd
    have e1 : (';' == d) = false := by simpa using Ne.symm h3
    have e2 : ('=' == d) = false := by simpa using Ne.symm h4
    have e3 : ('"' == d) = false := by simpa using Ne.symm h5
    have hb' : blanks.count d = 0 := count_space hs (fun c hc => by rcases hb c hc with h | h <;> simp [Space, h])
    have hf : form.count d = (q.val.getD []).count d := by
      cases hv : q.val with
      | none =>
        rw [hv] at hm
        rcases hm with ⟨rfl, -⟩ | ⟨rfl, -⟩ <;> simp [List.count_cons, e2]
      | some v =>
        rw [hv] at hm
        obtain ⟨-, ⟨rfl, -⟩ | ⟨rfl, -⟩⟩ := hm <;> simp [List.count_cons, List.count_append, e2, e3]
    rw [List.map_cons, List.sum_cons, List.count_append, ih h2]
    simp only [List.cons_append, List.count_cons, List.count_append, e1, hb', hf]
    simp

theorem propIs_inky {d : Char} (hd : Inky d) {q : PProp} {t f : Str} (h : PropIs q t f) :
    propCount d q ≤ t.count d ∧ (Foreign d → t.count d = propCount d q) := by
  obtain ⟨-, -, ⟨white, params, raw, br, hw, hp, hvi, hv, rfl⟩ | ⟨hp, hv, -, br, rfl, -, hbr⟩⟩ := h
  · have h1 := paramsAre_inky hd hp
    have h2 : q.val.count d ≤ raw.count d := by
      rw [hv]
      split
      · exact count_unescaped hd.2.2.2.2.2 (fun h => hd.1 (by simp [Space, h])) _
      · exact Nat.le_refl _
    have h3 : Foreign d → q.val.count d = raw.count d := by
      intro hF
      rw [hv]
      split
      · exact count_unescaped_eq hF _
      · rfl
    have h4 := count_space hd.1 hw
    have h5 : br.count d = 0 := by
      refine count_space hd.1 ?_
      rcases hvi with ⟨rfl, -⟩ | ⟨rfl, -⟩ | ⟨rfl, -⟩ <;> simp [Space]
    have e : (':' == d) = false := by simpa using Ne.symm hd.2.2.2.2.1
    unfold propCount
    simp only [List.count_append, List.count_cons, e]
    refine ⟨by simp; omega, fun hF => ?_⟩
    have := h3 hF
    simp
    omega
  · have h5 : br.count d = 0 := by
      refine count_space hd.1 ?_
      rcases hbr with rfl | rfl | ⟨rfl, -⟩ <;> simp [Space]
    unfold propCount
    rw [hp, hv, List.count_append, h5]
    exact ⟨by simp, fun _ => by simp⟩

mutual
theorem compIs_inky {d : Char} (hd : Inky d) {c : PComp} {t f : Str} : CompIs c t f →
    compCount d c ≤ t.count d ∧ (Foreign d → t.count d = compCount d c)
  | .mk hbeg _ _ hgap _ hb hend htr _ => by
    obtain ⟨h1, h2⟩ := bodyIs_inky hd hb
    simp only [compCount, List.count_append]
    refine ⟨by omega, fun hF => ?_⟩
    have h3 := h2 hF
    have h4 := count_blank hd.1 hgap
    have h5 := count_blank hd.1 htr
    have h6 := count_keyword hbeg hF.2.1
    have h7 := count_keyword hend hF.2.2
    omega
/-- see `compIs_inky` -/
theorem bodyIs_inky {d : Char} (hd : Inky d) {props : List PProp} {comps : List PComp} {t f : Str} : BodyIs props comps t f →
    propsCount d props + compsCount d comps ≤ t.count d ∧
      (Foreign d → t.count d = propsCount d props + compsCount d comps)
  | .nil => by simp [propsCount, compsCount]
  | .prop _ _ hp _ htr _ hr => by
    obtain ⟨h1, h1'⟩ := propIs_inky hd hp
    obtain ⟨h2, h2'⟩ := bodyIs_inky hd hr
    have h3 := count_blank hd.1 htr
    simp only [propsCount, List.map_cons, List.sum_cons, List.count_append] at *
    refine ⟨by omega, fun hF => ?_⟩
    have := h1' hF
    have := h2' hF
    omega
  | .stuck _ hp _ htr _ hr => by
    obtain ⟨h1, h1'⟩ := propIs_inky hd hp
    obtain ⟨h2, h2'⟩ := bodyIs_inky hd hr
    have h3 := count_blank hd.1 htr
    simp only [propsCount, List.map_cons, List.sum_cons, List.count_append] at *
    refine ⟨by omega, fun hF => ?_⟩
    have := h1' hF
    have := h2' hF
    omega
  | .comp hc hr => by
    obtain ⟨h1, h1'⟩ := compIs_inky hd hc
    obtain ⟨h2, h2'⟩ := bodyIs_inky hd hr
    simp only [compsCount, List.count_append]
    refine ⟨by omega, fun hF => ?_⟩
    have := h1' hF
    have := h2' hF
    omega
end


/-! ### What is left of the printed text after unfolding -/

omit [Uni] in
theorem shrunk_length {a b : Str} (h : Shrunk a b) : b.length ≤ a.length ∧ (b.length = a.length → b = a) := by
  induction h with
  | nil => simp
  | keep _ ih =>
    simp only [List.length_cons]
    exact ⟨by omega, fun h => by rw [ih.2 (by omega)]⟩
  | drop m _ ih =>
    have : 0 < m.text.length := by cases m <;> simp [Marker.text]
    rw [List.length_append]
    exact ⟨by omega, fun h => by omega⟩

/-- parameters whose values have lost fold markers -/
def ShrunkBare : List PParam → List PParam → Prop
  | [], [] => True
  | p :: l, q :: m => q.key = p.key ∧
    (match p.val, q.val with
      | none, none => True
      | some a, some b => Shrunk a b
      | _, _ => False) ∧ ShrunkBare l m
  | _, _ => False

omit [Uni] in
theorem bareParams_cons (q : PParam) (l : List PParam) : bareParams (q :: l) = bareParam q ++ bareParams l := by
  simp [bareParams]

omit [Uni] in
theorem bare_head (l : List PParam) (r : Str) :
    (∃ y, bareParams l ++ ':' :: r = ':' :: y) ∨ ∃ y, bareParams l ++ ':' :: r = ';' :: y := by
  cases l with
  | nil => exact .inl ⟨r, rfl⟩
  | cons q l => exact .inr ⟨_, by rw [bareParams_cons]; rfl⟩

omit [Uni] in
theorem bareLine_eq (p : PProp) : bareLine p = p.name ++ (bareParams p.params ++ ':' :: p.val) := by
  unfold bareLine bareParams
  rw [List.append_assoc]
  rfl

theorem shrunk_bare {l : List PParam} (hn : ∀ x ∈ l, IsName x.key) {r u : Str} (h : Shrunk (bareParams l ++ ':' :: r) u) :
    ∃ l' r', u = bareParams l' ++ ':' :: r' ∧ ShrunkBare l l' ∧ Shrunk r r' := by
  induction l generalizing u with
  | nil =>
    obtain ⟨a', b', rfl, h1, h2⟩ := shrunk_split (d := ':') (by simp [Space]) h [] r rfl
    rw [shrunk_nil h1]
    exact ⟨[], b', rfl, trivial, h2⟩
  | cons x l ih =>
    obtain ⟨k, v⟩ := x
    have hk : IsName k := hn ⟨k, v⟩ (by simp)
    have hn' : ∀ x ∈ l, IsName x.key := fun y hy => hn y (by simp [hy])
    -- a text up to the next parameter
    have key : ∀ {s w : Str}, Shrunk (s ++ (bareParams l ++ ':' :: r)) w →
        ∃ q z, w = q ++ z ∧ Shrunk s q ∧ Shrunk (bareParams l ++ ':' :: r) z := by
      intro s w h
      rcases bare_head l r with ⟨y, hy⟩ | ⟨y, hy⟩ <;> rw [hy] at h
      · obtain ⟨q, z, rfl, h5, h6⟩ := shrunk_split (d := ':') (by simp [Space]) h _ y rfl
        exact ⟨q, _, rfl, h5, by rw [hy]; exact .keep h6⟩
      · obtain ⟨q, z, rfl, h5, h6⟩ := shrunk_split (d := ';') (by simp [Space]) h _ y rfl
        exact ⟨q, _, rfl, h5, by rw [hy]; exact .keep h6⟩
    rw [bareParams_cons] at h
    cases v with
    | none =>
      obtain ⟨a0, b0, rfl, h1, h2⟩ := shrunk_split (d := ';') (by simp [Space]) h [] (k ++ (bareParams l ++ ':' :: r))
        (by simp [bareParam])
      obtain ⟨k', z, rfl, h3, h4⟩ := key h2
      rw [shrunk_nil h1, shrunk_noLf h3 (name_noLf hk)]
      obtain ⟨l', r', rfl, h8, h9⟩ := ih hn' h4
      exact ⟨⟨k, none⟩ :: l', r', by simp [bareParams_cons, bareParam], ⟨rfl, trivial, h8⟩, h9⟩
    | some v =>
      obtain ⟨a0, b0, rfl, h1, h2⟩ := shrunk_split (d := ';') (by simp [Space]) h []
        (k ++ ('=' :: (v ++ (bareParams l ++ ':' :: r)))) (by simp [bareParam])
      obtain ⟨k', b1, rfl, h3, h4⟩ := shrunk_split (d := '=') (by simp [Space]) h2 k _ rfl
      obtain ⟨v', z, rfl, h5, h6⟩ := key h4
      rw [shrunk_nil h1, shrunk_noLf h3 (name_noLf hk)]
      obtain ⟨l', r', rfl, h8, h9⟩ := ih hn' h6
      exact ⟨⟨k, some v'⟩ :: l', r', by simp [bareParams_cons, bareParam], ⟨rfl, h5, h8⟩, h9⟩

/-- the lines of properties without some fold markers -/
inductive ShrunkProps : List PProp → Str → Prop
  | nil : ShrunkProps [] []
  | cons {p : PProp} {ps : List PProp} {l : List PParam} {r us : Str} :
    ShrunkBare p.params l → Shrunk p.val r → ShrunkProps ps us →
    ShrunkProps (p :: ps) (p.name ++ (bareParams l ++ ':' :: (r ++ (['\r', '\n'] ++ us))))

/-- the lines that are printed though nobody asked for them -/
def Stamps (st : Str) : Prop := st = [] ∨ 'M' ∈ st ∨ 'U' ∈ st

mutual
/-- the text of a component without some fold markers -/
inductive ShrunkTree : PComp → Str → Prop
  | mk {name : Str} {props : List PProp} {comps : List PComp} {st us vs : Str} :
    Stamps st → ShrunkProps props us → ShrunkTrees comps vs →
    ShrunkTree (.mk name props comps)
      (c!"BEGIN:" ++ (name ++ (['\r', '\n'] ++ (st ++ (us ++ (vs ++ (c!"END:" ++ (name ++ ['\r', '\n']))))))))
/-- see `ShrunkTree` -/
inductive ShrunkTrees : List PComp → Str → Prop
  | nil : ShrunkTrees [] []
  | cons {c : PComp} {l : List PComp} {u us : Str} : ShrunkTree c u → ShrunkTrees l us → ShrunkTrees (c :: l) (u ++ us)
end

mutual
/-- the same without lines that were added -/
inductive PlainTree : PComp → Str → Prop
  | mk {name : Str} {props : List PProp} {comps : List PComp} {us vs : Str} :
    ShrunkProps props us → PlainTrees comps vs →
    PlainTree (.mk name props comps)
      (c!"BEGIN:" ++ (name ++ (['\r', '\n'] ++ (us ++ (vs ++ (c!"END:" ++ (name ++ ['\r', '\n'])))))))
/-- see `PlainTree` -/
inductive PlainTrees : List PComp → Str → Prop
  | nil : PlainTrees [] []
  | cons {c : PComp} {l : List PComp} {u us : Str} : PlainTree c u → PlainTrees l us → PlainTrees (c :: l) (u ++ us)
end

/-- the names of a property are names, and not keywords -/
structure NamedLine (p : PProp) : Prop where
  name : IsName p.name
  notEnd : ¬ c!"END" <+: p.name
  notBegin : ¬ c!"BEGIN" <+: p.name
  keys : ∀ q ∈ p.params, IsName q.key

mutual
/-- all names in a component are names -/
def NamedTree : PComp → Prop
  | .mk n props comps => IsName n ∧ (∀ p ∈ props, NamedLine p) ∧ NamedTrees comps
/-- see `NamedTree` -/
def NamedTrees : List PComp → Prop
  | [] => True
  | c :: l => NamedTree c ∧ NamedTrees l
end

theorem propIs_named {q : PProp} {t f : Str} (h : PropIs q t f) : NamedLine q := by
  have hr := propIs_readable h
  refine ⟨hr.named.1, hr.notEnd, hr.notBegin, ?_⟩
  obtain ⟨-, -, ⟨white, params, raw, br, -, hp, -⟩ | ⟨hp, -⟩⟩ := h
  · exact fun x hx => (paramsAre_val hp x hx).1
  · rw [hp]; simp

mutual
theorem compIs_named {c : PComp} {t f : Str} : CompIs c t f → NamedTree c
  | .mk _ hn _ _ _ hb _ _ _ => by
    obtain ⟨h1, h2⟩ := bodyIs_named hb
    simp only [NamedTree]
    exact ⟨hn, h1, h2⟩
/-- see `compIs_named` -/
theorem bodyIs_named {props : List PProp} {comps : List PComp} {t f : Str} : BodyIs props comps t f →
    (∀ p ∈ props, NamedLine p) ∧ NamedTrees comps
  | .nil => ⟨by simp, by simp only [NamedTrees]⟩
  | .prop _ _ hp _ _ _ hr => by
    obtain ⟨h1, h2⟩ := bodyIs_named hr
    refine ⟨fun p hp' => ?_, h2⟩
    rcases List.mem_cons.1 hp' with rfl | hp'
    · exact propIs_named hp
    · exact h1 p hp'
  | .stuck _ hp _ _ _ hr => by
    obtain ⟨h1, h2⟩ := bodyIs_named hr
    refine ⟨fun p hp' => ?_, h2⟩
    rcases List.mem_cons.1 hp' with rfl | hp'
    · exact propIs_named hp
    · exact h1 p hp'
  | .comp hc hr => by
    obtain ⟨h1, h2⟩ := bodyIs_named hr
    simp only [NamedTrees]
    exact ⟨h1, compIs_named hc, h2⟩
end

theorem bare_noIndent {k : Str} (hk : IsName k) (l : List PParam) (r : Str) : NoIndent (k ++ (bareParams l ++ ':' :: r)) := by
  cases k with
  | nil =>
    rcases bare_head l r with ⟨y, hy⟩ | ⟨y, hy⟩ <;> rw [hy] <;> exact noIndent_cons (by decide) (by decide)
  | cons c k =>
    have hc := hk c (by simp)
    refine noIndent_cons ?_ ?_ <;> (rintro rfl; exact nameChar_stops (by simp) hc)

theorem shrunk_props {l : List PProp} (hl : ∀ p ∈ l, NamedLine p) {out : Str} (h : fmtPProps l = .ok out) {t : Str}
    (ht : NoIndent t) :
    ∃ u, ShrunkProps l u ∧ unfoldSpec (out ++ t) = u ++ unfoldSpec t ∧ NoIndent (out ++ t) := by
  induction l generalizing out with
  | nil => cases h; exact ⟨[], .nil, rfl, ht⟩
  | cons p l ih =>
    unfold fmtPProps PProp.fmtWrite at h
    cases hf : foldLine p.line with
    | error e => rw [hf] at h; cases h
    | ok s =>
      rw [hf] at h
      cases hb : fmtPProps l with
      | error e => rw [hb] at h; cases h
      | ok b =>
        rw [hb] at h
        cases h
        obtain ⟨us, h1, h2, h3⟩ := ih (fun q hq => hl q (by simp [hq])) hb
        have hp := hl p (by simp)
        have hk := hp.name
        obtain ⟨qs, v, e1, e2, -⟩ := foldLine_ok hf
        have hsh : Shrunk (bareLine p) (unfoldSpec s) := by rw [bareLine_line, e1, e2]; exact shrunk_folded qs v
        rw [bareLine_eq] at hsh
        have key : ∃ z, unfoldSpec s = p.name ++ z ∧ Shrunk (bareParams p.params ++ ':' :: p.val) z := by
          rcases bare_head p.params p.val with ⟨y, hy⟩ | ⟨y, hy⟩ <;> rw [hy] at hsh
          · obtain ⟨q, z, hq, h5, h6⟩ := shrunk_split (d := ':') (by simp [Space]) hsh _ y rfl
            exact ⟨_, by rw [hq, shrunk_noLf h5 (name_noLf hk)], by rw [hy]; exact .keep h6⟩
          · obtain ⟨q, z, hq, h5, h6⟩ := shrunk_split (d := ';') (by simp [Space]) hsh _ y rfl
            exact ⟨_, by rw [hq, shrunk_noLf h5 (name_noLf hk)], by rw [hy]; exact .keep h6⟩
        obtain ⟨z, hz, hz2⟩ := key
        obtain ⟨l', r', rfl, h5, h6⟩ := shrunk_bare hp.keys hz2
        refine ⟨_, .cons h5 h6 h1, ?_, ?_⟩
        · have := unfoldSpec_break s .crlf (b ++ t) h3
          rw [hz, h2] at this
          have e : s ++ crlf ++ b ++ t = s ++ (Break.crlf.text ++ (b ++ t)) := by simp [Break.text, crlf]
          rw [e, this]
          simp [Break.text]
        · have e : s ++ crlf ++ b ++ t = s ++ crlf ++ (b ++ t) := by simp
          rw [e]
          refine noIndent_of_unfold (l := unfoldSpec s ++ crlf) (unfoldSpec_end s) ?_ h3
          rw [hz]
          have := bare_noIndent hk l' (r' ++ crlf ++ (b ++ t))
          simpa using this

omit [Uni] in
theorem stamp_text (name : Str) (props : List PProp) {w : World} (hw : World.Ok w) {t : Str} (ht : NoIndent t) :
    Stamps (calendarStamp name props w) ∧
    unfoldSpec (calendarStamp name props w ++ t) = calendarStamp name props w ++ unfoldSpec t ∧
    NoIndent (calendarStamp name props w ++ t) := by
  have hu : ∀ {t : Str}, NoIndent t → unfoldSpec (c!"UID:" ++ w.uuid [] ++ crlf ++ t) = c!"UID:" ++ w.uuid [] ++ crlf ++ unfoldSpec t :=
    fun ht => keyword_line _ c!"UID:" (by
      simp only [List.mem_append, not_or]
      exact ⟨by decide, uuid_not_mem hw (by decide) []⟩) ht
  have hd : ∀ {t : Str}, NoIndent t → unfoldSpec (c!"DTSTAMP:" ++ fmtUtc (w.now []) ++ crlf ++ t) =
      c!"DTSTAMP:" ++ fmtUtc (w.now []) ++ crlf ++ unfoldSpec t :=
    fun ht => keyword_line _ c!"DTSTAMP:" (by
      simp only [List.mem_append, not_or]
      exact ⟨by decide, fmtUtc_not_mem (w.now []) (by decide) (by decide)⟩) ht
  unfold calendarStamp
  split
  · split
    · split
      · exact ⟨.inl rfl, rfl, ht⟩
      · exact ⟨.inr (.inr (by simp)), hu ht, noIndent_cons (by decide) (by decide)⟩
    · split
      · refine ⟨.inr (.inl (by simp)), ?_, noIndent_cons (by decide) (by decide)⟩
        rw [List.append_nil]
        exact hd ht
      · refine ⟨.inr (.inl (by simp)), ?_, noIndent_cons (by decide) (by decide)⟩
        have h1 : NoIndent (c!"UID:" ++ w.uuid [] ++ crlf ++ t) := noIndent_cons (by decide) (by decide)
        rw [List.append_assoc _ (c!"UID:" ++ w.uuid [] ++ crlf) t, hd h1, hu ht]
        simp
  · exact ⟨.inl rfl, rfl, ht⟩

omit [Uni] in
theorem noneAdded_stamp {name : Str} {props : List PProp} {w : World}
    (h : name.map lowerAscii = c!"calendar" → (∃ p ∈ props, p.name = c!"DTSTAMP") ∧ ∃ p ∈ props, p.name = c!"UID") :
    calendarStamp name props w = [] := by
  unfold calendarStamp
  split
  · rename_i hc
    obtain ⟨⟨p, hp, hp'⟩, q, hq, hq'⟩ := h hc
    rw [if_pos (List.any_eq_true.2 ⟨p, hp, by simp [hp']⟩), if_pos (List.any_eq_true.2 ⟨q, hq, by simp [hq']⟩)]
    rfl
  · rfl

mutual
theorem shrunk_tree (c : PComp) (hn : NamedTree c) {w : World} (hw : World.Ok w) {out : Str} (h : c.fmtWrite w = .ok out)
    {t : Str} (ht : NoIndent t) :
    ∃ u, ShrunkTree c u ∧ unfoldSpec (out ++ t) = u ++ unfoldSpec t ∧ NoIndent (out ++ t) ∧ (NoneAdded c → PlainTree c u) := by
  match c, hn with
  | .mk name props comps, hn =>
    simp only [NamedTree] at hn
    obtain ⟨hname, hp, hc⟩ := hn
    unfold PComp.fmtWrite at h
    cases hps : fmtPProps props with
    | error e => simp only [hps] at h; cases h
    | ok ps =>
      cases hcs : fmtPComps comps (w.sub 0) with
      | error e => simp only [hps, hcs] at h; cases h
      | ok cs =>
        simp only [hps, hcs] at h
        cases h
        have hnl := name_noLf hname
        have hend : NoIndent (c!"END:" ++ name ++ crlf ++ t) := noIndent_cons (by decide) (by decide)
        have e0 := keyword_line name c!"END:" (by simpa using hnl) ht
        obtain ⟨vs, c0, c1, c2, c3⟩ := shrunk_trees comps hc (worldOk_sub hw 0) hcs hend
        obtain ⟨us, p0, p1, p2⟩ := shrunk_props hp hps c2
        obtain ⟨s0, s1, s2⟩ := stamp_text name props hw p2
        have e1 := keyword_line name c!"BEGIN:" (by simpa using hnl) s2
        refine ⟨_, .mk s0 p0 c0, ?_, noIndent_cons (by decide) (by decide), ?_⟩
        · rw [s1, p1, c1, e0] at e1
          simp only [List.append_assoc] at e1 ⊢
          exact e1
        · intro hna
          rw [NoneAdded] at hna
          rw [noneAdded_stamp hna.1, List.nil_append]
          exact .mk p0 (c3 hna.2)
/-- see `shrunk_tree` -/
theorem shrunk_trees (l : List PComp) (hn : NamedTrees l) {w : World} (hw : World.Ok w) {out : Str}
    (h : fmtPComps l w = .ok out) {t : Str} (ht : NoIndent t) :
    ∃ u, ShrunkTrees l u ∧ unfoldSpec (out ++ t) = u ++ unfoldSpec t ∧ NoIndent (out ++ t) ∧ (NothingAdded l → PlainTrees l u) := by
  match l, hn with
  | [], _ =>
    simp only [fmtPComps] at h
    cases h
    exact ⟨[], .nil, rfl, ht, fun _ => .nil⟩
  | c :: l, hn =>
    simp only [NamedTrees] at hn
    unfold fmtPComps at h
    cases ha : c.fmtWrite (w.sub 0) with
    | error e => rw [ha] at h; cases h
    | ok a =>
      rw [ha] at h
      cases hb : fmtPComps l (w.sub 1) with
      | error e => rw [hb] at h; cases h
      | ok b =>
        rw [hb] at h
        cases h
        obtain ⟨us, h1, h2, h3, h3'⟩ := shrunk_trees l hn.2 (worldOk_sub hw 1) hb ht
        obtain ⟨u, h4, h5, h6, h6'⟩ := shrunk_tree c hn.1 (worldOk_sub hw 0) ha h3
        rw [List.append_assoc]
        refine ⟨u ++ us, .cons h4 h1, by rw [h5, h2, List.append_assoc], h6, ?_⟩
        intro hna
        rw [NothingAdded] at hna
        exact .cons (h6' hna.1) (h3' hna.2)
end

end Ical
