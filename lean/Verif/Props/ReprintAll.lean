import Verif.Proofs.BareRead

/-!
C22: exactly which parsed trees are read back from what is printed for them. Unlike in `Props/ReprintExact.lean`, nothing
is assumed of the tree.
-/

namespace Ical

open Nom Spec

variable [Uni]

/-! ### Told trees are read -/

omit [Uni] in
theorem shrunkBare_refl (l : List PParam) : ShrunkBare l l := by
  induction l with
  | nil => trivial
  | cons q l ih =>
    refine ⟨rfl, ?_, ih⟩
    cases q.val with
    | none => trivial
    | some v => exact shrunk_refl v

theorem bare_are {l : List PParam} {rest : Str} (hn : ∀ x ∈ l, IsName x.key) (ht : BareTold l (':' :: rest)) :
    ParamsAre l (bareParams l) (':' :: rest) := by
  induction l with
  | nil => exact ⟨rfl, fun c hc => by cases hc; decide⟩
  | cons x l ih =>
    obtain ⟨k, v⟩ := x
    obtain ⟨h1, h2⟩ := ht
    have hk : IsName k := hn ⟨k, v⟩ (by simp)
    have hn' : ∀ x ∈ l, IsName x.key := fun y hy => hn y (by simp [hy])
    have hf := bare_first l rest
    refine ⟨bareParam ⟨k, v⟩, bareParams l, ?_, ih hn' h2, bareParams_cons _ _⟩
    have head : ∀ {s : Str}, First (fun c => c = '=' ∨ c = ':' ∨ c = ';') s → First (fun c => c ≠ ' ' ∧ c ≠ '\t') (k ++ s) := by
      intro s hs c hc
      cases k with
      | nil => rcases hs c hc with rfl | rfl | rfl <;> decide
      | cons d k =>
        cases hc
        have := hk c (by simp)
        exact ⟨fun h => nameChar_stops (c := ' ') (by simp) (h ▸ this),
          fun h => nameChar_stops (c := '\t') (by simp) (h ▸ this)⟩
    cases v with
    | none =>
      refine ⟨hk, [], [], by simp, by simp [bareParam], ?_, ?_, .inl ⟨rfl, ?_⟩⟩
      · rw [List.append_assoc]
        exact head (fun c hc => .inr (hf c hc))
      · intro c hc
        rcases hf c hc with rfl | rfl <;> exact nameChar_stops (by simp)
      · intro c hc
        rcases hf c hc with rfl | rfl <;> decide
    | some v =>
      obtain ⟨hv, hc1, hc2, h1⟩ := h1 v rfl
      refine ⟨hk, [], '=' :: v, by simp, by simp [bareParam], ?_, ?_, hv, .inr ⟨rfl, hc1, hc2, hf, ?_⟩⟩
      · rw [List.append_assoc]
        exact head (fun c hc => by cases hc; simp)
      · intro c hc
        cases hc
        exact nameChar_stops (by simp)
      · rintro w hw1 hw2 ⟨r, hr⟩
        cases v with
        | nil => exact hv rfl
        | cons a v =>
          simp only [List.cons_append, List.append_assoc, List.cons.injEq] at hr
          obtain ⟨rfl, hr⟩ := hr
          rcases h1 with h1 | h1 | h3
          · exact h1 ⟨v, rfl⟩
          · obtain ⟨r', hr'⟩ := h1
            simp only [List.cons_append, List.nil_append, List.cons.injEq, true_and] at hr'
            subst hr'
            cases w with
            | nil => exact hw1 rfl
            | cons b w =>
              simp only [List.cons_append, List.cons.injEq] at hr
              exact hw2 (by simp [hr.1])
          · refine h3 ?_
            rw [List.tail_cons, List.append_assoc, ← hr]
            simp

theorem begins_bare {w : Str} (hw : ∀ c ∈ w, c ≠ ':' ∧ c ≠ ';') {p : PProp} (hn : IsName p.name) {f : Str}
    (h : Begins (w ++ [':']) (bareLine p ++ f)) : Begins (w ++ [':']) (bareLine p) := by
  rw [bareLine_eq] at h ⊢
  have e : p.name ++ (bareParams p.params ++ ':' :: p.val) ++ f = p.name ++ (bareParams p.params ++ ':' :: (p.val ++ f)) := by simp
  rw [e] at h
  obtain ⟨h1, r, h2⟩ := begins_line hw (name_stops hn) (bare_head _ _) h
  have : p.params = [] := by
    cases hp : p.params with
    | nil => rfl
    | cons q l => rw [hp, bareParams_cons] at h2; simp [bareParam] at h2
  rw [this]
  refine ⟨p.name ++ [':'], p.val, by simp [bareParams], ?_⟩
  rw [List.map_append, h1]
  rfl

theorem bare_body {ps : List PProp} {comps : List PComp} {b F : Str} (h : BareLinesTold ps (b ++ F)) (hb : BodyIs [] comps b F)
    (hn : NoBreak (b ++ F)) : BodyIs ps comps (bareLines ps ++ b) F ∧ NoBreak (bareLines ps ++ (b ++ F)) := by
  induction ps with
  | nil => exact ⟨hb, hn⟩
  | cons p ps ih =>
    obtain ⟨hl, h⟩ := h
    obtain ⟨i1, i2⟩ := ih h
    have e : bareLine p ++ (['\r', '\n'] ++ (bareLines ps ++ (b ++ F))) =
        p.name ++ (bareParams p.params ++ ':' :: (p.val ++ (['\r', '\n'] ++ (bareLines ps ++ (b ++ F))))) := by
      rw [bareLine_eq]; simp
    have hq : PropIs p (bareLine p ++ ['\r', '\n']) ([] ++ (bareLines ps ++ b ++ F)) := by
      have e2 : bareLine p ++ ['\r', '\n'] ++ ([] ++ (bareLines ps ++ b ++ F)) =
        bareLine p ++ (['\r', '\n'] ++ (bareLines ps ++ (b ++ F))) := by simp
      refine ⟨hl.name, ?_, .inl ⟨[], bareParams p.params, p.val, ['\r', '\n'], by simp, ?_, .inl ⟨rfl, hl.oneLine⟩, ?_, ?_⟩⟩
      · rw [e2, e]
        exact notKeyword_line hl.name hl.notEnd hl.notBegin (bare_head _ _)
      · have := bare_are (rest := p.val ++ ['\r', '\n'] ++ (bareLines ps ++ (b ++ F))) hl.keys hl.params
        simpa using this
      · split
        · rename_i ht
          exact ((unescaped_eq_iff p.val).2 (hl.text ht)).symm
        · rfl
      · rw [bareLine_eq]; simp
    have hnb : NoBreak (bareLines ps ++ b ++ F) := by simpa using i2
    have hne : bareLine p ++ ['\r', '\n'] ≠ [] := by simp
    refine ⟨?_, ?_⟩
    · have : BodyIs (p :: ps) comps ((bareLine p ++ ['\r', '\n']) ++ ([] ++ (bareLines ps ++ b))) F := by
        by_cases hk : Begins c!"begin:" (bareLine p)
        · exact .stuck (by simpa using hl.otherBegin hk) hq hne blank_nil hnb i1
        · refine .prop ?_ ?_ hq hne blank_nil hnb i1
          · rw [List.append_assoc]
            exact fun h => hl.otherEnd (begins_bare (w := c!"end") (by decide) hl.name h)
          · rw [List.append_assoc]
            exact fun h => hk (begins_bare (w := c!"begin") (by decide) hl.name h)
      rw [bareLines_cons]
      simpa using this
    · have := shrunkProps_noBreak (ps := [p]) (us := bareLine p ++ ['\r', '\n']) (y := bareLines ps ++ (b ++ F)) ?_ ?_ i2
      · rw [bareLines_cons]
        simpa using this
      · have := ShrunkProps.cons (p := p) (l := p.params) (r := p.val) (shrunkBare_refl _) (shrunk_refl _) .nil
        rw [bareLine_eq]
        simpa using this
      · intro q hq
        rw [List.mem_singleton.1 hq]
        exact hl.name

mutual
theorem bare_comp_read : ∀ (c : PComp) {f : Str}, TreeTold c f → NoBreak f → CompIs c (bareComp c) f
  | .mk name props comps, f, h, hf => by
    rw [TreeTold] at h
    obtain ⟨h1, h2, h3⟩ := h
    have e : c!"END:" ++ name ++ ['\r', '\n'] ++ f = c!"END:" ++ (name ++ (['\r', '\n'] ++ f)) := by simp
    rw [e] at h2 h3
    obtain ⟨i1, i2⟩ := bare_comps_read comps h3 (end_noBreak _)
    obtain ⟨j1, j2⟩ := bare_body h2 i1 i2
    have := CompIs.mk (body := bareLines props ++ bareComps comps) (b := c!"BEGIN:") (gap := ['\r', '\n']) (e := c!"END:")
      (trail := ['\r', '\n']) (by decide) h1 (cr_first _) blank_crlf (by simpa using j2) j1 (by decide) blank_crlf hf
    rw [bareComp]
    simpa using this
/-- see `bare_comp_read` -/
theorem bare_comps_read : ∀ (l : List PComp) {f : Str}, TreesTold l f → NoBreak f → BodyIs [] l (bareComps l) f ∧ NoBreak (bareComps l ++ f)
  | [], f, _, hf => by
    rw [bareComps]
    exact ⟨.nil, hf⟩
  | c :: l, f, h, hf => by
    rw [TreesTold] at h
    obtain ⟨i1, i2⟩ := bare_comps_read l h.2 hf
    have := bare_comp_read c h.1 i2
    rw [bareComps]
    refine ⟨.comp this i1, ?_⟩
    obtain ⟨n, ps, cs⟩ := c
    rw [bareComp]
    simp only [List.append_assoc]
    exact begin_noBreak _
end

/-! ### Exactness -/

/-- what was printed and is read as it was -/
theorem reprint_told {c : PComp} {u t f : Str} (hu : PlainTree c u) (he : u = t ++ f) (hc : CompIs c t f) :
    f = [] ∧ u = bareComp c ∧ TreeTold c [] := by
  have hs : Spare t (fun d => compCount d c) := by
    intro d hd
    obtain ⟨h1, h2⟩ := lower_inky hd
    have := plainTree_count h1 h2 hu
    rw [he, List.count_append] at this
    dsimp only
    omega
  obtain ⟨-, h2, h3, h4⟩ := bare_comp hu hc hs (y := []) ⟨by simp, by simp⟩ (by rw [← he, List.append_nil])
  exact ⟨h2, h3, h4⟩

/-- what is printed, unfolded -/
theorem reprint_shrunk {c : PComp} (hn : NamedTree c) {w : World} (hw : World.Ok w) {out : Str} (h : c.fmtWrite w = .ok out) :
    ShrunkTree c (unfoldSpec out) ∧ (NoneAdded c → PlainTree c (unfoldSpec out)) := by
  obtain ⟨u, hu, e, -, hp⟩ := shrunk_tree c hn hw h (t := []) ⟨by simp, by simp⟩
  rw [List.append_nil, show unfoldSpec [] = [] from rfl, List.append_nil] at e
  rw [e]
  exact ⟨hu, hp⟩

omit [Uni] in
theorem shrunk_lead {c : PComp} {u lead t : Str} (hu : ShrunkTree c u) (hl : Blank lead) (he : u = lead ++ t) : lead = [] := by
  cases hu with
  | mk _ _ _ => exact begins_lead hl he

omit [Uni] in
theorem foreign_M : Foreign 'M' := ⟨inky_M, by decide, by decide⟩
omit [Uni] in
theorem foreign_U : Foreign 'U' := ⟨inky_U, by decide, by decide⟩

/-- **C22**: a parsed calendar is read back from what is printed for it if and only if nothing was added to it and lost
of it in printing and unfolding, and its lines can be told from each other. -/
theorem reprint_exactly {c : PCal} {w : World} (hw : World.Ok w) {out : Str} (h : c.fmtWrite w = .ok out) :
    readCalendar (unfold out) = some c ↔
      unfoldSpec out = bareComp (.mk c!"VCALENDAR" c.props c.comps) ∧ TreeTold (.mk c!"VCALENDAR" c.props c.comps) [] := by
  rw [unfold_eq_spec]
  unfold PCal.fmtWrite at h
  constructor
  · intro hr
    rcases calendar_read_iff.1 hr with ⟨lead, t, he, hl, hc⟩ | ⟨lead, t, d, he, hl, hc, hd, h1, h2⟩ | ⟨h1, h2, -⟩
    · have hu := (reprint_shrunk (compIs_named hc) hw h).1
      have := shrunk_lead hu hl he
      subst this
      rw [List.nil_append] at he
      have hp := shrunkTree_plain hu (by rw [he]; exact (compIs_inky inky_M hc).2 foreign_M)
        (by rw [he]; exact (compIs_inky inky_U hc).2 foreign_U)
      exact (reprint_told hp (by rw [he, List.append_nil]) hc).2
    · exfalso
      have hn : NamedTree (.mk c!"VCALENDAR" c.props c.comps) := by
        rw [h1, h2]
        simp only [NamedTree, NamedTrees]
        exact ⟨rfcName_isName (by decide), by simp, compIs_named hc, trivial⟩
      have hu := (reprint_shrunk hn hw h).1
      have := shrunk_lead hu hl he
      subst this
      rw [List.nil_append] at he
      rw [he] at hu
      generalize hD : PComp.mk c!"VCALENDAR" c.props c.comps = D at hu
      generalize ht : t = t' at hu
      cases hu with
      | @mk _ _ _ st us vs _ _ _ =>
        simp only [PComp.mk.injEq] at hD
        obtain ⟨rfl, -, -⟩ := hD
        subst ht
        generalize ht : c!"BEGIN:" ++ (c!"VCALENDAR" ++ (['\r', '\n'] ++ (st ++ (us ++ (vs ++ (c!"END:" ++ (c!"VCALENDAR" ++ ['\r', '\n']))))))) = t at hc
        cases hc with
        | @mk n props comps b' gap body e trail f hb hn hf hgap hnb hbody hend htrail hnf =>
          obtain ⟨rfl, he2⟩ := List.append_inj ht (by
            have := congrArg List.length hb
            rw [List.length_map] at this
            exact this.symm)
          refine hd ?_
          refine (span_unique (P := NameChar) he2 (rfcName_isName (by decide)) hn (cr_first _) ?_).symm
          simpa [First] using hf
    · rw [h1, h2] at h ⊢
      refine ⟨?_, ?_⟩
      · simp only [PComp.fmtWrite, fmtPProps, fmtPComps] at h
        cases h
        rfl
      · simp only [TreeTold, TreesTold, BareLinesTold]
        exact ⟨rfcName_isName (by decide), trivial, trivial⟩
  · rintro ⟨h1, h2⟩
    rw [h1]
    exact calendar_read_iff.2 (.inl ⟨[], _, rfl, blank_nil, bare_comp_read _ h2 ⟨by simp, by simp⟩⟩)

/-- **C22**: the same for a component to which nothing is added. -/
theorem reprint_component_exactly {c : PComp} (hc : NoneAdded c) {w : World} (hw : World.Ok w) {out : Str}
    (h : c.fmtWrite w = .ok out) :
    readComponent (unfold out) = some c ↔ unfoldSpec out = bareComp c ∧ TreeTold c [] := by
  rw [unfold_eq_spec]
  constructor
  · intro hr
    obtain ⟨lead, t, f, he, hl, hr⟩ := component_read_iff.1 hr
    obtain ⟨hu, hp⟩ := reprint_shrunk (compIs_named hr) hw h
    have := shrunk_lead hu hl he
    subst this
    exact (reprint_told (t := t) (hp hc) (by simpa using he) hr).2
  · rintro ⟨h1, h2⟩
    rw [h1]
    exact component_read_iff.2 ⟨[], _, [], by simp, blank_nil, bare_comp_read _ h2 ⟨by simp, by simp⟩⟩

end Ical

namespace Ical

open Nom Spec

/-- a tree with a value that starts with a quote and a component -/
def quoteTree : PCal := ⟨[⟨c!"X-A", c!"v", [⟨c!"P", some c!"\"a"⟩, ⟨c!"Q", none⟩]⟩], [.mk c!"VEVENT" [⟨c!"SUMMARY", c!"b", []⟩] []]⟩

/-- It survives: no second quote follows. So the conditions of the theorem are met by it. -/
example : @TreeTold Uni.ascii (.mk c!"VCALENDAR" quoteTree.props quoteTree.comps) [] := by
  let w : World := ⟨fun _ => ⟨⟨⟨2026, 1, 1⟩, 0, 0, 0, 0⟩⟩, fun _ => c!"0-f", fun _ l => l⟩
  have hw : World.Ok w := ⟨fun _ _ => .refl _, fun _ => (by decide : ∀ c ∈ c!"0-f", c ∈ c!"0123456789abcdef-"),
    fun _ => (by decide : (⟨⟨2026, 1, 1⟩, 0, 0, 0, 0⟩ : NaiveDateTime).Valid)⟩
  have h : quoteTree.fmtWrite w = .ok
      c!"BEGIN:VCALENDAR\r\nX-A;P=\"a;Q:v\r\nBEGIN:VEVENT\r\nSUMMARY:b\r\nEND:VEVENT\r\nEND:VCALENDAR\r\n" := by decide +kernel
  exact ((@reprint_exactly Uni.ascii _ w hw _ h).1 rfl).2

/-- With a second quote in the next line it does not survive, whenever and wherever it is printed. -/
example [Uni] (w : World) (hw : World.Ok w) (out : Str)
    (h : (PCal.mk quoteTree.props [.mk c!"VEVENT" [⟨c!"SUMMARY", c!"b\"", []⟩] []]).fmtWrite w = .ok out) :
    readCalendar (unfold out) ≠ some ⟨quoteTree.props, [.mk c!"VEVENT" [⟨c!"SUMMARY", c!"b\"", []⟩] []]⟩ := by
  intro hr
  have := ((reprint_exactly hw h).1 hr).2
  rw [TreeTold] at this
  have := (this.2.1.1.params.1 _ rfl).2.2.2
  revert this
  decide +kernel

end Ical
