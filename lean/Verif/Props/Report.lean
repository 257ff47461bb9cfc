import Verif.Spec.Report
import Verif.Props.Errors
import Verif.Props.Acceptance

/-!
Exactly what an error message says (C120, C91).
-/

namespace Ical

open Nom Spec

variable [Uni]

/-! ### every text that fails is reported on -/

theorem reports_broken {j : Str} {l : List Entry} (h : Reports j l) : Broken j := by
  induction h with
  | close h1 h2 h3 h4 h5 h6 h7 h8 => exact .close h1 h2 h3 h4 h5 h6 h7 h8
  | word h1 h2 h3 h4 h5 h6 h7 h8 h9 h10 => exact .word h1 h2 h3 h4 h5 h6 ⟨_, _, h7, rfl, h8⟩ h9 h10
  | inner h1 h2 h3 h4 h5 h6 _ ih => exact .inner h1 h2 h3 h4 h5 h6 ih

theorem broken_reports {j : Str} (h : Broken j) : ∃ l, Reports j l := by
  induction h with
  | close h1 h2 h3 h4 h5 h6 h7 h8 => exact ⟨_, .close h1 h2 h3 h4 h5 h6 h7 h8⟩
  | word h1 h2 h3 h4 h5 h6 h7 h9 h10 =>
    obtain ⟨white, s, h7, rfl, h8⟩ := h7
    exact ⟨_, .word h1 h2 h3 h4 h5 h6 h7 h8 h9 h10⟩
  | inner h1 h2 h3 h4 h5 h6 _ ih =>
    obtain ⟨l, hl⟩ := ih
    exact ⟨_, .inner h1 h2 h3 h4 h5 h6 hl⟩

/-! ### what is said -/

/-- elements of a body do not matter for what is said -/
theorem body_err {props : List PProp} {comps : List PComp} {body f : Str} (h : BodyIs props comps body f)
    (hb : NoBreak (body ++ f)) (n : Str) :
    NoBreak f ∧ (EP.manyTill (EP.componentChild EP.component) (EP.componentEnd n)).err (body ++ f) =
      (EP.manyTill (EP.componentChild EP.component) (EP.componentEnd n)).err f := by
  induction hm : body.length using Nat.strongRecOn generalizing props comps body with
  | _ m ihm =>
    have step : ∀ {t trail rest : Str} {p : PProp} {ps : List PProp}, body = t ++ (trail ++ rest) → props = p :: ps →
        component (t ++ (trail ++ (rest ++ f))) = .error → ¬ Begins c!"end:" (t ++ (trail ++ (rest ++ f))) →
        PropIs p t (trail ++ (rest ++ f)) → t ≠ [] → Blank trail → NoBreak (rest ++ f) → BodyIs ps comps rest f →
        NoBreak f ∧ (EP.manyTill (EP.componentChild EP.component) (EP.componentEnd n)).err (body ++ f) =
          (EP.manyTill (EP.componentChild EP.component) (EP.componentEnd n)).err f := by
      rintro t trail rest p ps rfl rfl hc he hp hne htr hnb hrest
      have hlt : 0 < t.length := List.length_pos_iff.2 hne
      simp only [List.append_assoc] at hb
      simp only [List.length_append] at hm
      obtain ⟨h3, h4⟩ := ihm rest.length (by omega) hrest hnb rfl
      refine ⟨h3, ?_⟩
      simp only [List.append_assoc]
      rw [EP.manyTill_err_eq EP.shrinks_child]
      have e1 : (EP.componentEnd n).run (t ++ (trail ++ (rest ++ f))) = .error := componentEnd_other hb he
      have e2 : (EP.componentChild EP.component).run (t ++ (trail ++ (rest ++ f))) = .ok (rest ++ f) (.prop p) := by
        rw [EP.run_componentChild]
        exact child_prop hb hc hp htr hnb
      simp only [e1, e2]
      rw [if_neg (by simp only [List.length_append]; omega), h4]
    cases h with
    | nil => exact ⟨hb, rfl⟩
    | prop he hg hp hne htr hnb hrest =>
      exact step rfl rfl (component_other (by simpa using hb) hg) he hp hne htr hnb hrest
    | stuck hs hp hne htr hnb hrest =>
      exact step rfl rfl ((as_specified _).stuck hs) (begins_begin_head (stuck_begins hs)).2.1 hp hne htr hnb hrest
    | @comp c _ comps t rest _ hc hrest =>
      obtain ⟨h1, h2, h3⟩ := compIs_begins hc
      have hlt : 0 < t.length := List.length_pos_iff.2 h2
      have hr := (as_specified (t ++ (rest ++ f))).comp c t (rest ++ f) rfl hc
      simp only [List.append_assoc] at hb
      simp only [List.length_append] at hm
      obtain ⟨h6, h7⟩ := ihm rest.length (by omega) hrest h3 rfl
      refine ⟨h6, ?_⟩
      simp only [List.append_assoc]
      rw [EP.manyTill_err_eq EP.shrinks_child]
      have e1 : (EP.componentEnd n).run (t ++ (rest ++ f)) = .error :=
        componentEnd_other hb (begins_begin_head h1).2.1
      have e2 : (EP.componentChild EP.component).run (t ++ (rest ++ f)) = .ok (rest ++ f) (.comp c) := by
        rw [EP.run_componentChild]
        show componentChild component _ = _
        unfold componentChild cut alt map
        rw [lineSeparated_ok (noBreak_iff.1 hb) hr (many0_lineEnding_none (noBreak_iff.1 h3))]
      simp only [e1, e2]
      rw [if_neg (by simp only [List.length_append]; omega), h7]

/-- what is said about a component, given what is said after some of its elements -/
theorem component_err_run {b n gap body f : Str} {props : List PProp} {comps : List PComp}
    (h1 : b.map lowerAscii = c!"begin:") (h2 : IsName n) (h3 : First (fun c => ¬ NameChar c) (gap ++ (body ++ f)))
    (h4 : Blank gap) (h5 : NoBreak (body ++ f)) (h6 : BodyIs props comps body f)
    (hbad : ∀ r x, manyTill (componentChild component) (componentEnd n) f ≠ .ok r x) :
    EP.component.err (b ++ (n ++ (gap ++ (body ++ f)))) =
      (EP.manyTill (EP.componentChild EP.component) (EP.componentEnd n)).err f := by
  rw [EP.component_err_eq]
  have e : ∀ i, (EP.componentBody EP.component).err i = match line c!"BEGIN:" validKeySequence i with
    | .ok i name =>
      match manyTill (componentChild component) (componentEnd name) i with
      | .ok i _ => (EP.many0 (EP.tag ['\n'])).err i
      | _ => (EP.manyTill (EP.componentChild EP.component) (EP.componentEnd name)).err i
    | _ => (EP.line c!"BEGIN:" EP.validKeySequence).err i := fun i => by
      have : componentChild component = (EP.componentChild EP.component).run :=
        (EP.run_componentChild EP.component).symm
      rw [this]
      rfl
  rw [e, begin_reads h1 h2 h3 h4 h5]
  simp only
  obtain ⟨l, _, _, _, h8⟩ := body_reads (N := (body ++ f).length + 1) (fun j _ => as_specified j) h6 h5 (by omega)
  rw [h8 n, (body_err h6 h5 n).2]
  cases hm : manyTill (componentChild component) (componentEnd n) f with
  | ok r x => exact (hbad r x hm).elim
  | error => rfl
  | failure => rfl

omit [Uni] in
/-- a keyword after white space: there is only one way to split the text -/
theorem keyword_place {white white' s s' : Str} (h1 : ∀ c ∈ white, Space c) (h2 : ∀ c ∈ white', Space c)
    (h3 : c!"END" <+: s ∨ c!"BEGIN" <+: s) (h4 : c!"END" <+: s' ∨ c!"BEGIN" <+: s')
    (h : white ++ s = white' ++ s') : white = white' ∧ s = s' := by
  have hd : ∀ {s : Str}, (c!"END" <+: s ∨ c!"BEGIN" <+: s) → ∃ c r, s = c :: r ∧ ¬ Space c := by
    rintro s (⟨r, rfl⟩ | ⟨r, rfl⟩)
    · exact ⟨_, _, rfl, by unfold Space; decide⟩
    · exact ⟨_, _, rfl, by unfold Space; decide⟩
  obtain ⟨c, r, rfl, hc⟩ := hd h3
  obtain ⟨c', r', rfl, hc'⟩ := hd h4
  induction white generalizing white' with
  | nil =>
    cases white' with
    | nil => exact ⟨rfl, h⟩
    | cons d w =>
      simp only [List.nil_append, List.cons_append, List.cons.injEq] at h
      exact absurd (h2 d (by simp)) (h.1 ▸ hc)
  | cons d w ih =>
    cases white' with
    | nil =>
      simp only [List.nil_append, List.cons_append, List.cons.injEq] at h
      exact absurd (h1 d (by simp)) (h.1.symm ▸ hc')
    | cons d' w' =>
      simp only [List.cons_append, List.cons.injEq] at h
      obtain ⟨e1, e2⟩ := ih (fun c hc => h1 c (by simp [hc])) (fun c hc => h2 c (by simp [hc])) h.2
      exact ⟨by rw [h.1, e1], e2⟩

/-- an element that fails -/
theorem child_err {f : Str} (hn : NoBreak f) {n : Str} (he : ¬ Begins c!"end:" f)
    (hc : componentChild component f = .failure) :
    manyTill (componentChild component) (componentEnd n) f = .failure ∧
    (EP.manyTill (EP.componentChild EP.component) (EP.componentEnd n)).err f =
      (EP.componentChild EP.component).err f := by
  refine ⟨by rw [manyTill_eq (shrinks_componentChild shrinks_component), componentEnd_other hn he, hc], ?_⟩
  rw [EP.manyTill_err_eq EP.shrinks_child]
  have e1 : (EP.componentEnd n).run f = .error := componentEnd_other hn he
  have e2 : (EP.componentChild EP.component).run f = .failure := by
    rw [EP.run_componentChild]
    exact hc
  simp only [e1, e2]

/-- **what is said about a component in which reading fails** -/
theorem reports_err {j : Str} {l : List Entry} (h : Reports j l) : EP.component.err j = l := by
  induction h with
  | @close n props comps b gap body e f h1 h2 h3 h4 h5 h6 h7 h8 =>
    obtain ⟨m1, m2, m3⟩ := mismatch_fails h7 h8
    rw [component_err_run h1 h2 h3 h4 h5 h6, m3]
    intro r x h
    rw [manyTill_eq (shrinks_componentChild shrinks_component), m1] at h
    cases h
  | @word n props comps b gap body white s h1 h2 h3 h4 h5 h6 h7 h8 h9 h10 =>
    have hn := (body_err h6 h5 n).1
    have hle := noBreak_iff.1 hn
    have hk : property (white ++ s) = .failure := keyword_fails ⟨_, _, h7, rfl, h8⟩
    have hc : component (white ++ s) = .error := by
      by_cases hg : Begins c!"begin:" (white ++ s)
      · exact (as_specified _).stuck (h10 hg)
      · exact component_other hn hg
    have hch : componentChild component (white ++ s) = .failure := by
      unfold componentChild cut alt map
      rw [lineSeparated_error hle hc, lineSeparated_failure hle hk]
    obtain ⟨c1, c2⟩ := child_err (n := n) hn h9 hch
    rw [component_err_run h1 h2 h3 h4 h5 h6 (fun r x h => by rw [c1] at h; cases h), c2]
    have e0 : (EP.componentChild EP.component).err (white ++ s) =
      (EP.alt (EP.map Child.comp (EP.lineSeparated EP.component))
        (EP.map Child.prop (EP.lineSeparated EP.property))).err (white ++ s) ++
          [(white ++ s, .context c!"component")] := rfl
    have e1 : (EP.map Child.comp (EP.lineSeparated EP.component)).run (white ++ s) = .error := by
      show map Child.comp (lineSeparated component) (white ++ s) = _
      unfold map
      rw [lineSeparated_error hle hc]
    have e2 : (EP.map Child.prop (EP.lineSeparated EP.property)).run (white ++ s) = .failure := by
      show map Child.prop (lineSeparated property) (white ++ s) = _
      unfold map
      rw [lineSeparated_failure hle hk]
    have e3 : (EP.map Child.prop (EP.lineSeparated EP.property)).err (white ++ s) = EP.property.err (white ++ s) :=
      EP.lineSeparated_err_here (p := EP.property) hle hk
    obtain ⟨space, s', g1, g2, g3, g4⟩ := EP.property_fails (i := white ++ s) hk
    obtain ⟨rfl, rfl⟩ := keyword_place h7 (fun c hc => by
      have := g2 c hc
      unfold Space
      simpa using this) h8 g3 g1
    rw [e0, EP.alt_err_error_failure e1 e2, e3, g4]
    rfl
  | @inner n props comps b gap body f l h1 h2 h3 h4 h5 h6 h7 ih =>
    have hn := (body_err h6 h5 n).1
    have hle := noBreak_iff.1 hn
    have hbr := reports_broken h7
    have hc : component f = .failure := (as_specified f).broken hbr
    have hch : componentChild component f = .failure := by
      unfold componentChild cut alt map
      rw [lineSeparated_failure hle hc]
    obtain ⟨c1, c2⟩ := child_err (n := n) hn (begins_begin_head (broken_begins hbr)).2.1 hch
    rw [component_err_run h1 h2 h3 h4 h5 h6 (fun r x h => by rw [c1] at h; cases h), c2]
    have e0 : (EP.componentChild EP.component).err f =
      (EP.alt (EP.map Child.comp (EP.lineSeparated EP.component))
        (EP.map Child.prop (EP.lineSeparated EP.property))).err f ++ [(f, .context c!"component")] := rfl
    have e1 : (EP.map Child.comp (EP.lineSeparated EP.component)).run f = .failure := by
      show map Child.comp (lineSeparated component) f = _
      unfold map
      rw [lineSeparated_failure hle hc]
    have e2 : (EP.map Child.comp (EP.lineSeparated EP.component)).err f = EP.component.err f :=
      EP.lineSeparated_err_here (p := EP.component) hle hc
    rw [e0, EP.alt_err_failure e1, e2, ih]

/-- what is said about a component that is not closed -/
theorem reportsOpen_err {j : Str} {l : List Entry} (h : ReportsOpen j l) :
    Stuck j ∧ EP.component.err j = l := by
  cases h with
  | @mk n props comps b gap body f h1 h2 h3 h4 h5 h6 h7 =>
    refine ⟨.mk h1 h2 h3 h4 h5 h6 h7, ?_⟩
    have hn := (body_err h6 h5 n).1
    obtain ⟨h8, h9⟩ := nameless (propIs_nil h7).2
    have hch : componentChild component f = .ok f (.prop ⟨[], [], []⟩) :=
      child_prop (t := []) (trail := []) hn (component_other hn h8) h7 blank_nil hn
    rw [component_err_run h1 h2 h3 h4 h5 h6]
    · rw [EP.manyTill_err_eq EP.shrinks_child]
      have e1 : (EP.componentEnd n).run f = .error := componentEnd_other hn h9
      have e2 : (EP.componentChild EP.component).run f = .ok f (.prop ⟨[], [], []⟩) := by
        rw [EP.run_componentChild]
        exact hch
      simp only [e1, e2, if_true]
    · intro r x h
      rw [manyTill_eq (shrinks_componentChild shrinks_component), componentEnd_other hn h9, hch] at h
      simp at h

theorem stuck_reports {j : Str} (h : Stuck j) : ∃ l, ReportsOpen j l := by
  cases h with
  | mk h1 h2 h3 h4 h5 h6 h7 => exact ⟨_, .mk h1 h2 h3 h4 h5 h6 h7⟩

/-- what is said about a text without BEGIN -/
theorem noBegin_err {j : Str} (hn : NoBreak j) (hb : ¬ Begins c!"begin:" j) :
    EP.component.err j = [(j, .nom c!"Tag")] := by
  have ht : tagNoCase c!"BEGIN:" j = .error := by
    unfold tagNoCase
    rw [← begins_begin] at hb
    rw [if_neg hb]
  have hp : preceded (tagNoCase c!"BEGIN:") validKeySequence j = .error := by
    unfold preceded map pair
    simp only [ht]
  have h1 := many0_lineEnding_none (noBreak_iff.1 hn)
  have hline : line c!"BEGIN:" validKeySequence j = .error := by
    unfold line lineSeparated delimited map pair complete
    simp only [h1, hp]
  rw [EP.component_err_eq, EP.componentBody]
  simp only [hline]
  have e1 : (EP.line c!"BEGIN:" EP.validKeySequence).err j =
      (EP.pair (EP.complete (EP.preceded (EP.tagNoCase c!"BEGIN:") EP.validKeySequence))
        (EP.many0 EP.lineEnding)).err j := EP.pair_err_ok (q := EP.pair _ _) h1
  rw [e1, EP.pair_err_error hp]
  exact EP.pair_err_error (p := EP.tagNoCase c!"BEGIN:") ht

/-- line breaks before a component do not matter for what is said -/
theorem component_err_lead {lead j : Str} (h1 : Blank lead) (h2 : NoBreak j) :
    EP.component.err (lead ++ j) = EP.component.err j := by
  rw [noBreak_iff] at h2
  obtain ⟨l, hl⟩ := many0_blank h1 h2
  have hr : line c!"BEGIN:" validKeySequence (lead ++ j) = line c!"BEGIN:" validKeySequence j := by
    unfold line lineSeparated delimited map pair
    rw [hl, many0_lineEnding_none h2]
    simp only
    cases complete (preceded (tagNoCase c!"BEGIN:") validKeySequence) j with
    | error => rfl
    | failure => rfl
    | ok r a =>
      simp only
      cases many0 lineEnding r <;> rfl
  have he : (EP.line c!"BEGIN:" EP.validKeySequence).err (lead ++ j) =
      (EP.line c!"BEGIN:" EP.validKeySequence).err j := by
    have e1 : (EP.line c!"BEGIN:" EP.validKeySequence).err (lead ++ j) =
      (EP.pair (EP.complete (EP.preceded (EP.tagNoCase c!"BEGIN:") EP.validKeySequence))
        (EP.many0 EP.lineEnding)).err j := EP.pair_err_ok (q := EP.pair _ _) hl
    have e2 : (EP.line c!"BEGIN:" EP.validKeySequence).err j =
      (EP.pair (EP.complete (EP.preceded (EP.tagNoCase c!"BEGIN:") EP.validKeySequence))
        (EP.many0 EP.lineEnding)).err j := EP.pair_err_ok (q := EP.pair _ _) (many0_lineEnding_none h2)
    rw [e1, e2]
  rw [EP.component_err_eq, EP.component_err_eq j, EP.componentBody]
  simp only [hr, he]

/-- what is said about a text is about places in it -/
theorem reports_places {j : Str} {l : List Entry} (h : Reports j l) : ∀ e ∈ l, e.1 <:+ j := by
  have hb : Blame j l := reports_err h ▸ EP.component_blame ((as_specified j).broken (reports_broken h))
  exact (blamed_places hb).1

/-- **C120.** At most one thing is said about a text. -/
theorem reports_unique {j : Str} {l l' : List Entry} (h : Reports j l) (h' : Reports j l') : l = l' := by
  rw [← reports_err h, ← reports_err h']

/-- **C120.** A calendar text is rejected with a message if and only if that message is the one about the places where
reading fails. -/
theorem calendar_report_iff {i m : Str} : readCalendarError i = some m ↔
    ∃ lead j l text, i = lead ++ j ∧ Blank lead ∧ Reports j l ∧ Message i 0 l text ∧ m = c!"error: " ++ text := by
  have fwd : ∀ {lead j l}, Blank lead → Reports j l → ∃ text,
      readCalendarError (lead ++ j) = some (c!"error: " ++ text) ∧ Message (lead ++ j) 0 l text := by
    intro lead j l h1 h2
    have hb := reports_broken h2
    have hg := begins_begin_head (broken_begins hb)
    refine calendar_message_of (fails_reads ⟨lead, j, rfl, h1, hb⟩) ?_ ?_ ?_
    · rw [component_err_lead h1 hg.2.2, reports_err h2]
    · obtain ⟨c, s, rfl, _⟩ := hg.1
      simp
    · intro e he
      exact (reports_places h2 e he).trans (List.suffix_append _ _)
  constructor
  · intro h
    have hf : component i = .failure := by
      unfold readCalendarError at h
      rw [components_payload] at h
      cases hc : component i with
      | failure => rfl
      | ok r a => simp [hc] at h
      | error => simp [hc] at h
    obtain ⟨lead, j, rfl, h1, h2⟩ := component_failure_iff.1 hf
    obtain ⟨l, hl⟩ := broken_reports h2
    obtain ⟨text, e1, e2⟩ := fwd h1 hl
    rw [e1] at h
    exact ⟨lead, j, l, text, rfl, h1, hl, e2, (Option.some.inj h).symm⟩
  · rintro ⟨lead, j, l, text, rfl, h1, h2, h3, rfl⟩
    obtain ⟨text', e1, e2⟩ := fwd h1 h2
    rw [e1, message_unique h3 e2]

/-- **C120.** A component text that is not empty is rejected with a message if and only if that message is the one
specified. -/
theorem component_report_iff {i m : Str} (hne : i ≠ []) : readComponentError i = some m ↔
    ∃ lead j l text, i = lead ++ j ∧ Blank lead ∧ NoBreak j ∧ ReportsComponent j l ∧ Message i 0 l text ∧
      m = c!"error: " ++ text := by
  have run : EP.component.run i = component i := rfl
  have key : ∀ {lead j l}, i = lead ++ j → Blank lead → NoBreak j → ReportsComponent j l →
      readComponentError i = some (c!"error: " ++ convertError i l) ∧ Message i 0 l (convertError i l) := by
    rintro lead j l rfl h1 h2 h3
    have hl : (component (lead ++ j) = .error ∨ component (lead ++ j) = .failure) ∧ EP.component.err j = l ∧
        ∀ e ∈ l, e.1 <:+ j := by
      rw [component_lead h1 h2]
      rcases h3 with ⟨h3, rfl⟩ | h3 | h3
      · refine ⟨.inl (component_other h2 h3), noBegin_err h2 h3, ?_⟩
        intro e he
        simp only [List.mem_cons, List.not_mem_nil, or_false] at he
        subst he
        exact List.suffix_refl _
      · obtain ⟨h4, h5⟩ := reportsOpen_err h3
        refine ⟨.inl ((as_specified j).stuck h4), h5, ?_⟩
        cases h3 with
        | @mk n _ _ b gap body f =>
          intro e he
          simp only [List.mem_cons, List.not_mem_nil, or_false] at he
          subst he
          exact ⟨b ++ (n ++ (gap ++ body)), by simp⟩
      · exact ⟨.inr ((as_specified j).broken (reports_broken h3)), reports_err h3, reports_places h3⟩
    obtain ⟨h4, h5, h6⟩ := hl
    refine ⟨?_, convertErrorFrom_message hne l (fun e he => (h6 e he).trans (List.suffix_append _ _)) 0⟩
    unfold readComponentError EP.payload
    rw [run, component_err_lead h1 h2, h5]
    rcases h4 with h4 | h4 <;> rw [h4] <;> rfl
  constructor
  · intro h
    have hr : component i = .error ∨ component i = .failure := by
      unfold readComponentError EP.payload at h
      rw [run] at h
      cases hc : component i with
      | failure => exact .inr rfl
      | error => exact .inl rfl
      | ok r a => simp [hc] at h
    have : ∃ lead j l, i = lead ++ j ∧ Blank lead ∧ NoBreak j ∧ ReportsComponent j l := by
      rcases hr with hr | hr
      · obtain ⟨lead, j, h1, h2, h3, h4⟩ := component_error_iff.1 hr
        by_cases hb : Begins c!"begin:" j
        · obtain ⟨l, hl⟩ := stuck_reports (h4 hb)
          exact ⟨lead, j, l, h1, h2, h3, .inr (.inl hl)⟩
        · exact ⟨lead, j, _, h1, h2, h3, .inl ⟨hb, rfl⟩⟩
      · obtain ⟨lead, j, h1, h2, h3⟩ := component_failure_iff.1 hr
        obtain ⟨l, hl⟩ := broken_reports h3
        exact ⟨lead, j, l, h1, h2, (begins_begin_head (broken_begins h3)).2.2, .inr (.inr hl)⟩
    obtain ⟨lead, j, l, h1, h2, h3, h4⟩ := this
    obtain ⟨k1, k2⟩ := key h1 h2 h3 h4
    rw [k1] at h
    exact ⟨lead, j, l, _, h1, h2, h3, h4, k2, (Option.some.inj h).symm⟩
  · rintro ⟨lead, j, l, text, h1, h2, h3, h4, h5, rfl⟩
    obtain ⟨k1, k2⟩ := key h1 h2 h3 h4
    rw [k1, message_unique h5 k2]

/-! ### folded texts -/

omit [Uni] in
theorem markers_cons {c : Char} {s : Str} (h : ∀ m : Marker, ¬ m.text <+: c :: s) :
    markers (c :: s) = markers s ∧ unfoldSpec (c :: s) = c :: unfoldSpec s := by
  have h1 := h .crlfSp
  have h2 := h .crlfTab
  have h3 := h .lfSp
  have h4 := h .lfTab
  refine ⟨?_, ?_⟩
  · rw [markers]
    · rintro _ rfl rfl; exact h1 ⟨_, rfl⟩
    · rintro _ rfl rfl; exact h2 ⟨_, rfl⟩
    · rintro _ rfl rfl; exact h3 ⟨_, rfl⟩
    · rintro _ rfl rfl; exact h4 ⟨_, rfl⟩
  · rw [unfoldSpec]
    · rintro _ rfl rfl; exact h1 ⟨_, rfl⟩
    · rintro _ rfl rfl; exact h2 ⟨_, rfl⟩
    · rintro _ rfl rfl; exact h3 ⟨_, rfl⟩
    · rintro _ rfl rfl; exact h4 ⟨_, rfl⟩

omit [Uni] in
theorem markers_marker (m : Marker) (s : Str) :
    markers (m.text ++ s) = markers s + 1 ∧ unfoldSpec (m.text ++ s) = unfoldSpec s ∧
      ((m.text ++ s).filter (· = '\n')).length = (s.filter (· = '\n')).length + 1 := by
  cases m <;> simp [Marker.text, markers, unfoldSpec]

omit [Uni] in
theorem marked_cases (s : Str) : s = [] ∨ (∃ m : Marker, ∃ r, s = m.text ++ r) ∨
    ∃ c r, s = c :: r ∧ ∀ m : Marker, ¬ m.text <+: c :: r := by
  by_cases h : ∃ m : Marker, m.text <+: s
  · obtain ⟨m, r, rfl⟩ := h
    exact .inr (.inl ⟨m, r, rfl⟩)
  · cases s with
    | nil => exact .inl rfl
    | cons c r => exact .inr (.inr ⟨c, r, rfl, fun m hm => h ⟨m, hm⟩⟩)

omit [Uni] in
/-- line breaks that are taken out and those that stay -/
theorem markers_lines (s : Str) :
    (s.filter (· = '\n')).length = ((unfoldSpec s).filter (· = '\n')).length + markers s := by
  induction hn : s.length using Nat.strongRecOn generalizing s with
  | _ n ih =>
    rcases marked_cases s with rfl | ⟨m, r, rfl⟩ | ⟨c, r, rfl, h⟩
    · simp [unfoldSpec, markers]
    · obtain ⟨h1, h2, h3⟩ := markers_marker m r
      have := ih r.length (by rw [← hn]; cases m <;> simp [Marker.text] <;> omega) r rfl
      rw [h1, h2, h3, this]; omega
    · obtain ⟨h1, h2⟩ := markers_cons h
      have := ih r.length (by rw [← hn]; simp) r rfl
      rw [h1, h2, List.filter_cons, List.filter_cons]
      split <;> (try simp only [List.length_cons]) <;> omega

omit [Uni] in
/-- a place in the text without markers is a place in the text with them -/
theorem unfold_split {s pre rest : Str} (h : unfoldSpec s = pre ++ rest) :
    ∃ a b, s = a ++ b ∧ unfoldSpec a = pre ∧ unfoldSpec b = rest ∧ b.head? = rest.head? := by
  induction hn : s.length using Nat.strongRecOn generalizing s pre with
  | _ n ih =>
    rcases marked_cases s with rfl | ⟨m, r, rfl⟩ | ⟨c, r, rfl, hm⟩
    · obtain ⟨rfl, rfl⟩ := List.append_eq_nil_iff.1 h.symm
      exact ⟨[], [], rfl, rfl, rfl, rfl⟩
    · rw [(markers_marker m r).2.1] at h
      obtain ⟨a, b, rfl, h1, h2, h3⟩ := ih r.length (by rw [← hn]; cases m <;> simp [Marker.text] <;> omega) h rfl
      exact ⟨m.text ++ a, b, by simp, by rw [(markers_marker m a).2.1, h1], h2, h3⟩
    · rw [(markers_cons hm).2] at h
      cases pre with
      | nil =>
        rw [List.nil_append] at h
        exact ⟨[], c :: r, rfl, rfl, by rw [(markers_cons hm).2, h], by rw [← h]; rfl⟩
      | cons d pre =>
        simp only [List.cons_append, List.cons.injEq] at h
        obtain ⟨rfl, h⟩ := h
        obtain ⟨a, b, rfl, h1, h2, h3⟩ := ih r.length (by rw [← hn]; simp) h rfl
        refine ⟨c :: a, b, rfl, ?_, h2, h3⟩
        rw [(markers_cons (fun m hp => hm m (hp.trans (by simp)))).2, h1]

omit [Uni] in
/-- **C120, C91 (violated: the numbers of lines are not those of the file).** A line number in a message counts the
lines of the unfolded text. In the text that was given, the place is as many lines further down as there are folds
before it. -/
theorem folded_number_violated {s rest line : Str} {n col : Nat} (h : IsPlace (unfold s) rest n line col) :
    ∃ a b, s = a ++ b ∧ unfoldSpec b = rest ∧ b.head? = rest.head? ∧
      (a.filter (· = '\n')).length + 1 = n + markers a := by
  obtain ⟨above, before, after, below, white, h1, _, rfl, h4, _⟩ := h
  rw [unfold_eq_spec] at h1
  obtain ⟨a, b, rfl, e1, e2, e3⟩ := unfold_split h1
  refine ⟨a, b, rfl, e2, e3, ?_⟩
  rw [markers_lines, e1, List.filter_append]
  have : before.filter (· = '\n') = [] := by
    rw [List.filter_eq_nil_iff]
    intro c hc
    simp only [decide_eq_true_eq]
    rintro rfl
    exact h4 hc
  rw [this]
  simp; omega

/-! ### Examples -/

/-- a component closed as something else, within another one: what is said -/
example : @Reports Uni.ascii c!"BEGIN:A\nbegin:B\nEND:C\n"
    [(c!"C\n", .nom c!"Tag"), (c!"C\n", .context c!"mismatching end"),
      (c!"begin:B\nEND:C\n", .context c!"component")] := by
  have nm : ∀ x, x ∈ c!"AB" → @IsName Uni.ascii [x] := by
    intro x hx c hc
    simp only [List.mem_cons, List.not_mem_nil, or_false] at hc hx
    subst hc
    rcases hx with rfl | rfl <;> exact .inl (by decide)
  have st : ∀ s : Str, @First (fun c => ¬ @NameChar Uni.ascii c) ('\n' :: s) := by
    intro s c hc
    simp only [List.head?_cons, Option.some.injEq] at hc
    subst hc
    unfold NameChar
    decide
  have bl : Blank ['\n'] := blank_break .lf blank_nil
  exact @Reports.inner Uni.ascii c!"A" [] [] c!"BEGIN:" ['\n'] [] c!"begin:B\nEND:C\n" _ (by decide)
    (nm _ (by decide)) (st _) bl (by unfold NoBreak; decide) (@BodyIs.nil Uni.ascii _)
    (@Reports.close Uni.ascii c!"B" [] [] c!"begin:" ['\n'] [] c!"END:" c!"C\n" (by decide) (nm _ (by decide)) (st _) bl
      (by unfold NoBreak; decide) (@BodyIs.nil Uni.ascii _) (by decide) (by decide))

/-- a message and where it comes from: the text after line breaks is reported on -/
example : ∃ lead j l, c!"\nBEGIN:A\nX:1\n\tENDING:2\nEND:A\n" = lead ++ j ∧ Blank lead ∧ @Reports Uni.ascii j l ∧
    Message c!"\nBEGIN:A\nX:1\n\tENDING:2\nEND:A\n" 0 l (c!"0: at line 4, in Satisfy:\n\tENDING:2\n ^\n\n" ++
      c!"1: at line 4, in property cannot be END or BEGIN:\n\tENDING:2\n^\n\n" ++
      c!"2: at line 4, in property:\n\tENDING:2\n^\n\n3: at line 4, in component:\n\tENDING:2\n^\n\n") := by
  have : @readCalendarError Uni.ascii c!"\nBEGIN:A\nX:1\n\tENDING:2\nEND:A\n" = some
      (c!"error: " ++ (c!"0: at line 4, in Satisfy:\n\tENDING:2\n ^\n\n" ++
      c!"1: at line 4, in property cannot be END or BEGIN:\n\tENDING:2\n^\n\n" ++
      c!"2: at line 4, in property:\n\tENDING:2\n^\n\n3: at line 4, in component:\n\tENDING:2\n^\n\n")) := by
    decide +kernel
  obtain ⟨lead, j, l, text, h1, h2, h3, h4, h5⟩ := (@calendar_report_iff Uni.ascii _ _).1 this
  exact ⟨lead, j, l, h1, h2, h3, List.append_cancel_left h5 ▸ h4⟩

/-- a component that is not closed, and a text that is none -/
example : (@readComponentError Uni.ascii c!"BEGIN:A\nX:1\n").map String.ofList =
      some "error: 0: at line 3, in ManyTill:\n\n^\n\n" ∧
    (@readComponentError Uni.ascii c!"\nX:1").map String.ofList = some "error: 0: at line 2, in Tag:\nX:1\n^\n\n" := by
  decide +kernel

/-- a folded text: the wrong line is the fifth line of the text and the third line of the message -/
example : @readCalendarError Uni.ascii (unfold c!"BEGIN:A\r\nX:1\r\n 2\r\n 3\r\nEND:B\r\n") =
      @readCalendarError Uni.ascii c!"BEGIN:A\r\nX:123\r\nEND:B\r\n" ∧
    (@readCalendarError Uni.ascii c!"BEGIN:A\r\nX:123\r\nEND:B\r\n").map String.ofList =
      some "error: 0: at line 3, in Tag:\nEND:B\n    ^\n\n1: at line 3, in mismatching end:\nEND:B\n    ^\n\n" ∧
    markers c!"BEGIN:A\r\nX:1\r\n 2\r\n 3\r\nEND:B\r\n" = 2 := by
  decide +kernel

end Ical
