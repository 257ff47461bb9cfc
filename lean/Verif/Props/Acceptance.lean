import Verif.Proofs.Acceptance

/-!
C108: exactly which texts are read, as what, and which are rejected.
-/

namespace Ical

open Nom Spec

variable [Uni]

/-- **C108.** A property is read from a text if and only if the text starts with the text of that property. -/
theorem property_read_iff {i : Str} {p : PProp} : readProperty i = some p ↔ ∃ t f, i = t ++ f ∧ PropIs p t f := by
  constructor
  · intro h
    by_cases hk : Keyword i
    · simp [readProperty, keyword_fails hk, finish] at h
    · obtain ⟨q, t, f, rfl, hq⟩ := prop_total hk
      simp only [readProperty, propIs_reads hq, finish, Option.some.injEq] at h
      exact ⟨t, f, rfl, h ▸ hq⟩
  · rintro ⟨t, f, rfl, hp⟩
    simp [readProperty, propIs_reads hp, finish]

/-- **C108.** A text is rejected as a property if and only if it starts with END or BEGIN in capitals. -/
theorem property_rejected_iff {i : Str} : Property.fromStr i = none ↔ Keyword i := by
  have : Property.fromStr i = none ↔ readProperty i = none := by
    simp [Property.fromStr]
  rw [this]
  constructor
  · intro h
    by_cases hk : Keyword i
    · exact hk
    · obtain ⟨q, t, f, rfl, hq⟩ := prop_total hk
      simp [readProperty, propIs_reads hq, finish] at h
  · intro h
    simp [readProperty, keyword_fails h, finish]

/-- line breaks before a component -/
theorem component_lead {lead j : Str} (h1 : Blank lead) (h2 : NoBreak j) : component (lead ++ j) = component j := by
  rw [noBreak_iff] at h2
  obtain ⟨l, hl⟩ := many0_blank h1 h2
  have : line c!"BEGIN:" validKeySequence (lead ++ j) = line c!"BEGIN:" validKeySequence j := by
    unfold line lineSeparated delimited map pair
    rw [hl, many0_lineEnding_none h2]
    simp only
    cases complete (preceded (tagNoCase c!"BEGIN:") validKeySequence) j with
    | error => rfl
    | failure => rfl
    | ok r a =>
      simp only
      cases many0 lineEnding r <;> rfl
  rw [component_eq, component_eq j, componentBody, this, componentBody]

/-- the texts with a component, possibly after line breaks and before another text -/
def HoldsComp (c : PComp) (i f : Str) : Prop := ∃ lead t, i = lead ++ (t ++ f) ∧ Blank lead ∧ CompIs c t f

/-- the texts without a component: there is no BEGIN after the line breaks, or the component is not closed -/
def HoldsNone (i : Str) : Prop := ∃ lead j, i = lead ++ j ∧ Blank lead ∧ NoBreak j ∧ (Begins c!"begin:" j → Stuck j)

/-- the texts in which reading fails -/
def Fails (i : Str) : Prop := ∃ lead j, i = lead ++ j ∧ Blank lead ∧ Broken j

theorem holdsComp_reads {c : PComp} {i f : Str} (h : HoldsComp c i f) : component i = .ok f c := by
  obtain ⟨lead, t, rfl, h1, h2⟩ := h
  rw [component_lead h1 (begins_begin_head (compIs_begins h2).1).2.2]
  exact (as_specified _).comp c t f rfl h2

theorem holdsNone_reads {i : Str} (h : HoldsNone i) : component i = .error := by
  obtain ⟨lead, j, rfl, h1, h2, h3⟩ := h
  rw [component_lead h1 h2]
  by_cases hb : Begins c!"begin:" j
  · exact (as_specified _).stuck (h3 hb)
  · exact component_other h2 hb

theorem fails_reads {i : Str} (h : Fails i) : component i = .failure := by
  obtain ⟨lead, j, rfl, h1, h2⟩ := h
  rw [component_lead h1 (begins_begin_head (broken_begins h2)).2.2]
  exact (as_specified _).broken h2

theorem text_total (i : Str) : (∃ c f, HoldsComp c i f) ∨ HoldsNone i ∨ Fails i := by
  obtain ⟨lead, j, rfl, h1, h2⟩ := blank_split i
  by_cases hb : Begins c!"begin:" j
  · rcases comp_total j hb with ⟨c, t, f, rfl, h⟩ | h | h
    · exact .inl ⟨c, f, lead, t, rfl, h1, h⟩
    · exact .inr (.inl ⟨lead, j, rfl, h1, h2, fun _ => h⟩)
    · exact .inr (.inr ⟨lead, j, rfl, h1, h⟩)
  · exact .inr (.inl ⟨lead, j, rfl, h1, h2, fun h => absurd h hb⟩)

theorem component_ok_iff {i f : Str} {c : PComp} : component i = .ok f c ↔ HoldsComp c i f := by
  refine ⟨fun h => ?_, holdsComp_reads⟩
  rcases text_total i with ⟨c', f', h'⟩ | h' | h'
  · rw [holdsComp_reads h'] at h; cases h; exact h'
  · rw [holdsNone_reads h'] at h; cases h
  · rw [fails_reads h'] at h; cases h

theorem component_error_iff {i : Str} : component i = .error ↔ HoldsNone i := by
  refine ⟨fun h => ?_, holdsNone_reads⟩
  rcases text_total i with ⟨c', f', h'⟩ | h' | h'
  · rw [holdsComp_reads h'] at h; cases h
  · exact h'
  · rw [fails_reads h'] at h; cases h

theorem component_failure_iff {i : Str} : component i = .failure ↔ Fails i := by
  refine ⟨fun h => ?_, fails_reads⟩
  rcases text_total i with ⟨c', f', h'⟩ | h' | h'
  · rw [holdsComp_reads h'] at h; cases h
  · rw [holdsNone_reads h'] at h; cases h
  · exact h'

/-- **C108.** A component is read from a text if and only if the text starts with the text of that component, maybe
after line breaks. -/
theorem component_read_iff {i : Str} {c : PComp} : readComponent i = some c ↔
    ∃ lead t f, i = lead ++ (t ++ f) ∧ Blank lead ∧ CompIs c t f := by
  have h1 : readComponent i = some c ↔ ∃ f, component i = .ok f c := by
    unfold readComponent
    cases component i <;> simp [finish]
  rw [h1]
  simp only [component_ok_iff, HoldsComp]
  exact ⟨fun ⟨f, lead, t, h⟩ => ⟨lead, t, f, h⟩, fun ⟨lead, t, f, h⟩ => ⟨f, lead, t, h⟩⟩

/-- **C108.** A text is rejected as a component if and only if, after line breaks, it does not start with BEGIN, or the
component is not closed or broken. -/
theorem component_rejected_iff {s : Str} : CalComp.fromStr s = none ↔
    ∃ lead j, unfoldSpec s = lead ++ j ∧ Blank lead ∧ NoBreak j ∧ (Begins c!"begin:" j → Stuck j ∨ Broken j) := by
  have h1 : CalComp.fromStr s = none ↔ component (unfold s) = .error ∨ component (unfold s) = .failure := by
    simp only [CalComp.fromStr, readComponent, Option.map_eq_none_iff]
    cases component (unfold s) <;> simp [finish]
  rw [h1, component_error_iff, component_failure_iff, unfold_eq_spec]
  constructor
  · rintro (⟨lead, j, h2, h3, h4, h5⟩ | ⟨lead, j, h2, h3, h4⟩)
    · exact ⟨lead, j, h2, h3, h4, fun h => .inl (h5 h)⟩
    · exact ⟨lead, j, h2, h3, (begins_begin_head (broken_begins h4)).2.2, fun _ => .inr h4⟩
  · rintro ⟨lead, j, h2, h3, h4, h5⟩
    by_cases hb : Begins c!"begin:" j
    · rcases h5 hb with h | h
      · exact .inl ⟨lead, j, h2, h3, h4, fun _ => h⟩
      · exact .inr ⟨lead, j, h2, h3, h⟩
    · exact .inl ⟨lead, j, h2, h3, h4, fun h => absurd h hb⟩

/-- **C108.** A calendar is rejected if and only if, after line breaks, its text is broken. -/
theorem calendar_rejected_iff {s : Str} : Calendar.fromStr s = none ↔
    ∃ lead j, unfoldSpec s = lead ++ j ∧ Blank lead ∧ Broken j := by
  have h1 : Calendar.fromStr s = none ↔ component (unfold s) = .failure := by
    simp only [Calendar.fromStr, readCalendar, Option.map_eq_none_iff]
    rcases components_cases (unfold s) with ⟨c, hc, hl⟩ | ⟨hc, hl⟩ | ⟨hc, hl⟩
    · rw [hl, hc]
      simp only [finish]
      split <;> simp
    · rw [hl]
      rcases hc with hc | ⟨r, c, _, hc⟩ <;> rw [hc] <;> simp [finish]
    · rw [hl, hc]
      simp [finish]
  rw [h1, component_failure_iff, unfold_eq_spec]
  exact Iff.rfl

/-- **C108.** What a calendar is read as: the elements of a `VCALENDAR`, or a component of another name, if there is
nothing else in the text; nothing at all if there is no component or anything after it. -/
theorem calendar_read_iff {i : Str} {c : PCal} : readCalendar i = some c ↔
    (∃ lead t, i = lead ++ t ∧ Blank lead ∧ CompIs (.mk c!"VCALENDAR" c.props c.comps) t []) ∨
    (∃ lead t d, i = lead ++ t ∧ Blank lead ∧ CompIs d t [] ∧ d.name ≠ c!"VCALENDAR" ∧ c.props = [] ∧ c.comps = [d]) ∨
    (c.props = [] ∧ c.comps = [] ∧ ((∃ lead j, i = lead ++ j ∧ Blank lead ∧ NoBreak j ∧ (Begins c!"begin:" j → Stuck j)) ∨
      ∃ lead t f d, i = lead ++ (t ++ f) ∧ Blank lead ∧ CompIs d t f ∧ f ≠ [])) := by
  obtain ⟨props, comps⟩ := c
  simp only
  have unq : ∀ {d d' : PComp} {f f' : Str}, component i = .ok f d → component i = .ok f' d' → f = f' ∧ d = d' := by
    intro d d' f f' h h'
    rw [h] at h'
    cases h'
    exact ⟨rfl, rfl⟩
  have whole : ∀ {d : PComp} {lead t : Str}, i = lead ++ t → Blank lead → CompIs d t [] → component i = .ok [] d :=
    fun h1 h2 h3 => holdsComp_reads ⟨_, _, by rw [h1]; simp, h2, h3⟩
  unfold readCalendar
  rcases components_cases i with ⟨d, hc, hl⟩ | ⟨hc, hl⟩ | ⟨hc, hl⟩
  · rw [hl]
    simp only [finish]
    obtain ⟨lead, t, h1, h2, h3⟩ := component_ok_iff.1 hc
    rw [List.append_nil] at h1
    constructor
    · intro h
      split at h
      · rename_i hn
        cases h
        obtain ⟨n, ps, cs⟩ := d
        simp only [PComp.name] at hn
        subst hn
        exact .inl ⟨lead, t, h1, h2, h3⟩
      · rename_i hn
        cases h
        exact .inr (.inl ⟨lead, t, d, h1, h2, h3, hn, rfl, rfl⟩)
    · rintro (⟨lead', t', h4, h5, h6⟩ | ⟨lead', t', d', h4, h5, h6, h7, rfl, rfl⟩ | ⟨rfl, rfl, h4 | ⟨lead', t', f, d', h4, h5, h6, h7⟩⟩)
      · obtain ⟨_, rfl⟩ := unq hc (whole h4 h5 h6)
        rfl
      · obtain ⟨_, rfl⟩ := unq hc (whole h4 h5 h6)
        rw [if_neg h7]
      · rw [component_error_iff.2 h4] at hc; cases hc
      · exact absurd (unq hc (holdsComp_reads ⟨lead', t', h4, h5, h6⟩)).1.symm h7
  · rw [hl]
    simp only [finish]
    have hno : ∀ d, component i ≠ .ok [] d := by
      intro d hd
      rcases hc with hc | ⟨r, c, hr, hc⟩
      · rw [hc] at hd; cases hd
      · exact hr (unq hc hd).1
    constructor
    · intro h
      cases h
      refine .inr (.inr ⟨rfl, rfl, ?_⟩)
      rcases hc with hc | ⟨r, c, hr, hc⟩
      · exact .inl (component_error_iff.1 hc)
      · obtain ⟨lead, t, h1, h2, h3⟩ := component_ok_iff.1 hc
        exact .inr ⟨lead, t, r, c, h1, h2, h3, hr⟩
    · rintro (⟨lead', t', h4, h5, h6⟩ | ⟨lead', t', d', h4, h5, h6, h7, rfl, rfl⟩ | ⟨rfl, rfl, _⟩)
      · exact absurd (whole h4 h5 h6) (hno _)
      · exact absurd (whole h4 h5 h6) (hno _)
      · rfl
  · rw [hl]
    simp only [finish]
    refine ⟨nofun, ?_⟩
    rintro (⟨lead', t', h4, h5, h6⟩ | ⟨lead', t', d', h4, h5, h6, h7, rfl, rfl⟩ | ⟨rfl, rfl, h4 | ⟨lead', t', f, d', h4, h5, h6, h7⟩⟩)
    · rw [whole h4 h5 h6] at hc; cases hc
    · rw [whole h4 h5 h6] at hc; cases hc
    · rw [component_error_iff.2 h4] at hc; cases hc
    · rw [holdsComp_reads ⟨lead', t', h4, h5, h6⟩] at hc; cases hc

/-- **C17 (partial: only a root that is alone is returned).** Exactly what `read_components` returns: one component if the
text is that of the component and nothing else; nothing if there is no component, it is not closed, or anything comes
after it. -/
theorem roots_read_iff_partial {i : Str} {l : List PComp} : readComponents i = some l ↔
    (∃ c lead t, l = [c] ∧ i = lead ++ t ∧ Blank lead ∧ CompIs c t []) ∨
    (l = [] ∧ ((∃ lead j, i = lead ++ j ∧ Blank lead ∧ NoBreak j ∧ (Begins c!"begin:" j → Stuck j)) ∨
      ∃ lead t f d, i = lead ++ (t ++ f) ∧ Blank lead ∧ CompIs d t f ∧ f ≠ [])) := by
  have whole : ∀ {d : PComp} {lead t : Str}, i = lead ++ t → Blank lead → CompIs d t [] → component i = .ok [] d :=
    fun h1 h2 h3 => holdsComp_reads ⟨_, _, by rw [h1]; simp, h2, h3⟩
  unfold readComponents
  rcases components_cases i with ⟨d, hc, hl⟩ | ⟨hc, hl⟩ | ⟨hc, hl⟩ <;> rw [hl] <;> simp only [finish]
  · constructor
    · intro h
      cases h
      obtain ⟨lead, t, h1, h2, h3⟩ := component_ok_iff.1 hc
      rw [List.append_nil] at h1
      exact .inl ⟨d, lead, t, rfl, h1, h2, h3⟩
    · rintro (⟨c, lead, t, rfl, h1, h2, h3⟩ | ⟨rfl, h | ⟨lead, t, f, d', h1, h2, h3, h4⟩⟩)
      · rw [whole h1 h2 h3] at hc; cases hc; rfl
      · rw [component_error_iff.2 h] at hc; cases hc
      · rw [holdsComp_reads ⟨lead, t, h1, h2, h3⟩] at hc; cases hc; exact absurd rfl h4
  · constructor
    · intro h
      cases h
      refine .inr ⟨rfl, ?_⟩
      rcases hc with hc | ⟨r, c, hr, hc⟩
      · exact .inl (component_error_iff.1 hc)
      · obtain ⟨lead, t, h1, h2, h3⟩ := component_ok_iff.1 hc
        exact .inr ⟨lead, t, r, c, h1, h2, h3, hr⟩
    · rintro (⟨c, lead, t, rfl, h1, h2, h3⟩ | ⟨rfl, _⟩)
      · have h := whole h1 h2 h3
        rcases hc with hc | ⟨r, c', hr, hc⟩
        · rw [hc] at h; cases h
        · rw [hc] at h; cases h; exact absurd rfl hr
      · rfl
  · refine ⟨nofun, ?_⟩
    rintro (⟨c, lead, t, rfl, h1, h2, h3⟩ | ⟨rfl, h | ⟨lead, t, f, d', h1, h2, h3, h4⟩⟩)
    · rw [whole h1 h2 h3] at hc; cases hc
    · rw [component_error_iff.2 h] at hc; cases hc
    · rw [holdsComp_reads ⟨lead, t, h1, h2, h3⟩] at hc; cases hc

/-- **C72 (partial).** Exactly these texts are read as a calendar without anything in it: those of an empty `VCALENDAR`,
those without BEGIN, those of a component that is not closed and those of a component with any text after it. -/
theorem empty_calendar_iff_partial {s : Str} : Calendar.fromStr s = some ⟨[], []⟩ ↔
    (∃ lead t, unfoldSpec s = lead ++ t ∧ Blank lead ∧ CompIs (.mk c!"VCALENDAR" [] []) t []) ∨
    (∃ lead j, unfoldSpec s = lead ++ j ∧ Blank lead ∧ NoBreak j ∧ ¬ Begins c!"begin:" j) ∨
    (∃ lead j, unfoldSpec s = lead ++ j ∧ Blank lead ∧ Stuck j) ∨
    (∃ lead t f d, unfoldSpec s = lead ++ (t ++ f) ∧ Blank lead ∧ CompIs d t f ∧ f ≠ []) := by
  have h1 : Calendar.fromStr s = some ⟨[], []⟩ ↔ readCalendar (unfoldSpec s) = some ⟨[], []⟩ := by
    rw [Calendar.fromStr, unfold_eq_spec]
    cases readCalendar (unfoldSpec s) with
    | none => simp
    | some c =>
      obtain ⟨ps, cs⟩ := c
      simp [PCal.toCalendar]
  rw [h1, calendar_read_iff]
  constructor
  · rintro (h | ⟨_, _, _, _, _, _, _, _, h⟩ | ⟨_, _, ⟨lead, j, h2, h3, h4, h5⟩ | h⟩)
    · exact .inl h
    · cases h
    · by_cases hb : Begins c!"begin:" j
      · exact .inr (.inr (.inl ⟨lead, j, h2, h3, h5 hb⟩))
      · exact .inr (.inl ⟨lead, j, h2, h3, h4, hb⟩)
    · exact .inr (.inr (.inr h))
  · rintro (h | ⟨lead, j, h2, h3, h4, h5⟩ | ⟨lead, j, h2, h3, h4⟩ | h)
    · exact .inl h
    · exact .inr (.inr ⟨rfl, rfl, .inl ⟨lead, j, h2, h3, h4, fun h => absurd h h5⟩⟩)
    · exact .inr (.inr ⟨rfl, rfl, .inl ⟨lead, j, h2, h3, (begins_begin_head (stuck_begins h4)).2.2, fun _ => h4⟩⟩)
    · exact .inr (.inr ⟨rfl, rfl, .inr h⟩)

/-- **C108.** No text is the text of two components. -/
theorem text_unambiguous {c d : PComp} {lead lead' t t' f f' : Str} (h1 : Blank lead) (h2 : Blank lead')
    (h3 : CompIs c t f) (h4 : CompIs d t' f') (h : lead ++ (t ++ f) = lead' ++ (t' ++ f')) : c = d ∧ f = f' := by
  have e1 := holdsComp_reads (i := lead ++ (t ++ f)) ⟨lead, t, rfl, h1, h3⟩
  have e2 := holdsComp_reads (i := lead ++ (t ++ f)) ⟨lead', t', h, h2, h4⟩
  rw [e1] at e2
  cases e2
  exact ⟨rfl, rfl⟩

/-- **C108.** Nor is the text of a component a text that is not closed or broken. -/
theorem text_exclusive {c : PComp} {t f : Str} (h : CompIs c t f) : ¬ Stuck (t ++ f) ∧ ¬ Broken (t ++ f) := by
  have h1 := (as_specified (t ++ f)).comp c t f rfl h
  refine ⟨fun h2 => ?_, fun h2 => ?_⟩
  · rw [(as_specified _).stuck h2] at h1; cases h1
  · rw [(as_specified _).broken h2] at h1; cases h1

end Ical

namespace Ical
open Spec

/-- a text that is read although much is odd about it: a component of which the name is followed by its first property, a
property named like a keyword since what it would start is not closed, a name without value and text right after an END -/
example : ∃ lead t, c!"\nbegin:VCALENDAR:a\r\nBegin:x y\r\nbegin:V\nend:VSTATUS\n\nEND:VCALENDAR" = lead ++ t ∧ Blank lead ∧
    @CompIs Uni.ascii (.mk c!"VCALENDAR" [⟨[], c!"a", []⟩, ⟨c!"Begin", c!"x y", []⟩, ⟨c!"STATUS", [], []⟩]
      [.mk c!"V" [] []]) t [] := by
  have : ∃ c, @readCalendar Uni.ascii c!"\nbegin:VCALENDAR:a\r\nBegin:x y\r\nbegin:V\nend:VSTATUS\n\nEND:VCALENDAR" = some c ∧
      c = ⟨[⟨[], c!"a", []⟩, ⟨c!"Begin", c!"x y", []⟩, ⟨c!"STATUS", [], []⟩], [.mk c!"V" [] []]⟩ := ⟨_, rfl, rfl⟩
  obtain ⟨_, h, rfl⟩ := this
  rcases (@calendar_read_iff Uni.ascii _ _).1 h with h | ⟨_, _, _, _, _, _, _, h, _⟩ | ⟨h, _⟩
  · exact h
  · cases h
  · cases h

/-- one root, and two of them -/
example : (@readComponents Uni.ascii c!"\nBEGIN:A\nEND:A\n").map List.length = some 1 ∧
    (@readComponents Uni.ascii c!"BEGIN:A\nEND:A\nBEGIN:B\nEND:B\n").map List.length = some 0 := by
  decide +kernel

/-- a calendar closed as something else is rejected, so is one with a line that starts with END, and one that does so
within a component; a calendar that is not closed is not rejected -/
example : (∃ lead j, unfoldSpec c!"BEGIN:VCALENDAR\r\nX:1\r\nEND:VEVENT\r\n" = lead ++ j ∧ Blank lead ∧ @Broken Uni.ascii j) ∧
    (∃ lead j, unfoldSpec c!"BEGIN:VCALENDAR\r\nX:1\r\nENDING:2\r\nEND:VCALENDAR\r\n" = lead ++ j ∧ Blank lead ∧
      @Broken Uni.ascii j) ∧
    (∃ lead j, unfoldSpec c!"BEGIN:A\r\nBEGIN:B\r\nEND:A\r\nEND:B\r\n" = lead ++ j ∧ Blank lead ∧ @Broken Uni.ascii j) ∧
    ¬ (∃ lead j, unfoldSpec c!"BEGIN:VCALENDAR\r\nX:1\r\n" = lead ++ j ∧ Blank lead ∧ @Broken Uni.ascii j) := by
  refine ⟨?_, ?_, ?_, ?_⟩
  · rw [← @calendar_rejected_iff Uni.ascii]
    rfl
  · rw [← @calendar_rejected_iff Uni.ascii]
    rfl
  · rw [← @calendar_rejected_iff Uni.ascii]
    rfl
  · rw [← @calendar_rejected_iff Uni.ascii]
    intro h
    cases h

/-- properties that are rejected, and one that is read from text of which the rest is left -/
example : @Property.fromStr Uni.ascii c!" \r\n\tENDING:1" = none ∧
    @readProperty Uni.ascii c!"DTEND;X:1\r\nY:2" = some ⟨c!"DTEND", c!"1", [⟨c!"X", none⟩]⟩ := by
  decide +kernel

end Ical
