import Verif.Spec.ContentLine
import Verif.Proofs.CalendarIO

/-!
C69, and the folding properties C01, C02, C04, C05 for whole properties: what is written for a property is its content
line, folded, and a line break.
-/

namespace Ical

open Nom Spec

theorem escaped_eq (c : Char) : escaped c = escChar c := by
  unfold escaped escChar
  by_cases h1 : c = '\n'
  · subst h1; decide
  · by_cases h2 : c = '\\'
    · subst h2; decide
    · by_cases h3 : c = ','
      · subst h3; decide
      · by_cases h4 : c = ';'
        · subst h4; decide
        · simp [h1, h2, h3, h4]

theorem paramsText_forms (l : List (Str × Str)) : ∃ forms, ParamForms l forms ∧ paramsText l = forms.flatten := by
  induction l with
  | nil => exact ⟨[], trivial, rfl⟩
  | cons x l ih =>
    obtain ⟨k, v⟩ := x
    obtain ⟨forms, h1, h2⟩ := ih
    refine ⟨([';'] ++ k ++ ['='] ++ quoteIfContainsColon v) :: forms, ⟨?_, h1⟩, by simp [paramsText, h2]⟩
    unfold ParamForm quoteIfContainsColon
    simp

theorem forms_unique {l : List (Str × Str)} {forms : List Str} (h : ParamForms l forms) : forms.flatten = paramsText l := by
  induction l generalizing forms with
  | nil =>
    cases forms with
    | nil => rfl
    | cons => exact h.elim
  | cons x l ih =>
    cases forms with
    | nil => exact h.elim
    | cons f forms =>
      obtain ⟨k, v⟩ := x
      obtain ⟨h1, h2⟩ := h
      unfold ParamForm at h1
      subst h1
      simp [paramsText, ih h2, quoteIfContainsColon]

variable [Uni]

theorem line_contentLine (p : Property) {w : World} (hw : World.Ok w) : ContentLine p (p.line w) := by
  obtain ⟨forms, h1, h2⟩ := paramsText_forms (w.order [] p.params)
  refine ⟨_, forms, hw.order [] p.params, h1, ?_⟩
  have hv : rawText p = p.valueText := by
    unfold rawText
    split
    · rename_i ht
      rw [valueText_of_text ((isText_iff p).1 ht), escapeText_eq]
      exact congrArg (fun f => p.val.flatMap f) (funext escaped_eq)
    · rename_i ht
      exact (valueText_of_not (fun hc => ht ((isText_iff p).2 hc))).symm
  unfold Property.line
  rw [h2, hv]
  simp

omit [Uni] in
/-- a property without line feeds, except in a TEXT value, has content lines without line feeds -/
theorem contentLine_noLf {p : Property} (hk : '\n' ∉ p.key) (hp : ∀ x ∈ p.params, '\n' ∉ x.1 ∧ '\n' ∉ x.2)
    (hv : IsText p ∨ '\n' ∉ p.val) {line : Str} (h : ContentLine p line) : '\n' ∉ line := by
  obtain ⟨params, forms, h1, h2, rfl⟩ := h
  have hval : '\n' ∉ rawText p := by
    unfold rawText
    by_cases ht : IsText p
    · rw [if_pos ht]
      intro hc
      obtain ⟨d, hd, hc⟩ := List.mem_flatMap.1 hc
      unfold escaped at hc
      repeat' split at hc
      all_goals simp only [List.mem_cons, List.not_mem_nil, or_false] at hc
      all_goals simp_all [eq_comm]
    · rw [if_neg ht]
      rcases hv with hv | hv
      · exact absurd hv ht
      · exact hv
  have hforms : '\n' ∉ forms.flatten := by
    rw [forms_unique h2]
    have hp' : ∀ x ∈ params, '\n' ∉ x.1 ∧ '\n' ∉ x.2 := fun x hx => hp x (h1.mem_iff.1 hx)
    clear h1 h2
    induction params with
    | nil => simp [paramsText]
    | cons x l ih =>
      obtain ⟨k, v⟩ := x
      have h1 := hp' (k, v) (by simp)
      have h2 := ih (fun y hy => hp' y (by simp [hy]))
      unfold paramsText quoteIfContainsColon
      split <;> simp_all
  simp_all

/-- **C69, C04.** What is written for a property is a content line of it (name, parameters in some order, value,
escaped exactly if it is a TEXT), cut between characters and rejoined with CR LF SPACE, and one CR LF. -/
theorem written_property (p : Property) (w : World) (hw : World.Ok w) (out : Str) (h : p.fmtWrite w = .ok out) :
    PropertyText p out := by
  unfold Property.fmtWrite at h
  cases hf : foldLine (p.line w) with
  | error e => rw [hf] at h; cases h
  | ok s =>
    rw [hf] at h
    cases h
    obtain ⟨q, qs, h1, h2, h3, -⟩ := fold_pieces _ _ hf
    exact ⟨p.line w, q, qs, line_contentLine p hw, h1, h3, by rw [h2, crlf]⟩

theorem written_properties {l : List Property} {w : World} (hw : World.Ok w) {out : Str} (h : fmtProps l w = .ok out) :
    PropertiesText l out := by
  induction l generalizing w out with
  | nil => cases h; rfl
  | cons p l ih =>
    unfold fmtProps at h
    cases ha : p.fmtWrite (w.sub 0) with
    | error e => rw [ha] at h; cases h
    | ok a =>
      rw [ha] at h
      cases hb : fmtProps l (w.sub 1) with
      | error e => rw [hb] at h; cases h
      | ok b =>
        rw [hb] at h
        cases h
        exact ⟨a, b, written_property p _ (worldOk_sub hw 0) _ ha, ih (worldOk_sub hw 1) hb, rfl⟩

omit [Uni] in
theorem generatedText {k : Str} {props : BMap Property} {G : Str → Prop} {v : Str} (hv : G v) :
    GeneratedText k props G (if props.containsKey k then [] else k ++ [':'] ++ v ++ crlf) := by
  unfold GeneratedText BMap.containsKey
  rw [← lookup_eq_get]
  cases h : List.lookup k props with
  | none => exact ⟨v, hv, rfl⟩
  | some p => rfl

mutual
theorem written_other (o : Other) {w : World} (hw : World.Ok w) {out : Str} (h : o.fmtWrite w = .ok out) :
    ComponentText o out := by
  match o with
  | .mk name props multi comps =>
    unfold Other.fmtWrite at h
    cases hps : fmtProps props.values (w.sub 0) with
    | error e => simp only [hps] at h; cases h
    | ok ps =>
      cases hms : fmtProps multi.values.flatten (w.sub 1) with
      | error e => simp only [hps, hms] at h; cases h
      | ok ms =>
        cases hcs : fmtOthers comps (w.sub 2) with
        | error e => simp only [hps, hms, hcs] at h; cases h
        | ok cs =>
          simp only [hps, hms, hcs] at h
          cases h
          refine ⟨_, ps, _, ms, cs, generatedText ⟨w.now [], hw.now [], rfl⟩, written_properties (worldOk_sub hw 0) hps,
            generatedText (hw.uuid []), ?_, written_others comps (worldOk_sub hw 2) hcs, by simp [crlf]⟩
          rw [List.flatMap_def]
          exact written_properties (worldOk_sub hw 1) hms
theorem written_others (l : List Other) {w : World} (hw : World.Ok w) {out : Str} (h : fmtOthers l w = .ok out) :
    ComponentsText l out := by
  match l with
  | [] =>
    simp only [fmtOthers] at h
    cases h
    rfl
  | o :: l =>
    unfold fmtOthers at h
    cases ha : o.fmtWrite (w.sub 0) with
    | error e => rw [ha] at h; cases h
    | ok a =>
      rw [ha] at h
      cases hb : fmtOthers l (w.sub 1) with
      | error e => rw [hb] at h; cases h
      | ok b =>
        rw [hb] at h
        cases h
        exact ⟨a, b, written_other o (worldOk_sub hw 0) ha, written_others l (worldOk_sub hw 1) hb, rfl⟩
end

theorem written_comps {l : List CalComp} {w : World} (hw : World.Ok w) {out : Str} (h : fmtComps l w = .ok out) :
    ComponentsText (l.map CalComp.toOther) out := by
  induction l generalizing w out with
  | nil => cases h; rfl
  | cons x l ih =>
    unfold fmtComps at h
    rw [calComp_fmtWrite] at h
    cases ha : x.toOther.fmtWrite (w.sub 0) with
    | error e => rw [ha] at h; cases h
    | ok a =>
      rw [ha] at h
      cases hb : fmtComps l (w.sub 1) with
      | error e => rw [hb] at h; cases h
      | ok b =>
        rw [hb] at h
        cases h
        exact ⟨a, b, written_other _ (worldOk_sub hw 0) ha, ih (worldOk_sub hw 1) hb, rfl⟩

/-- **C70.** What is written for a component of any kind consists exactly of its parts, at any depth. -/
theorem written_component {C : Type} [Component C] (c : C) (w : World) (hw : World.Ok w) (out : Str)
    (h : Component.fmtWrite c w = .ok out) : ComponentText (Component.toOther c) out :=
  written_other _ hw h

/-- **C70.** What is written for a calendar consists exactly of its parts, at any depth. -/
theorem written_calendar (c : Calendar) (w : World) (hw : World.Ok w) (out : Str) (h : c.fmtWrite w = .ok out) :
    CalendarText c out := by
  unfold Calendar.fmtWrite at h
  cases hps : fmtProps c.props (w.sub 0) with
  | error e => simp only [hps] at h; cases h
  | ok ps =>
    cases hcs : fmtComps c.comps (w.sub 1) with
    | error e => simp only [hps, hcs] at h; cases h
    | ok cs =>
      simp only [hps, hcs] at h
      cases h
      exact ⟨ps, cs, written_properties (worldOk_sub hw 0) hps, written_comps (worldOk_sub hw 1) hcs, by simp [crlf]⟩

omit [Uni] in
theorem physicalLines_end (s : Str) : physicalLines (s ++ ['\r', '\n']) = physicalLines s ++ [[]] := by
  fun_induction physicalLines s with
  | case1 => rfl
  | case2 s ih => simp only [List.cons_append, physicalLines, ih]
  | case3 c s hne h ih => exact absurd h (physicalLines_ne_nil s)
  | case4 c s hne l ls h ih =>
    rw [List.cons_append, physicalLines.eq_3 _ _ ?_, ih, h]
    · rfl
    · intro s' hc hs
      cases s with
      | nil => simp at hs
      | cons d s =>
        simp only [List.cons_append, List.cons.injEq] at hs
        exact hne s hc (by rw [hs.1])

omit [Uni] in
theorem physicalLines_single {s l : Str} (h : physicalLines s = [l]) : l = s := by
  fun_induction physicalLines s generalizing l with
  | case1 => simp_all
  | case2 s ih => simp only [List.cons.injEq] at h; exact absurd h.2 (physicalLines_ne_nil s)
  | case3 c s hne h' ih => exact absurd h' (physicalLines_ne_nil s)
  | case4 c s hne m ls h' ih =>
    simp only [List.cons.injEq] at h
    obtain ⟨rfl, rfl⟩ := h
    rw [ih h']

/-- **C01.** Unfolding what is written for a property gives its content line and a line break. -/
theorem written_unfold (p : Property) (hm : ∀ line, ContentLine p line → MarkerFree line) (w : World) (hw : World.Ok w)
    (out : Str) (h : p.fmtWrite w = .ok out) :
    ∃ line, ContentLine p line ∧ unfold out = line ++ ['\r', '\n'] := by
  unfold Property.fmtWrite at h
  have hc := line_contentLine p hw
  cases hf : foldLine (p.line w) with
  | error e => rw [hf] at h; cases h
  | ok s =>
    rw [hf] at h
    cases h
    refine ⟨p.line w, hc, ?_⟩
    have := unfold_line (hm _ hc) hf (t := []) noIndent_nil
    rw [List.append_nil] at this
    rw [unfold_eq_spec, this]
    simp [unfoldSpec, crlf]

/-- **C05.** A content line of at most 75 octets is written as it is, followed by one CR LF; a longer one is folded. -/
theorem written_short (p : Property) (w : World) (hw : World.Ok w) (out : Str) (h : p.fmtWrite w = .ok out) :
    ∃ line, ContentLine p line ∧ (blen line ≤ 75 → out = line ++ ['\r', '\n']) ∧
      (75 < blen line → ['\r', '\n', ' '] <:+: out ∧ out ≠ line ++ ['\r', '\n']) := by
  unfold Property.fmtWrite at h
  cases hf : foldLine (p.line w) with
  | error e => rw [hf] at h; cases h
  | ok s =>
    rw [hf] at h
    cases h
    refine ⟨p.line w, line_contentLine p hw, ?_, ?_⟩
    · intro hl
      rw [fold_short _ hl] at hf
      cases hf
      rfl
    · intro hl
      obtain ⟨h1, h2⟩ := fold_long _ _ hl hf
      refine ⟨h1.trans ⟨[], crlf, by simp⟩, ?_⟩
      intro he
      exact h2 (List.append_cancel_right he)

/-- **C02** (partial: see `fold_octets_violated`). What is written for a property without line feeds, except in a TEXT
value, consists of physical lines of at most 75 octets, the last one of at most 76, and ends with a line break. -/
theorem written_octets_partial (p : Property) (hk : '\n' ∉ p.key) (hp : ∀ x ∈ p.params, '\n' ∉ x.1 ∧ '\n' ∉ x.2)
    (hv : IsText p ∨ '\n' ∉ p.val) (w : World) (hw : World.Ok w) (out : Str) (h : p.fmtWrite w = .ok out) :
    ∃ ls l, physicalLines out = ls ++ [l, []] ∧ (∀ x ∈ ls, blen x ≤ 75) ∧ blen l ≤ 76 ∧ (ls = [] → blen l ≤ 75) := by
  unfold Property.fmtWrite at h
  have hc := line_contentLine p hw
  cases hf : foldLine (p.line w) with
  | error e => rw [hf] at h; cases h
  | ok s =>
    rw [hf] at h
    cases h
    obtain ⟨h1, h2, h3⟩ := fold_octets_partial _ _ (contentLine_noLf hk hp hv hc) hf
    have hne := physicalLines_ne_nil s
    refine ⟨(physicalLines s).dropLast, (physicalLines s).getLast hne, ?_, h1, h2 _ (List.getLast_mem hne), ?_⟩
    · rw [show s ++ crlf = s ++ ['\r', '\n'] from rfl, physicalLines_end]
      conv => lhs; rw [← List.dropLast_concat_getLast hne]
      simp
    · intro hd
      have hl : (physicalLines s).length = 1 := by
        have := congrArg List.length hd
        have h0 := List.length_pos_iff.2 hne
        rw [List.length_dropLast, List.length_nil] at this
        omega
      have e : physicalLines s = [(physicalLines s).getLast hne] := by
        conv => lhs; rw [← List.dropLast_concat_getLast hne, hd]
        rfl
      have h4 := h3 hl
      rw [physicalLines_single e]
      exact h4

end Ical

namespace Ical

open Nom Spec

/-- a property with parameters and a TEXT value, long enough to be folded -/
def lineProp : Property :=
  ⟨c!"SUMMARY", c!"a,b;c\\d\n" ++ List.replicate 70 'é', [(c!"ALTREP", c!"http://x"), (c!"LANGUAGE", c!"fr")]⟩

/-- the hypotheses of the theorems are satisfied by a property that is folded -/
example : IsText lineProp ∧ '\n' ∉ lineProp.key ∧ (∀ x ∈ lineProp.params, '\n' ∉ x.1 ∧ '\n' ∉ x.2) ∧
    (@Property.fmtWrite Uni.ascii lineProp
      ⟨fun _ => ⟨⟨⟨2026, 1, 1⟩, 0, 0, 0, 0⟩⟩, fun _ => c!"0", fun _ l => l.reverse⟩).toOption.any (fun out =>
        c!"SUMMARY;LANGUAGE=fr;ALTREP=\"http://x\":a\\,b\\;c\\\\d\\Né".isPrefixOf out &&
        (physicalLines out).length == 4) = true := by
  decide +kernel

example : ∀ line, ContentLine lineProp line → MarkerFree line :=
  fun _ h => markerFree_of_noLf (contentLine_noLf (by decide +kernel) (by decide +kernel) (.inl (by decide +kernel)) h)

/-- a calendar with an event, a repeated property and an alarm, and what is written for it -/
example : @Calendar.fmtWrite Uni.ascii
    ⟨[⟨c!"VERSION", c!"2.0", []⟩], [.event ⟨⟨[(c!"SUMMARY", ⟨c!"SUMMARY", c!"a,b", []⟩)],
      [(c!"COMMENT", [⟨c!"COMMENT", c!"x", []⟩, ⟨c!"COMMENT", c!"y", []⟩])],
      [.mk c!"VALARM" [(c!"DTSTAMP", ⟨c!"DTSTAMP", c!"20260101T000000Z", []⟩), (c!"UID", ⟨c!"UID", c!"u", []⟩)] [] []]⟩⟩]⟩
    ⟨fun _ => ⟨⟨⟨2026, 1, 1⟩, 0, 0, 0, 0⟩⟩, fun _ => c!"0", fun _ l => l⟩ =
    .ok c!"BEGIN:VCALENDAR\r\nVERSION:2.0\r\nBEGIN:VEVENT\r\nDTSTAMP:20260101T000000Z\r\nSUMMARY:a\\,b\r\nUID:0\r\nCOMMENT:x\r\nCOMMENT:y\r\nBEGIN:VALARM\r\nDTSTAMP:20260101T000000Z\r\nUID:u\r\nEND:VALARM\r\nEND:VEVENT\r\nEND:VCALENDAR\r\n" := by
  decide +kernel

end Ical
