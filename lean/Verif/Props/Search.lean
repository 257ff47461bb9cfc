import Verif.Spec.Search
import Verif.Props.ContentLine
import Verif.Props.Nesting

/-!
C143: searching the file of a calendar for a word.
-/

namespace Ical

open Nom Spec

theorem escaped_cases (d : Char) : (escaped d = [d] ∧ d ≠ '\\' ∧ d ≠ ',' ∧ d ≠ ';' ∧ d ≠ '\n') ∨
    (escaped d = ['\\', 'N'] ∧ d = '\n') ∨ (escaped d = ['\\', d] ∧ (d = '\\' ∨ d = ',' ∨ d = ';')) := by
  unfold escaped
  split
  · exact .inr (.inl ⟨rfl, by assumption⟩)
  · rename_i h
    split
    · exact .inr (.inr ⟨rfl, by assumption⟩)
    · rename_i h'
      simp only [not_or] at h'
      exact .inl ⟨rfl, h'.1, h'.2.1, h'.2.2, h⟩

/-- a word stands at the beginning of the written value exactly if it stands at the beginning of the value -/
theorem prefix_escaped {w : Str} (hw : ∀ c ∈ w, c ≠ '\\' ∧ c ≠ ',' ∧ c ≠ ';' ∧ c ≠ ':' ∧ c ≠ '\n') (v : Str) :
    w <+: v.flatMap escaped ↔ w <+: v := by
  induction w generalizing v with
  | nil => simp
  | cons c w ih =>
    have hc := hw c (List.mem_cons_self ..)
    cases v with
    | nil => simp
    | cons d v =>
      rw [List.flatMap_cons]
      rcases escaped_cases d with ⟨e, -⟩ | ⟨e, rfl⟩ | ⟨e, hd⟩
      · rw [e]
        show c :: w <+: d :: v.flatMap escaped ↔ _
        rw [List.cons_prefix_cons, List.cons_prefix_cons, ih (fun x hx => hw x (List.mem_cons_of_mem _ hx))]
      · rw [e]
        show c :: w <+: '\\' :: _ ↔ _
        rw [List.cons_prefix_cons, List.cons_prefix_cons]
        exact ⟨fun h => absurd h.1 hc.1, fun h => absurd h.1 hc.2.2.2.2⟩
      · rw [e]
        show c :: w <+: '\\' :: _ ↔ _
        rw [List.cons_prefix_cons, List.cons_prefix_cons]
        refine ⟨fun h => absurd h.1 hc.1, fun h => ?_⟩
        rw [← h.1] at hd
        rcases hd with e | e | e
        · exact absurd e hc.1
        · exact absurd e hc.2.1
        · exact absurd e hc.2.2.1

theorem infix_escaped {w : Str} (hw : SearchWord w) (v : Str) :
    w <:+: v.flatMap escaped ↔ w <:+: v ∨ ∃ rest, w = 'N' :: rest ∧ '\n' :: rest <:+: v := by
  obtain ⟨hne, hw⟩ := hw
  obtain ⟨c, w, rfl⟩ := List.exists_cons_of_ne_nil hne
  have hc := hw c (List.mem_cons_self ..)
  induction v with
  | nil => simp
  | cons d v ih =>
    have ih : c :: w <:+: v.flatMap escaped ↔ c :: w <:+: v ∨ ∃ rest, c :: w = 'N' :: rest ∧ '\n' :: rest <:+: v := ih
    have hr : ∀ rest : Str, '\n' :: rest <:+: d :: v ↔ '\n' :: rest <+: d :: v ∨ '\n' :: rest <:+: v :=
      fun rest => List.infix_cons_iff
    have hp := prefix_escaped hw (d :: v)
    rw [List.flatMap_cons] at hp ⊢
    have hsplit : (∃ rest, c :: w = 'N' :: rest ∧ '\n' :: rest <:+: d :: v) ↔
        (c = 'N' ∧ d = '\n' ∧ w <+: v) ∨ ∃ rest, c :: w = 'N' :: rest ∧ '\n' :: rest <:+: v := by
      constructor
      · rintro ⟨rest, e, h⟩
        rcases (hr rest).1 h with h | h
        · rw [List.cons_prefix_cons] at h
          cases e
          exact .inl ⟨rfl, h.1.symm, h.2⟩
        · exact .inr ⟨rest, e, h⟩
      · rintro (⟨rfl, rfl, h⟩ | ⟨rest, e, h⟩)
        · exact ⟨w, rfl, (hr w).2 (.inl (List.cons_prefix_cons.2 ⟨rfl, h⟩))⟩
        · exact ⟨rest, e, (hr rest).2 (.inr h)⟩
    rw [hsplit, List.infix_cons_iff (a := d), ← hp]
    rcases escaped_cases d with ⟨e, -, -, -, hd⟩ | ⟨e, rfl⟩ | ⟨e, hd⟩
    · rw [e]
      show c :: w <:+: d :: v.flatMap escaped ↔ (c :: w <+: d :: v.flatMap escaped ∨ _) ∨ _
      rw [List.infix_cons_iff, ih]
      simp only [hd, false_and, and_false, false_or, or_assoc]
    · rw [e]
      show c :: w <:+: '\\' :: 'N' :: v.flatMap escaped ↔ (c :: w <+: '\\' :: 'N' :: v.flatMap escaped ∨ _) ∨ _
      rw [List.infix_cons_iff, List.infix_cons_iff, ih, List.cons_prefix_cons (a := c) (b := 'N'),
        prefix_escaped (fun x hx => hw x (List.mem_cons_of_mem _ hx))]
      grind
    · rw [e]
      show c :: w <:+: '\\' :: d :: v.flatMap escaped ↔ (c :: w <+: '\\' :: d :: v.flatMap escaped ∨ _) ∨ _
      rw [List.infix_cons_iff, List.infix_cons_iff, ih, List.cons_prefix_cons (a := c) (b := d)]
      have : c ≠ d := by
        rintro rfl
        rcases hd with e | e | e
        · exact hc.1 e
        · exact hc.2.1 e
        · exact hc.2.2.1 e
      have : d ≠ '\n' := by
        rintro rfl
        revert hd
        decide
      grind

/-! ### C143 -/

/-- **C143.** A word stands in how a value is written exactly if it stands in the value, except for words that start
with N, which are also found where the value has a line feed and the rest of the word. -/
theorem search_value (p : Property) {w : Str} (hw : SearchWord w) :
    w <:+: rawText p ↔ w <:+: p.val ∨ FoundAfterBreak p w := by
  unfold rawText FoundAfterBreak
  split
  · rename_i h
    rw [infix_escaped hw]
    simp only [h, true_and]
  · rename_i h
    simp only [h, false_and, or_false]

/-- a word without a character stands before or after it -/
theorem infix_around {d : Char} {w a b : Str} (hw : d ∉ w) : w <:+: a ++ d :: b ↔ w <:+: a ∨ w <:+: b := by
  constructor
  · rintro ⟨s, t, h⟩
    rcases List.append_eq_append_iff.1 h with ⟨a', rfl, -⟩ | ⟨c', h1, h2⟩
    · exact .inl ⟨s, a', by simp⟩
    · cases c' with
      | nil => exact .inl ⟨s, [], by simpa using h1⟩
      | cons x c' =>
        obtain ⟨rfl, rfl⟩ : d = x ∧ b = c' ++ t := by simpa using h2
        rcases List.append_eq_append_iff.1 h1 with ⟨a', rfl, h3⟩ | ⟨c3, rfl, h3⟩
        · exact absurd (by rw [h3]; simp) hw
        · cases c3 with
          | nil => exact absurd (by rw [show w = d :: c' by simpa using h3.symm]; simp) hw
          | cons y c3 =>
            obtain ⟨-, rfl⟩ : d = y ∧ c' = c3 ++ w := by simpa using h3
            exact .inr ⟨c3, t, by simp⟩
  · rintro (h | h)
    · exact h.trans ⟨[], d :: b, by simp⟩
    · exact h.trans ⟨a ++ [d], [], by simp⟩

/-- a text that unfolds to lines of which it is known to which property they belong -/
def Traced (out : Str) (props : List Property) : Prop :=
  ∃ ls : List (Option Property × Str), Emits out (ls.map Prod.snd) ∧ ls.filterMap Prod.fst = props ∧
    ∀ x ∈ ls, LineOf x.1 x.2

theorem traced_nil : Traced [] [] := ⟨[], ⟨by simp, fun t ht => ⟨rfl, ht⟩⟩, rfl, by simp⟩

theorem traced_append {a b : Str} {pa pb : List Property} (ha : Traced a pa) (hb : Traced b pb) :
    Traced (a ++ b) (pa ++ pb) := by
  obtain ⟨la, ha, rfl, na⟩ := ha
  obtain ⟨lb, hb, rfl, nb⟩ := hb
  refine ⟨la ++ lb, by rw [List.map_append]; exact emits_append ha hb, List.filterMap_append, fun x hx => ?_⟩
  exact (List.mem_append.1 hx).elim (na x) (nb x)

theorem traced_line {l : Str} (h : LineOf none l) (hn : NoLf l) (hi : NoIndent (l ++ crlf)) : Traced (l ++ crlf) [] :=
  ⟨[(none, l)], emits_raw hn hi, rfl, by simpa using h⟩

theorem traced_generated {b : Bool} {l : Str} (h : LineOf none l) (hn : NoLf l) (hi : NoIndent (l ++ crlf)) :
    Traced (if b then [] else l ++ crlf) [] := by
  split
  · exact traced_nil
  · exact traced_line h hn hi

theorem traced_component {name body : Str} {ps : List Property} (hn : NoLf name) (hb : Traced body ps) :
    Traced (c!"BEGIN:" ++ name ++ crlf ++ body ++ (c!"END:" ++ name ++ crlf)) ps := by
  have e1 : Traced (c!"BEGIN:" ++ name ++ crlf) [] :=
    traced_line (.inl ⟨name, .inl rfl⟩) (by simpa [NoLf] using hn) (noIndent_cons (by decide) (by decide))
  have e2 : Traced (c!"END:" ++ name ++ crlf) [] :=
    traced_line (.inl ⟨name, .inr rfl⟩) (by simpa [NoLf] using hn) (noIndent_cons (by decide) (by decide))
  simpa using traced_append (traced_append e1 hb) e2

variable [Uni]

theorem traced_property {p : Property} (hp : PlainProp p) {w : World} (hw : World.Ok w) {out : Str}
    (h : p.fmtWrite w = .ok out) : Traced out [p] := by
  unfold Property.fmtWrite at h
  cases hf : foldLine (p.line w) with
  | error e => rw [hf] at h; cases h
  | ok s =>
    rw [hf] at h
    cases h
    have hval : NoLf p.valueText := by
      by_cases ht : IsText p
      · rw [valueText_of_text ((isText_iff p).1 ht)]
        exact (escape_inert p.val).2
      · rw [valueText_of_not (fun hc => ht ((isText_iff p).2 hc))]
        exact hp.value.resolve_left ht
    have hpar := noLf_params (w.order [] p.params) (fun x hx => hp.params x ((hw.order [] p.params).mem_iff.1 hx))
    have hn : NoLf (p.line w) := by
      have := hp.key
      unfold Property.line NoLf at *
      simp only [List.mem_append, not_or]
      exact ⟨⟨⟨this, hpar⟩, by decide⟩, hval⟩
    have hi : NoIndent (p.line w ++ crlf) := by
      have hi := hp.indent
      unfold Property.line
      cases hk : p.key with
      | nil =>
        cases w.order [] p.params with
        | nil => exact noIndent_cons (by decide) (by decide)
        | cons x l => exact noIndent_cons (by decide) (by decide)
      | cons c k =>
        rw [hk] at hi
        refine noIndent_cons ?_ ?_
        · rintro rfl; exact hi.1 (by simp)
        · rintro rfl; exact hi.2 (by simp)
    exact ⟨[(some p, p.line w)], emits_folded hn hi hf, rfl, by simpa [LineOf] using line_contentLine p hw⟩

theorem traced_props {l : List Property} (hl : ∀ p ∈ l, PlainProp p) {w : World} (hw : World.Ok w) {out : Str}
    (h : fmtProps l w = .ok out) : Traced out l := by
  induction l generalizing w out with
  | nil => cases h; exact traced_nil
  | cons p l ih =>
    unfold fmtProps at h
    cases ha : p.fmtWrite (w.sub 0) with
    | error e => rw [ha] at h; cases h
    | ok a =>
      rw [ha] at h
      cases hb : fmtProps l (w.sub 1) with
      | error e => rw [hb] at h; cases h
      | ok b =>
        rw [hb] at h
        cases h
        exact traced_append (traced_property (hl p (by simp)) (worldOk_sub hw 0) ha)
          (ih (fun q hq => hl q (by simp [hq])) (worldOk_sub hw 1) hb)

mutual
theorem traced_other (o : Other) (ho : PlainOther o) {w : World} (hw : World.Ok w) {out : Str}
    (h : o.fmtWrite w = .ok out) : Traced out (propsWithin o) := by
  match o, ho with
  | .mk name props multi comps, ho =>
    obtain ⟨hn, hp, hm, hc⟩ := ho
    unfold Other.fmtWrite at h
    cases hps : fmtProps props.values (w.sub 0) with
    | error e => simp only [hps] at h; cases h
    | ok ps =>
      cases hms : fmtProps multi.values.flatten (w.sub 1) with
      | error e => simp only [hps, hms] at h; cases h
      | ok ms =>
        cases hcs : fmtOthers comps (w.sub 2) with
        | error e => simp only [hps, hms, hcs] at h; cases h
        | ok cs =>
          simp only [hps, hms, hcs] at h
          cases h
          have b1 : Traced ps (props.map Prod.snd) := by
            refine traced_props ?_ (worldOk_sub hw 0) hps
            intro p hp'
            obtain ⟨x, hx, rfl⟩ := List.mem_map.1 hp'
            exact hp x hx
          have b2 : Traced ms (multi.flatMap Prod.snd) := by
            rw [List.flatMap_def]
            refine traced_props ?_ (worldOk_sub hw 1) hms
            intro p hp'
            obtain ⟨g, hg, hpg⟩ := List.mem_flatten.1 hp'
            obtain ⟨x, hx, rfl⟩ := List.mem_map.1 hg
            exact hm x hx p hpg
          have b3 := traced_others comps hc (worldOk_sub hw 2) hcs
          have b4 : Traced (if props.containsKey c!"DTSTAMP" then [] else c!"DTSTAMP:" ++ fmtUtc (w.now []) ++ crlf) [] := by
            refine traced_generated (.inr (.inl ⟨w.now [], hw.now [], rfl⟩)) ?_ (noIndent_cons (by decide) (by decide))
            have := fmtUtc_not_mem (w.now []) (x := '\n') (by decide) (by decide)
            simpa [NoLf] using this
          have b5 : Traced (if props.containsKey c!"UID" then [] else c!"UID:" ++ w.uuid [] ++ crlf) [] := by
            refine traced_generated (.inr (.inr ⟨w.uuid [], hw.uuid [], rfl⟩)) ?_ (noIndent_cons (by decide) (by decide))
            have := uuid_not_mem hw (x := '\n') (by decide) []
            simpa [NoLf] using this
          have := traced_component hn
            (traced_append (traced_append (traced_append (traced_append b4 b1) b5) b2) b3)
          simpa only [List.append_assoc, List.nil_append, List.append_nil, propsWithin] using this
theorem traced_others (l : List Other) (hl : PlainOthers l) {w : World} (hw : World.Ok w) {out : Str}
    (h : fmtOthers l w = .ok out) : Traced out (propsWithinAll l) := by
  match l, hl with
  | [], _ =>
    simp only [fmtOthers] at h
    cases h
    simp only [propsWithinAll]
    exact traced_nil
  | o :: l, hl =>
    obtain ⟨ho, hl⟩ := hl
    unfold fmtOthers at h
    cases ha : o.fmtWrite (w.sub 0) with
    | error e => rw [ha] at h; cases h
    | ok a =>
      rw [ha] at h
      cases hb : fmtOthers l (w.sub 1) with
      | error e => rw [hb] at h; cases h
      | ok b =>
        rw [hb] at h
        cases h
        simp only [propsWithinAll]
        exact traced_append (traced_other o ho (worldOk_sub hw 0) ha) (traced_others l hl (worldOk_sub hw 1) hb)
end

theorem traced_comps (l : List CalComp) (hl : ∀ x ∈ l, PlainOther x.toOther) {w : World} (hw : World.Ok w) {out : Str}
    (h : fmtComps l w = .ok out) : Traced out (propsWithinAll (l.map CalComp.toOther)) := by
  induction l generalizing w out with
  | nil => cases h; simp only [List.map_nil, propsWithinAll]; exact traced_nil
  | cons x l ih =>
    unfold fmtComps at h
    rw [calComp_fmtWrite] at h
    cases ha : x.toOther.fmtWrite (w.sub 0) with
    | error e => rw [ha] at h; cases h
    | ok a =>
      rw [ha] at h
      cases hb : fmtComps l (w.sub 1) with
      | error e => rw [hb] at h; cases h
      | ok b =>
        rw [hb] at h
        cases h
        simp only [List.map_cons, propsWithinAll]
        exact traced_append (traced_other _ (hl x (by simp)) (worldOk_sub hw 0) ha)
          (ih (fun y hy => hl y (by simp [hy])) (worldOk_sub hw 1) hb)

/-- **C143.** The unfolded file of a calendar consists of lines of which each belongs to a property of the calendar or
its components, every property having exactly one, or is a BEGIN, END or generated line. A word stands in the line of a
property exactly if it stands in its name and parameters or in its value, but for words that start with N. -/
theorem search_lines (c : Calendar) (hp : ∀ p ∈ c.props, PlainProp p) (hc : ∀ x ∈ c.comps, PlainOther x.toOther)
    (w : World) (hw : World.Ok w) (out : Str) (h : c.fmtWrite w = .ok out) :
    ∃ lines : List (Option Property × Str), unfold out = (lines.map (fun x => x.2 ++ c!"\r\n")).flatten ∧
      (∀ x ∈ lines, NoLf x.2) ∧ lines.filterMap Prod.fst = calendarProps c ∧ (∀ x ∈ lines, LineOf x.1 x.2) ∧
      ∀ p line, (some p, line) ∈ lines → ∃ head, line = head ++ ':' :: rawText p ∧ p.key <+: head ∧
        ∀ word, SearchWord word → (word <:+: line ↔ word <:+: head ∨ word <:+: p.val ∨ FoundAfterBreak p word) := by
  unfold Calendar.fmtWrite at h
  cases hps : fmtProps c.props (w.sub 0) with
  | error e => simp only [hps] at h; cases h
  | ok ps =>
    cases hcs : fmtComps c.comps (w.sub 1) with
    | error e => simp only [hps, hcs] at h; cases h
    | ok cs =>
      simp only [hps, hcs] at h
      cases h
      have hb := traced_component (name := c!"VCALENDAR") (by decide)
        (traced_append (traced_props hp (worldOk_sub hw 0) hps) (traced_comps _ hc (worldOk_sub hw 1) hcs))
      obtain ⟨ls, he, hf, hl⟩ := hb
      refine ⟨ls, ?_, fun x hx => he.1 _ (List.mem_map_of_mem hx), hf, hl, ?_⟩
      · have := (he.2 [] noIndent_nil).1
        simp only [List.append_nil, unfoldSpec, linesText, List.map_map] at this
        rw [unfold_eq_spec]
        simpa [Function.comp_def] using this
      · intro p line hx
        obtain ⟨params, forms, -, -, rfl⟩ := hl _ hx
        refine ⟨p.key ++ forms.flatten, rfl, List.prefix_append .., fun word hword => ?_⟩
        rw [infix_around (fun hc => (hword.2 _ hc).2.2.2.1 rfl), search_value p hword]

/-- **C143.** Nothing is missed: a word that stands in a value of the calendar or of one of its components, at any
depth, stands in the unfolded file. -/
theorem search_finds (c : Calendar) (hp : ∀ p ∈ c.props, PlainProp p) (hc : ∀ x ∈ c.comps, PlainOther x.toOther)
    (w : World) (hw : World.Ok w) (out : Str) (h : c.fmtWrite w = .ok out) {p : Property} (hm : p ∈ calendarProps c)
    {word : Str} (hword : SearchWord word) (hv : word <:+: p.val) : word <:+: unfold out := by
  obtain ⟨lines, h1, -, h3, -, h5⟩ := search_lines c hp hc w hw out h
  rw [← h3, List.mem_filterMap] at hm
  obtain ⟨⟨o, line⟩, hx, rfl⟩ := hm
  obtain ⟨head, -, -, h6⟩ := h5 p line hx
  refine ((h6 word hword).2 (.inr (.inl hv))).trans ?_
  rw [h1]
  obtain ⟨a, b, rfl⟩ := List.append_of_mem hx
  exact ⟨(a.map (fun x => x.2 ++ c!"\r\n")).flatten, c!"\r\n" ++ (b.map (fun x => x.2 ++ c!"\r\n")).flatten, by simp⟩

/-- the text of every property stands in the text -/
def HasTexts (out : Str) (props : List Property) : Prop :=
  ∀ p ∈ props, ∃ w' t, World.Ok w' ∧ p.fmtWrite w' = .ok t ∧ t <:+: out

theorem hasTexts_append {a b : Str} {pa pb : List Property} (ha : HasTexts a pa) (hb : HasTexts b pb) :
    HasTexts (a ++ b) (pa ++ pb) := by
  intro p hp
  rcases List.mem_append.1 hp with hp | hp
  · obtain ⟨w', t, h1, h2, h3⟩ := ha p hp
    exact ⟨w', t, h1, h2, h3.trans (List.prefix_append a b).isInfix⟩
  · obtain ⟨w', t, h1, h2, h3⟩ := hb p hp
    exact ⟨w', t, h1, h2, h3.trans (List.suffix_append a b).isInfix⟩

theorem hasTexts_within {a : Str} {pa : List Property} (x y : Str) (ha : HasTexts a pa) : HasTexts (x ++ (a ++ y)) pa := by
  have h1 : HasTexts y [] := fun p hp => nomatch hp
  have h2 : HasTexts x [] := fun p hp => nomatch hp
  simpa using hasTexts_append h2 (hasTexts_append ha h1)

theorem hasTexts_props {l : List Property} {w : World} (hw : World.Ok w) {out : Str} (h : fmtProps l w = .ok out) :
    HasTexts out l := by
  induction l generalizing w out with
  | nil => exact fun p hp => nomatch hp
  | cons p l ih =>
    unfold fmtProps at h
    cases ha : p.fmtWrite (w.sub 0) with
    | error e => rw [ha] at h; cases h
    | ok a =>
      rw [ha] at h
      cases hb : fmtProps l (w.sub 1) with
      | error e => rw [hb] at h; cases h
      | ok b =>
        rw [hb] at h
        cases h
        refine hasTexts_append (pa := [p]) ?_ (ih (worldOk_sub hw 1) hb)
        intro q hq
        obtain rfl := List.mem_singleton.1 hq
        exact ⟨_, a, worldOk_sub hw 0, ha, List.infix_rfl⟩

mutual
theorem hasTexts_other (o : Other) {w : World} (hw : World.Ok w) {out : Str} (h : o.fmtWrite w = .ok out) :
    HasTexts out (propsWithin o) := by
  match o with
  | .mk name props multi comps =>
    unfold Other.fmtWrite at h
    cases hps : fmtProps props.values (w.sub 0) with
    | error e => simp only [hps] at h; cases h
    | ok ps =>
      cases hms : fmtProps multi.values.flatten (w.sub 1) with
      | error e => simp only [hps, hms] at h; cases h
      | ok ms =>
        cases hcs : fmtOthers comps (w.sub 2) with
        | error e => simp only [hps, hms, hcs] at h; cases h
        | ok cs =>
          simp only [hps, hms, hcs] at h
          cases h
          have h1 : HasTexts ps (props.map Prod.snd) := hasTexts_props (worldOk_sub hw 0) hps
          have h2 : HasTexts ms (multi.flatMap Prod.snd) := by
            rw [List.flatMap_def]
            exact hasTexts_props (worldOk_sub hw 1) hms
          have h3 := hasTexts_others comps (worldOk_sub hw 2) hcs
          rw [propsWithin]
          have := hasTexts_within (c!"BEGIN:" ++ name ++ crlf ++
            (if props.containsKey c!"DTSTAMP" then [] else c!"DTSTAMP:" ++ fmtUtc (w.now []) ++ crlf))
            (c!"END:" ++ name ++ crlf) (hasTexts_append h1 (hasTexts_within
              (if props.containsKey c!"UID" then [] else c!"UID:" ++ w.uuid [] ++ crlf) [] (hasTexts_append h2 h3)))
          simpa only [List.append_assoc, List.append_nil] using this
theorem hasTexts_others (l : List Other) {w : World} (hw : World.Ok w) {out : Str} (h : fmtOthers l w = .ok out) :
    HasTexts out (propsWithinAll l) := by
  match l with
  | [] => rw [propsWithinAll]; exact fun p hp => nomatch hp
  | o :: l =>
    unfold fmtOthers at h
    cases ha : o.fmtWrite (w.sub 0) with
    | error e => rw [ha] at h; cases h
    | ok a =>
      rw [ha] at h
      cases hb : fmtOthers l (w.sub 1) with
      | error e => rw [hb] at h; cases h
      | ok b =>
        rw [hb] at h
        cases h
        rw [propsWithinAll]
        exact hasTexts_append (hasTexts_other o (worldOk_sub hw 0) ha) (hasTexts_others l (worldOk_sub hw 1) hb)
end

theorem hasTexts_comps (l : List CalComp) {w : World} (hw : World.Ok w) {out : Str} (h : fmtComps l w = .ok out) :
    HasTexts out (propsWithinAll (l.map CalComp.toOther)) := by
  induction l generalizing w out with
  | nil => rw [List.map_nil, propsWithinAll]; exact fun p hp => nomatch hp
  | cons x l ih =>
    unfold fmtComps at h
    rw [calComp_fmtWrite] at h
    cases ha : x.toOther.fmtWrite (w.sub 0) with
    | error e => rw [ha] at h; cases h
    | ok a =>
      rw [ha] at h
      cases hb : fmtComps l (w.sub 1) with
      | error e => rw [hb] at h; cases h
      | ok b =>
        rw [hb] at h
        cases h
        rw [List.map_cons, propsWithinAll]
        exact hasTexts_append (hasTexts_other _ (worldOk_sub hw 0) ha) (ih (worldOk_sub hw 1) hb)

/-- **C143.** In the file as it is, without unfolding it, words in the values of properties are found if the lines of
these properties have at most 75 octets. -/
theorem search_short (c : Calendar) (w : World) (hw : World.Ok w) (out : Str) (h : c.fmtWrite w = .ok out) {p : Property}
    (hm : p ∈ calendarProps c) (hs : ∀ line, ContentLine p line → blen line ≤ 75) {word : Str}
    (hword : SearchWord word) (hv : word <:+: p.val) : word <:+: out := by
  have key : HasTexts out (calendarProps c) := by
    unfold Calendar.fmtWrite at h
    cases hps : fmtProps c.props (w.sub 0) with
    | error e => simp only [hps] at h; cases h
    | ok ps =>
      cases hcs : fmtComps c.comps (w.sub 1) with
      | error e => simp only [hps, hcs] at h; cases h
      | ok cs =>
        simp only [hps, hcs] at h
        cases h
        have := hasTexts_within (c!"BEGIN:VCALENDAR" ++ crlf) (c!"END:VCALENDAR" ++ crlf)
          (hasTexts_append (hasTexts_props (worldOk_sub hw 0) hps) (hasTexts_comps _ (worldOk_sub hw 1) hcs))
        simpa only [List.append_assoc, calendarProps] using this
  obtain ⟨w', t, h1, h2, h3⟩ := key p hm
  have hl := line_contentLine p h1
  unfold Property.fmtWrite at h2
  rw [fold_short _ (hs _ hl)] at h2
  cases h2
  refine List.IsInfix.trans ?_ h3
  obtain ⟨params, forms, -, -, e⟩ := hl
  rw [e]
  exact ((search_value p hword).2 (.inl hv)).trans ⟨p.key ++ forms.flatten ++ [':'], crlf, by simp⟩

omit [Uni] in
theorem infix_joinFold {w : Str} (hn : '\n' ∉ w) (hr : '\r' ∉ w) (hne : w ≠ []) (q : Str) (qs : List Str) :
    w <:+: joinFold (q :: qs) ++ ['\r', '\n'] ↔ w <:+: q ∨ ∃ x ∈ qs, w <:+: ' ' :: x := by
  have hnil : ¬ w <:+: [] := fun h => hne (List.eq_nil_of_infix_nil h)
  have step : ∀ a b : Str, w <:+: a ++ '\r' :: '\n' :: b ↔ w <:+: a ∨ w <:+: b := by
    intro a b
    rw [infix_around hr, show '\n' :: b = [] ++ '\n' :: b from rfl, infix_around hn]
    simp only [hnil, false_or]
  induction qs generalizing q with
  | nil =>
    simp only [joinFold]
    rw [step]
    simp [hnil]
  | cons x qs ih =>
    have e : joinFold (q :: x :: qs) ++ ['\r', '\n'] = q ++ '\r' :: '\n' :: (joinFold ((' ' :: x) :: qs) ++ ['\r', '\n']) := by
      cases qs <;> simp [joinFold]
    have ih : w <:+: joinFold ((' ' :: x) :: qs) ++ ['\r', '\n'] ↔ w <:+: ' ' :: x ∨ ∃ y ∈ qs, w <:+: ' ' :: y := ih (' ' :: x)
    rw [e, step, ih]
    simp only [List.mem_cons, exists_eq_or_imp]

/-- **C143.** What is found in the file as it is, for every property that can be written: a word is found exactly if it
stands in one of the pieces in which the line is cut, each piece but the first one having a space before it. -/
theorem search_folded (p : Property) (w : World) (hw : World.Ok w) (out : Str) (h : p.fmtWrite w = .ok out) :
    ∃ line q qs, ContentLine p line ∧ line = (q :: qs).flatten ∧
      ∀ word, SearchWord word → '\r' ∉ word → (word <:+: out ↔ word <:+: q ∨ ∃ x ∈ qs, word <:+: ' ' :: x) := by
  obtain ⟨line, q, qs, h1, h2, -, rfl⟩ := written_property p w hw out h
  exact ⟨line, q, qs, h1, h2, fun word hword hr => infix_joinFold (fun hc => (hword.2 _ hc).2.2.2.2 rfl) hr hword.1 q qs⟩

/-- a summary of ordinary length -/
def longSummary : Property :=
  .new c!"SUMMARY" c!"Minutes of the meeting about the budget for the next year and November plans"

/-- what is written for it -/
def longSummaryText : Str :=
  c!"SUMMARY:Minutes of the meeting about the budget for the next year and Novem\r\n ber plans\r\n"

/-- a summary in two lines -/
def brokenSummary : Property := .new c!"SUMMARY" c!"a plan\november"

/-- **C143.** What is found is not exactly what is there. In the file as it is, words are missed where a line is
folded; and in the unfolded file, words that start with N are found that are in no value. -/
theorem search_violated : (∃ out, (∀ w, World.Ok w → longSummary.fmtWrite w = .ok out) ∧ c!"November" <:+: longSummary.val ∧
      ¬ c!"November" <:+: out) ∧
    c!"November" <:+: rawText brokenSummary ∧ ¬ c!"November" <:+: brokenSummary.val := by
  refine ⟨⟨longSummaryText, fun w hw => ?_, by decide +kernel, by decide +kernel⟩, by decide +kernel, by decide +kernel⟩
  have hl : longSummary.line w = c!"SUMMARY:" ++ longSummary.val := by
    have ho : w.order [] longSummary.params = [] := (hw.order [] []).eq_nil
    unfold Property.line
    rw [ho, valueText_of_text ((isText_iff _).1 (by decide +kernel)),
      show escapeText longSummary.val = longSummary.val by decide +kernel]
    rfl
  unfold Property.fmtWrite
  rw [hl, show foldLine (c!"SUMMARY:" ++ longSummary.val) = .ok (longSummaryText.take (longSummaryText.length - 2)) by
    decide +kernel]
  rfl

end Ical
