import Verif.Proofs.ParseNames
import Verif.Proofs.UnfoldDoc
import Verif.Proofs.ParsePrefix
import Verif.Model.Calendar

/-!
Properties C16–C21, C23, C24 and C32: what the parser does with arbitrary and with well-formed text.
-/

namespace Ical

open Nom Spec

variable [Uni]

/-! ### C16 -/

/-- **C16.** `component` needs no step budget: it satisfies the recursion equation of the code, it is the
only function that does (a recursion that could run forever on some input would leave the value there
undetermined), and every recursive call is made on a strictly shorter input. -/
theorem component_terminates :
    (∀ i, component i = componentBody component i) ∧
    (∀ f : P PComp, (∀ i, f i = componentBody f i) → f = component) ∧
    (∀ (f : P PComp) (i : Str), (∀ j, j.length < i.length → component j = f j) →
      componentBody component i = componentBody f i) :=
  ⟨component_eq, component_unique, fun _ _ h => componentBody_congr shrinks_component h⟩

omit [Uni] in
/-- **C16.** `many0` and `many_till` need no step budget either when their element parser returns
suffixes of its input, as every parser of the crate does. -/
theorem repetition_terminates {α β : Type} (p : P α) (g : P β) (h : Shrinks p) :
    (∀ f : P (List α), (∀ i, f i = match p i with
      | .error => .ok i []
      | .failure => .failure
      | .ok r a =>
        if r.length = i.length then .error
        else match f r with
          | .ok r' l => .ok r' (a :: l)
          | .error => .error
          | .failure => .failure) ↔ f = many0 p) ∧
    (∀ f : P (List α × β), (∀ i, f i = match g i with
      | .ok r b => .ok r ([], b)
      | .failure => .failure
      | .error =>
        match p i with
        | .error => .error
        | .failure => .failure
        | .ok r a =>
          if r.length = i.length then .error
          else match f r with
            | .ok r' (l, b) => .ok r' (a :: l, b)
            | .error => .error
            | .failure => .failure) ↔ f = manyTill p g) := by
  constructor
  · intro f
    constructor
    · intro hf
      funext i
      suffices ∀ n i, i.length < n → f i = many0 p i from this _ i (Nat.lt_succ_self _)
      intro n
      induction n with
      | zero => intro i hi; omega
      | succ n ih =>
        intro i hi
        rw [hf, many0_eq h]
        cases hp : p i with
        | error => rfl
        | failure => rfl
        | ok r a =>
          have := (h _ _ _ hp).length_le
          simp only
          split
          · rfl
          · rw [ih r (by omega)]
            cases many0 p r <;> rfl
    · rintro rfl i
      exact many0_eq h i
  · intro f
    constructor
    · intro hf
      funext i
      suffices ∀ n i, i.length < n → f i = manyTill p g i from this _ i (Nat.lt_succ_self _)
      intro n
      induction n with
      | zero => intro i hi; omega
      | succ n ih =>
        intro i hi
        rw [hf, manyTill_eq h]
        cases hg : g i with
        | ok r b => rfl
        | failure => rfl
        | error =>
          simp only
          cases hp : p i with
          | error => rfl
          | failure => rfl
          | ok r a =>
            have := (h _ _ _ hp).length_le
            simp only
            split
            · rfl
            · rw [ih r (by omega)]
              cases manyTill p g r <;> rfl
    · rintro rfl i
      exact manyTill_eq h i

/-- **C16.** The element parsers that the crate repeats satisfy the hypothesis of
`repetition_terminates`: line endings, line feeds, parameters, children of a component, and whole
components. -/
theorem repeated_parsers_shrink :
    Shrinks lineEnding ∧ Shrinks (tag ['\n']) ∧ Shrinks parameter ∧
    Shrinks (componentChild component) ∧ Shrinks (allConsuming component) :=
  ⟨shrinks_lineEnding, shrinks_tag _, shrinks_parameter, shrinks_componentChild shrinks_component,
    shrinks_allConsuming shrinks_component⟩

/-! ### Reading well-formed documents -/

omit [Uni] in
theorem lineEnding_nil : lineEnding [] = .error := rfl

/-- the root component of a well-formed document -/
theorem component_doc {br : Break} {b e name : Str} {items : List Item}
    (h : (Item.comp b e name items).Ok br) (hq : br = .lf → '\r' ∉ (Item.comp b e name items).text br) :
    component ((Item.comp b e name items).text br) = .ok [] (.mk name (itemsProps items) (itemsComps items)) := by
  have := component_ok h (r := []) lineEnding_nil (by simpa using hq)
  simpa using this

/-! ### C17 -/

/-- **C17 (partial).** A document with one root component gives exactly that component. -/
theorem one_root_partial {br : Break} {b e name : Str} {items : List Item}
    (h : (Item.comp b e name items).Ok br) (hq : br = .lf → '\r' ∉ (Item.comp b e name items).text br) :
    readComponents ((Item.comp b e name items).text br) =
      some [.mk name (itemsProps items) (itemsComps items)] := by
  unfold readComponents
  rw [components_ok (component_doc h hq)]
  rfl

/-- **C17 (violated).** Whenever a well-formed root component is followed by another one (or by anything
that is not blank), the result is an empty list: all components are lost without an error. -/
theorem two_roots_violated {br : Break} {b e name : Str} {items : List Item} {rest : Str}
    (h : (Item.comp b e name items).Ok br) (hne : rest ≠ []) (hr : lineEnding rest = .error)
    (hq : br = .lf → '\r' ∉ (Item.comp b e name items).text br ++ rest) :
    readComponents ((Item.comp b e name items).text br ++ rest) = some [] := by
  unfold readComponents
  rw [components_none (.inr ⟨rest, _, hne, component_ok h hr hq⟩)]
  rfl

/-- **C17.** No input whatsoever yields more than one root component. -/
theorem at_most_one_root (i : Str) (l : List PComp) (h : readComponents i = some l) : l.length ≤ 1 := by
  unfold readComponents at h
  rcases components_cases i with ⟨c, -, hc⟩ | ⟨-, hc⟩ | ⟨-, hc⟩
  · rw [hc] at h; cases h; simp
  · rw [hc] at h; cases h; simp
  · rw [hc] at h; cases h

/-- two calendars with an event each are well-formed; together they are read as nothing -/
example : (@readComponents Uni.ascii (c!"BEGIN:VCALENDAR\r\nBEGIN:VEVENT\r\nUID:1\r\nEND:VEVENT\r\nEND:VCALENDAR\r\n" ++
    c!"BEGIN:VCALENDAR\r\nBEGIN:VEVENT\r\nUID:2\r\nEND:VEVENT\r\nEND:VCALENDAR\r\n")).map
      List.length = some 0 := by decide +kernel

/-! ### C18 -/

/-- **C18 (partial).** If the input ends while a nested component is open, at any depth, the parse
fails. -/
theorem truncated_nested_partial {br : Break} {fs : List Frame} (h : FramesOk br fs) (hne : fs ≠ [])
    {n : Str} {items : List Item} (hf : FramesOk br [(c!"BEGIN:", n, items)])
    (hq : br = .lf → '\r' ∉ openText br (fs ++ [(c!"BEGIN:", n, items)])) :
    readCalendar (openText br (fs ++ [(c!"BEGIN:", n, items)])) = none := by
  have hc := open_unclosed h hne hf (t := []) lineEnding_nil (by simpa using hq) (body_eof n)
  rw [List.append_nil] at hc
  unfold readCalendar
  rw [components_failure hc]
  rfl

/-- **C18 (violated).** If the input ends while only the root component is open, an empty calendar is
returned and no error, however much content was there. -/
theorem truncated_root_violated {br : Break} {b n : Str} {items : List Item}
    (hf : FramesOk br [(b, n, items)]) (hq : br = .lf → '\r' ∉ openText br [(b, n, items)]) :
    readCalendar (openText br [(b, n, items)]) = some ⟨[], []⟩ := by
  simp only [FramesOk] at hf
  have hc : component (openText br [(b, n, items)]) = .error := by
    have := component_frame hf.1 hf.2.1 hf.2.2.1 (t := []) lineEnding_nil (by
      intro hbr; have := hq hbr; simp [openText] at this ⊢; simp [this])
    rw [body_eof] at this
    simpa [openText] using this
  unfold readCalendar
  rw [components_none (.inl hc)]
  rfl

/-- a clean document with LF line breaks has no CR -/
theorem clean_noCr (it : Item) (h : it.Ok .lf) (hc : it.Clean) : '\r' ∉ it.text .lf := by
  induction it using Item.rec (motive_2 := fun l => ItemsOk .lf l → ItemsClean l → '\r' ∉ itemsText .lf l) with
  | prop k ps v =>
    simp only [Item.Clean] at hc
    rw [Item.text, List.mem_append, not_or]
    exact ⟨hc.1, by decide⟩
  | comp b e n l ih =>
    simp only [Item.Ok, Item.Clean] at h hc
    have hn := name_not_mem h.2.2.1 isKeyChar_cr
    simp only [Item.text, List.mem_append, not_or]
    exact ⟨⟨⟨⟨keyword_not_mem h.1 (by decide), hn⟩, by decide⟩, ih h.2.2.2 hc.2⟩,
      ⟨keyword_not_mem h.2.1 (by decide), hn⟩, by decide⟩
  | nil => simp [itemsText]
  | cons i l ih1 ih2 =>
    rename_i h1 h2
    simp only [ItemsOk, ItemsClean] at h1 h2
    simp only [itemsText, List.mem_append, not_or]
    exact ⟨ih1 h1.1 h2.1, ih2 h1.2 h2.2⟩

/-- **C18 (partial).** A document cut off at any place, even in the middle of a line or of a line break,
is rejected, read as nothing at all, or (when only the last line break is missing) read in full: no
calendar with a part of the content is ever returned. -/
theorem truncated_anywhere_partial {br : Break} {b e n : Str} {items : List Item}
    (h : (Item.comp b e n items).Ok br) (hc : (Item.comp b e n items).Clean) {s : Str}
    (hs : s <+: (Item.comp b e n items).text br) :
    (readCalendar s = none ∧ readComponents s = none) ∨
    (readCalendar s = some ⟨[], []⟩ ∧ readComponents s = some []) ∨
    (readCalendar s = readCalendar ((Item.comp b e n items).text br) ∧
      readComponents s = readComponents ((Item.comp b e n items).text br) ∧
      ∃ t, s = b ++ n ++ br.text ++ itemsText br items ++ (e ++ n ++ t) ∧ t <+: br.text) := by
  have hq : br = .lf → '\r' ∉ s := by
    intro hbr; subst hbr
    exact prefix_mem hs (clean_noCr _ h hc)
  have hq' : br = .lf → '\r' ∉ (Item.comp b e n items).text br := by
    intro hbr; subst hbr
    exact clean_noCr _ h hc
  have hfull := components_ok (component_doc h hq')
  unfold readCalendar readComponents
  rcases component_prefix _ rfl h hc hq hs with hn | ⟨t, rfl, ht⟩
  · cases hco : component s with
    | ok r x => exact absurd hco (hn _ _)
    | error => rw [components_none (.inl hco)]; exact .inr (.inl ⟨rfl, rfl⟩)
    | failure => rw [components_failure hco]; exact .inl ⟨rfl, rfl⟩
  · rcases prefix_break_cases ht with rfl | hnl
    · right; right
      exact ⟨rfl, rfl, _, rfl, ht⟩
    · have hco := component_short h hnl hq
      by_cases htn : t = []
      · subst htn
        right; right
        rw [components_ok hco, hfull]
        exact ⟨rfl, rfl, _, rfl, ht⟩
      · right; left
        rw [components_none (.inr ⟨t, _, htn, hco⟩)]
        exact ⟨rfl, rfl⟩

omit [Uni] in
/-- the hypotheses hold, and all three outcomes occur: cut inside an event, inside a calendar property,
and before the last line break -/
example : let it : Item := .comp c!"BEGIN:" c!"END:" c!"VCALENDAR" [.prop c!"NAME" [] c!"x",
      .comp c!"BEGIN:" c!"END:" c!"VEVENT" [.prop c!"UID" [⟨c!"A", some (true, c!"b:c")⟩] c!"1"]]
    it.Clean ∧ @Item.Ok Uni.ascii .crlf it ∧
    (@readComponents Uni.ascii ((it.text .crlf).take 52)).isNone = true ∧
    (@readComponents Uni.ascii ((it.text .crlf).take 22)).map List.length = some 0 ∧
    (@readComponents Uni.ascii ((it.text .crlf).take ((it.text .crlf).length - 2))).map List.length = some 1 := by
  refine ⟨?_, ?_, by decide +kernel, by decide +kernel, by decide +kernel⟩
  · simp only [Item.Clean, ItemsClean, and_true]
    decide +kernel
  · simp only [Item.Ok, ItemsOk, ValOk, DParam.Ok, and_true, List.forall_mem_cons,
      List.not_mem_nil, false_implies, implies_true]
    repeat' apply And.intro
    all_goals decide +kernel

/-- **C18 (partial).** A non-empty calendar or component list is only ever returned for an input in which
the root component is opened and closed, on every input. -/
theorem root_closed_partial (i : Str) (c : PComp) (l : List PComp) (h : readComponents i = some (c :: l)) :
    ∃ pre b mid e post, i = pre ++ b ++ c.name ++ mid ++ e ++ c.name ++ post ∧
      b.map lowerAscii = c!"begin:" ∧ e.map lowerAscii = c!"end:" := by
  unfold readComponents at h
  rcases components_cases i with ⟨d, hd, hc⟩ | ⟨-, hc⟩ | ⟨-, hc⟩
  · rw [hc] at h
    cases h
    obtain ⟨pre, b, mid, e, post, h1, -, h2, h3⟩ := component_closed hd
    exact ⟨pre, b, mid, e, post, h1, h2, h3⟩
  · rw [hc] at h; cases h
  · rw [hc] at h; cases h

example : readCalendar c!"BEGIN:VCALENDAR\r\nBEGIN:VEVENT\r\nUID:1\r\nBEGIN:VALARM\r\n" = none ∧
    (readCalendar c!"BEGIN:VCALENDAR\r\nNAME:x\r\nBEGIN:VEVENT\r\nUID:1\r\nEND:VEVENT\r\n").map
      (fun c => (c.props.length, c.comps.length)) = some (0, 0) := by
  constructor <;> rfl

/-! ### C19 -/

/-- **C19.** An `END:` line whose name does not start with the name of the innermost open component makes
the whole parse fail, whatever follows. -/
theorem mismatched_end {br : Break} {fs : List Frame} (h : FramesOk br fs) {b n : Str} {items : List Item}
    (hf : FramesOk br [(b, n, items)]) {e rest : Str} (he : e.map lowerAscii = c!"end:")
    (hne : ¬ n <+: rest)
    (hq : br = .lf → '\r' ∉ openText br (fs ++ [(b, n, items)]) ++ (e ++ rest)) :
    readCalendar (openText br (fs ++ [(b, n, items)]) ++ (e ++ rest)) = none ∧
    readComponents (openText br (fs ++ [(b, n, items)]) ++ (e ++ rest)) = none ∧
    readComponent (openText br (fs ++ [(b, n, items)]) ++ (e ++ rest)) = none := by
  have hle : lineEnding (e ++ rest) = .error := keyword_lineEnding he (by decide) (by decide)
  have hend : componentEnd n (e ++ rest) = .failure := by
    apply lineSeparated_failure hle
    unfold complete preceded map pair
    rw [tagNoCase_ok (by rw [he]; decide)]
    have : tag n rest = .error := by
      unfold tag
      rw [if_neg]
      rw [List.isPrefixOf_iff_prefix]
      exact hne
    simp [cut, this]
  have hbody : manyTill (componentChild component) (componentEnd n) (e ++ rest) = .failure := by
    rw [manyTill_eq (shrinks_componentChild shrinks_component), hend]
  have hc := open_failure h hf hle hq hbody
  unfold readCalendar readComponents readComponent
  rw [components_failure hc, hc]
  simp [finish]

/-- the hypotheses hold: an event closed as a todo inside a calendar -/
example : readCalendar c!"BEGIN:VCALENDAR\r\nBEGIN:VEVENT\r\nUID:1\r\nEND:VTODO\r\nEND:VCALENDAR\r\n" = none ∧
    ¬ c!"VEVENT" <+: c!"VTODO\r\nEND:VCALENDAR\r\n" := by
  refine ⟨by rfl, by decide⟩

/-! ### C20 -/

omit [Uni] in
/-- a line that starts like a keyword is neither the start nor the end of a component -/
theorem keyword_name_plain {t : Str}
    (ht : (c!"END" <+: t ∧ ¬ c!"END:" <+: t) ∨ (c!"BEGIN" <+: t ∧ ¬ c!"BEGIN:" <+: t)) :
    prefixNoCase c!"END:" t = false ∧ prefixNoCase c!"BEGIN:" t = false := by
  have hcolon : ∀ c : Char, lowerAscii ':' = lowerAscii c → c = ':' := by
    intro c hc
    exact lowerAscii_eq (by decide) hc.symm
  rcases ht with ⟨⟨s, rfl⟩, h2⟩ | ⟨⟨s, rfl⟩, h2⟩
  · refine ⟨?_, by rfl⟩
    cases s with
    | nil => rfl
    | cons c s =>
      have : c ≠ ':' := by rintro rfl; exact h2 ⟨s, rfl⟩
      have h3 : lowerAscii ':' ≠ lowerAscii c := fun hc => this (hcolon c hc)
      simp [prefixNoCase, h3]
  · refine ⟨by rfl, ?_⟩
    cases s with
    | nil => rfl
    | cons c s =>
      have : c ≠ ':' := by rintro rfl; exact h2 ⟨s, rfl⟩
      have h3 : lowerAscii ':' ≠ lowerAscii c := fun hc => this (hcolon c hc)
      simp [prefixNoCase, h3]

/-- **C20.** A line inside a component that starts with `BEGIN` or `END` but not with the keyword
`BEGIN:` or `END:` makes the whole parse fail, whatever follows. -/
theorem keyword_names_rejected {br : Break} {fs : List Frame} (h : FramesOk br fs) {b n : Str}
    {items : List Item} (hf : FramesOk br [(b, n, items)]) {t : Str}
    (ht : (c!"END" <+: t ∧ ¬ c!"END:" <+: t) ∨ (c!"BEGIN" <+: t ∧ ¬ c!"BEGIN:" <+: t))
    (hq : br = .lf → '\r' ∉ openText br (fs ++ [(b, n, items)]) ++ t) :
    readCalendar (openText br (fs ++ [(b, n, items)]) ++ t) = none ∧
    readComponents (openText br (fs ++ [(b, n, items)]) ++ t) = none ∧
    readComponent (openText br (fs ++ [(b, n, items)]) ++ t) = none := by
  have hpre : c!"END" <+: t ∨ c!"BEGIN" <+: t := by
    rcases ht with h | h
    · exact .inl h.1
    · exact .inr h.1
  have hnk := keyword_name_plain ht
  have hle : lineEnding t = .error := by
    rcases hpre with ⟨s, rfl⟩ | ⟨s, rfl⟩ <;> exact lineEnding_cons_error (by decide) (by decide)
  have hbody : manyTill (componentChild component) (componentEnd n) t = .failure := by
    rw [manyTill_eq (shrinks_componentChild shrinks_component)]
    have h1 : componentEnd n t = .error := line_error hle hnk.1
    have h2 : componentChild component t = .failure := by
      unfold componentChild cut alt map
      rw [lineSeparated_error hle (component_error hle hnk.2),
        lineSeparated_failure hle (property_failure hpre)]
    simp only [h1, h2]
  have hc := open_failure h hf hle hq hbody
  unfold readCalendar readComponents readComponent
  rw [components_failure hc, hc]
  simp [finish]

example : readCalendar c!"BEGIN:VCALENDAR\r\nNAME:x\r\nENDING:soon\r\nEND:VCALENDAR\r\n" = none ∧
    readCalendar c!"BEGIN:VCALENDAR\r\nBEGIN:VEVENT\r\nBEGIN;X=1:soon\r\nEND:VEVENT\r\nEND:VCALENDAR\r\n" = none := by
  constructor <;> rfl

/-! ### C21 -/

/-- **C21.** Which ASCII characters names consist of: letters, digits, and `. , / _ -`. -/
theorem name_char_ascii {c : Char} (h : c.toNat < 128) :
    NameChar c ↔ ('A' ≤ c ∧ c ≤ 'Z') ∨ ('a' ≤ c ∧ c ≤ 'z') ∨ ('0' ≤ c ∧ c ≤ '9') ∨ c ∈ ['.', ',', '/', '_', '-'] := by
  have hle : ∀ a b : Char, a ≤ b ↔ a.toNat ≤ b.toNat := fun a b => Iff.rfl
  unfold NameChar
  rw [← or_assoc, ← or_assoc]
  refine or_congr ?_ Iff.rfl
  simp only [hle]
  unfold isAlnum
  rw [if_pos h]
  simp only [Bool.or_eq_true, Bool.and_eq_true, decide_eq_true_eq]
  have e : ('A').toNat = 0x41 ∧ ('Z').toNat = 0x5A ∧ ('a').toNat = 0x61 ∧ ('z').toNat = 0x7A ∧ ('0').toNat = 0x30 ∧
      ('9').toNat = 0x39 := by decide
  omega

/-- letters are name characters, blanks are not -/
example : NameChar 'x' ∧ NameChar '-' ∧ ¬ NameChar ' ' ∧ ¬ NameChar ':' := by
  rw [name_char_ascii (by decide), name_char_ascii (by decide), name_char_ascii (by decide), name_char_ascii (by decide)]
  decide

/-- **C21.** Every name in every result of `read_components` consists of name characters, and every value
is the (possibly unescaped) text of a single line, at any depth and for every input. -/
theorem parsed_names (i : Str) :
    (∀ l, readComponents i = some l → ∀ c ∈ l, PCompOk c) ∧
    (∀ c, readComponent i = some c → PCompOk c) ∧
    (∀ p, readProperty i = some p → PPropOk p) ∧
    (∀ c, readCalendar i = some c → (∀ p ∈ c.props, PPropOk p) ∧ PCompsOk c.comps) := by
  have hcs : ∀ l, readComponents i = some l → ∀ c ∈ l, PCompOk c := by
    intro l h
    unfold readComponents at h
    rcases components_cases i with ⟨d, hd, hc⟩ | ⟨-, hc⟩ | ⟨-, hc⟩
    · rw [hc] at h
      cases h
      simpa using gives_component _ _ _ hd
    · rw [hc] at h; cases h; simp
    · rw [hc] at h; cases h
  refine ⟨hcs, ?_, ?_, ?_⟩
  · intro c h
    unfold readComponent at h
    cases hc : component i with
    | ok r d => rw [hc] at h; cases h; exact gives_component _ _ _ hc
    | error => rw [hc] at h; cases h
    | failure => rw [hc] at h; cases h
  · intro p h
    unfold readProperty at h
    cases hc : property i with
    | ok r d => rw [hc] at h; cases h; exact gives_property _ _ _ hc
    | error => rw [hc] at h; cases h
    | failure => rw [hc] at h; cases h
  · intro c h
    unfold readCalendar at h
    cases hl : finish (components i) with
    | none => rw [hl] at h; cases h
    | some l =>
      rw [hl] at h
      have hok := hcs l hl
      cases l with
      | nil => cases h; exact ⟨by simp, trivial⟩
      | cons root rest =>
        have hr := hok root (by simp)
        obtain ⟨n, ps, cs⟩ := root
        simp only at h
        split at h
        · cases h
          exact ⟨hr.2.1, hr.2.2⟩
        · cases h
          exact ⟨by simp, pcompsOk_of hok⟩

/-! ### C23 -/

/-- a document without CR that is well-formed with LF is well-formed with CRLF -/
theorem ok_crlf_of_lf :
    (∀ it : Item, it.Ok .lf → '\r' ∉ it.text .lf → it.Ok .crlf) ∧
    (∀ l : List Item, ItemsOk .lf l → '\r' ∉ itemsText .lf l → ItemsOk .crlf l) := by
  suffices h : ∀ it : Item, it.Ok .lf → '\r' ∉ it.text .lf → it.Ok .crlf by
    refine ⟨h, ?_⟩
    intro l
    induction l with
    | nil => intros; trivial
    | cons i l ih =>
      intro h1 h2
      simp only [ItemsOk, itemsText, List.mem_append, not_or] at h1 h2 ⊢
      exact ⟨h i h1.1 h2.1, ih h1.2 h2.2⟩
  intro it
  induction it using Item.rec (motive_2 := fun l => ItemsOk .lf l → '\r' ∉ itemsText .lf l → ItemsOk .crlf l) with
  | prop k ps v =>
    intro h1 h2
    simp only [Item.Ok, ValOk] at h1 ⊢
    refine ⟨h1.1, h1.2.1, ?_⟩
    intro hc
    apply h2
    simp only [Item.text, List.mem_append]
    exact .inl (.inr (hc.mem (by simp)))
  | comp b e n l ih =>
    intro h1 h2
    simp only [Item.Ok, Item.text, List.mem_append, not_or] at h1 h2 ⊢
    exact ⟨h1.1, h1.2.1, h1.2.2.1, ih h1.2.2.2 h2.1.2⟩
  | nil => intros; trivial
  | cons i l ih1 ih2 =>
    rename_i h1 h2
    simp only [ItemsOk, itemsText, List.mem_append, not_or] at h1 h2 ⊢
    exact ⟨ih1 h1.1 h2.1, ih2 h1.2 h2.2⟩

/-- **C23.** A document (any component tree) reads the same with LF and with CRLF line breaks. -/
theorem lf_crlf_same {b e name : Str} {items : List Item} (h : (Item.comp b e name items).Ok .lf)
    (hcr : '\r' ∉ (Item.comp b e name items).text .lf) :
    readCalendar ((Item.comp b e name items).text .lf) = readCalendar ((Item.comp b e name items).text .crlf) ∧
    readComponents ((Item.comp b e name items).text .lf) =
      readComponents ((Item.comp b e name items).text .crlf) ∧
    readComponent ((Item.comp b e name items).text .lf) =
      readComponent ((Item.comp b e name items).text .crlf) ∧
    readComponent ((Item.comp b e name items).text .lf) =
      some (.mk name (itemsProps items) (itemsComps items)) := by
  have h1 := component_doc h (fun _ => hcr)
  have h2 := component_doc (ok_crlf_of_lf.1 _ h hcr) (by simp)
  unfold readCalendar readComponents readComponent
  rw [components_ok h1, components_ok h2, h1, h2]
  simp [finish]

/-- **C23.** The same through `Calendar::from_str` and `CalendarComponent::from_str`, which unfold first. -/
theorem lf_crlf_from_str {b e name : Str} {items : List Item} (h : (Item.comp b e name items).Ok .lf)
    (hf : (Item.comp b e name items).Flat) (hcr : '\r' ∉ (Item.comp b e name items).text .lf) :
    Calendar.fromStr ((Item.comp b e name items).text .lf) =
      Calendar.fromStr ((Item.comp b e name items).text .crlf) ∧
    CalComp.fromStr ((Item.comp b e name items).text .lf) =
      CalComp.fromStr ((Item.comp b e name items).text .crlf) := by
  obtain ⟨h1, -, h2, -⟩ := lf_crlf_same h hcr
  unfold Calendar.fromStr CalComp.fromStr
  rw [unfold_doc h hf, unfold_doc (ok_crlf_of_lf.1 _ h hcr) hf, h1, h2]
  exact ⟨rfl, rfl⟩

/-- a calendar with an event used in the examples -/
def exampleDoc (b e : Str) : Item :=
  .comp b e c!"VCALENDAR" [.prop c!"NAME" [] c!"x\\,y",
    .comp c!"begin:" e c!"VEVENT" [.prop c!"DTSTART" [⟨c!"VALUE", some (false, c!"DATE")⟩, ⟨c!"X", some (true, c!"a:b")⟩]
      c!"20260101"]]

omit [Uni] in
theorem exampleDoc_ok (br : Break) : (@Item.Ok Uni.ascii br (exampleDoc c!"BEGIN:" c!"End:")) ∧
    (exampleDoc c!"BEGIN:" c!"End:").Flat ∧ '\r' ∉ (exampleDoc c!"BEGIN:" c!"End:").text .lf := by
  refine ⟨?_, ?_, by decide +kernel⟩
  · cases br <;>
    · simp only [exampleDoc, Item.Ok, ItemsOk, ValOk, DParam.Ok, and_true, List.forall_mem_cons,
        List.not_mem_nil, false_implies, implies_true]
      repeat' apply And.intro
      all_goals decide +kernel
  · simp only [exampleDoc, Item.Flat, ItemsFlat, MarkerFree]
    decide +kernel

/-! ### C24 -/

/-- documents equal up to keyword case mean the same -/
theorem same_up_to_case (br : Break) :
    (∀ it it' : Item, it.SameUpToCase it' → it.Ok br → it'.Ok br ∧ itemsProps [it] = itemsProps [it'] ∧
      itemsComps [it] = itemsComps [it'] ∧ ('\r' ∉ it.text .lf → '\r' ∉ it'.text .lf)) ∧
    (∀ l l' : List Item, ItemsSame l l' → ItemsOk br l → ItemsOk br l' ∧ itemsProps l = itemsProps l' ∧
      itemsComps l = itemsComps l' ∧ ('\r' ∉ itemsText .lf l → '\r' ∉ itemsText .lf l')) := by
  have hlist : ∀ l l' : List Item, ItemsSame l l' →
      (∀ it ∈ l, ∀ it', it.SameUpToCase it' → it.Ok br → it'.Ok br ∧ itemsProps [it] = itemsProps [it'] ∧
        itemsComps [it] = itemsComps [it'] ∧ ('\r' ∉ it.text .lf → '\r' ∉ it'.text .lf)) →
      ItemsOk br l → ItemsOk br l' ∧ itemsProps l = itemsProps l' ∧
      itemsComps l = itemsComps l' ∧ ('\r' ∉ itemsText .lf l → '\r' ∉ itemsText .lf l') := by
    intro l
    induction l with
    | nil =>
      intro l' h _ _
      cases l' with
      | nil => exact ⟨trivial, rfl, rfl, id⟩
      | cons _ _ => simp [ItemsSame] at h
    | cons i l ih =>
      intro l' h hi hok
      cases l' with
      | nil => simp [ItemsSame] at h
      | cons i' l' =>
        simp only [ItemsSame, ItemsOk] at h hok
        obtain ⟨h1, h2, h3, h4⟩ := hi i (by simp) i' h.1 hok.1
        obtain ⟨k1, k2, k3, k4⟩ := ih l' h.2 (fun x hx => hi x (by simp [hx])) hok.2
        have ep : ∀ (a : Item) (t : List Item), itemsProps (a :: t) = itemsProps [a] ++ itemsProps t := by
          intro a t; cases a <;> simp [itemsProps]
        have ec : ∀ (a : Item) (t : List Item), itemsComps (a :: t) = itemsComps [a] ++ itemsComps t := by
          intro a t; cases a <;> simp [itemsComps]
        refine ⟨⟨h1, k1⟩, ?_, ?_, ?_⟩
        · rw [ep i, ep i', h2, k2]
        · rw [ec i, ec i', h3, k3]
        · simp only [itemsText, List.mem_append, not_or]
          exact fun h => ⟨h4 h.1, k4 h.2⟩
  have hitem : ∀ it it' : Item, it.SameUpToCase it' → it.Ok br → it'.Ok br ∧
      itemsProps [it] = itemsProps [it'] ∧
      itemsComps [it] = itemsComps [it'] ∧ ('\r' ∉ it.text .lf → '\r' ∉ it'.text .lf) := by
    intro it
    induction it using Item.rec (motive_2 := fun l => ∀ it ∈ l, ∀ it', it.SameUpToCase it' → it.Ok br →
        it'.Ok br ∧ itemsProps [it] = itemsProps [it'] ∧ itemsComps [it] = itemsComps [it'] ∧
        ('\r' ∉ it.text .lf → '\r' ∉ it'.text .lf)) with
    | prop k ps v =>
      intro it' h hok
      cases it' with
      | prop k' ps' v' =>
        simp only [Item.SameUpToCase] at h
        obtain ⟨rfl, rfl, rfl⟩ := h
        exact ⟨hok, rfl, rfl, id⟩
      | comp _ _ _ _ => simp [Item.SameUpToCase] at h
    | comp b e n l ih =>
      intro it' h hok
      cases it' with
      | prop _ _ _ => simp [Item.SameUpToCase] at h
      | comp b' e' n' l' =>
        simp only [Item.SameUpToCase, Item.Ok] at h hok
        obtain ⟨hb, he, rfl, hl⟩ := h
        obtain ⟨k1, k2, k3, k4⟩ := hlist l l' hl ih hok.2.2.2
        have hb' : b'.map lowerAscii = c!"begin:" := hb ▸ hok.1
        have he' : e'.map lowerAscii = c!"end:" := he ▸ hok.2.1
        refine ⟨by simp only [Item.Ok]; exact ⟨hb', he', hok.2.2.1, k1⟩, by simp [itemsProps],
          by simp [itemsComps, k2, k3], ?_⟩
        simp only [Item.text, List.mem_append, not_or]
        intro h
        exact ⟨⟨⟨⟨keyword_not_mem hb' (by decide), h.1.1.1.2⟩, h.1.1.2⟩, k4 h.1.2⟩,
          ⟨keyword_not_mem he' (by decide), h.2.1.2⟩, h.2.2⟩
    | nil => simp_all
    | cons i l ih1 ih2 =>
      rename_i x hx x' h1 h2
      rcases List.mem_cons.1 hx with rfl | hx
      · exact ih1 x' h1 h2
      · exact ih2 x hx x' h1 h2
  exact ⟨hitem, fun l l' h => hlist l l' h (fun it _ => hitem it)⟩

/-- **C24.** The letter case of `BEGIN:` and `END:` does not matter, at any depth. -/
theorem keyword_case {br : Break} {b e name b' e' name' : Str} {items items' : List Item}
    (hs : (Item.comp b e name items).SameUpToCase (.comp b' e' name' items'))
    (h : (Item.comp b e name items).Ok br) (hq : br = .lf → '\r' ∉ (Item.comp b e name items).text br) :
    readCalendar ((Item.comp b e name items).text br) =
      readCalendar ((Item.comp b' e' name' items').text br) ∧
    readComponents ((Item.comp b e name items).text br) =
      readComponents ((Item.comp b' e' name' items').text br) ∧
    readComponent ((Item.comp b e name items).text br) =
      readComponent ((Item.comp b' e' name' items').text br) := by
  obtain ⟨h1, -, h3, h4⟩ := (same_up_to_case br).1 _ _ hs h
  have c1 := component_doc h hq
  have c2 := component_doc h1 (by
    intro hbr; subst hbr; exact h4 (hq rfl))
  simp only [itemsComps, List.cons.injEq, and_true] at h3
  unfold readCalendar readComponents readComponent
  rw [components_ok c1, components_ok c2, c1, c2, h3]
  exact ⟨rfl, rfl, rfl⟩

omit [Uni] in
/-- the hypotheses of `lf_crlf_from_str` and `keyword_case` hold for a nested document with parameters -/
example : (exampleDoc c!"BEGIN:" c!"End:").SameUpToCase (exampleDoc c!"bEgIn:" c!"END:") ∧
    exampleDoc c!"BEGIN:" c!"End:" ≠ exampleDoc c!"bEgIn:" c!"END:" := by
  constructor
  · simp only [exampleDoc, Item.SameUpToCase, ItemsSame, and_true, true_and]
    decide +kernel
  · simp [exampleDoc]

/-! ### C32 -/

/-- **C32.** `read_calendar` on every input, in terms of `read_component(s)`: an error is passed on; an
empty result gives an empty calendar; a VCALENDAR root is unwrapped; any other root becomes the only
component of a calendar without properties. Nothing is added. -/
theorem read_calendar_unwraps (i : Str) :
    (readComponents i = none ∧ readCalendar i = none) ∨
    (readComponents i = some [] ∧ readCalendar i = some ⟨[], []⟩) ∨
    (∃ ps cs, readComponents i = some [.mk c!"VCALENDAR" ps cs] ∧ readCalendar i = some ⟨ps, cs⟩) ∨
    (∃ n ps cs, n ≠ c!"VCALENDAR" ∧ readComponents i = some [.mk n ps cs] ∧
      readCalendar i = some ⟨[], [.mk n ps cs]⟩) := by
  unfold readComponents readCalendar
  rcases components_cases i with ⟨⟨n, ps, cs⟩, -, hc⟩ | ⟨-, hc⟩ | ⟨-, hc⟩
  · rw [hc]
    by_cases hn : n = c!"VCALENDAR"
    · subst hn
      exact .inr (.inr (.inl ⟨ps, cs, rfl, by simp [finish, PComp.name, PComp.props, PComp.comps]⟩))
    · exact .inr (.inr (.inr ⟨n, ps, cs, hn, rfl, by simp [finish, PComp.name, hn]⟩))
  · rw [hc]; exact .inr (.inl ⟨rfl, rfl⟩)
  · rw [hc]; exact .inl ⟨rfl, rfl⟩

/-- **C32.** The same for well-formed documents, in terms of their content, through
`Calendar::from_str`. -/
theorem read_calendar_doc {br : Break} {b e name : Str} {items : List Item}
    (h : (Item.comp b e name items).Ok br) (hf : (Item.comp b e name items).Flat)
    (hq : br = .lf → '\r' ∉ (Item.comp b e name items).text br) :
    Calendar.fromStr ((Item.comp b e name items).text br) = some
      (if name = c!"VCALENDAR" then
        { props := (itemsProps items).map PProp.toProperty, comps := (itemsComps items).map PComp.toCalComp }
      else { props := [], comps := [(PComp.mk name (itemsProps items) (itemsComps items)).toCalComp] }) := by
  unfold Calendar.fromStr readCalendar
  rw [unfold_doc h hf, components_ok (component_doc h hq)]
  by_cases hn : name = c!"VCALENDAR" <;>
    simp [finish, PComp.name, hn, PCal.toCalendar, PComp.props, PComp.comps]

end Ical
