import Verif.Spec.Lists
import Verif.Props.ContentLine
import Verif.Props.Escaping
import Verif.Props.PropertyRoundtrip

/-!
C100: lists of TEXT values.
-/

namespace Ical

open Nom Spec

theorem items_ne_nil (sep : Char) (s : Str) : items sep s ≠ [] := by
  fun_induction items sep s with
  | case1 => simp
  | case2 c s ih => cases h : items sep s <;> simp_all
  | case3 s _ ih => simp
  | case4 c s _ h ih => cases h : items sep s <;> simp_all

/-- a text with one piece is that piece -/
theorem items_one (sep : Char) (s : Str) (h : (items sep s).length = 1) : items sep s = [s] := by
  fun_induction items sep s with
  | case1 => rfl
  | case2 c s ih =>
    rw [ih (by simpa using h)]
    rfl
  | case3 s _ ih =>
    have := items_ne_nil sep s
    cases hi : items sep s <;> simp_all
  | case4 c s _ _ ih =>
    rw [ih (by simpa using h)]
    rfl

theorem items_escChar {sep : Char} (hs : sep = ',' ∨ sep = ';') (c : Char) (s : Str) :
    items sep (escChar c ++ s) = (items sep s).modifyHead (escChar c ++ ·) := by
  have hesc : ∀ d, items sep ('\\' :: d :: s) = (items sep s).modifyHead ('\\' :: d :: ·) := fun d => rfl
  unfold escChar
  by_cases h1 : c = '\\'
  · subst h1; exact hesc _
  · by_cases h2 : c = ','
    · subst h2; exact hesc _
    · by_cases h3 : c = ';'
      · subst h3; exact hesc _
      · by_cases h4 : c = '\n'
        · subst h4; exact hesc _
        · rw [if_neg h1, if_neg h2, if_neg h3, if_neg h4]
          have : c ≠ sep := by rcases hs with rfl | rfl <;> assumption
          simp only [List.cons_append, List.nil_append]
          rw [items, if_neg this]
          intro d t h
          exact absurd h h1

theorem items_escape {sep : Char} (hs : sep = ',' ∨ sep = ';') (v : Str) : items sep (escapeText v) = [escapeText v] := by
  rw [escapeText_eq]
  induction v with
  | nil => rfl
  | cons c v ih =>
    rw [List.flatMap_cons, items_escChar hs, ih]
    rfl

variable [Uni]

omit [Uni] in
theorem rawText_escape {p : Property} (h : IsText p) : rawText p = escapeText p.val := by
  unfold rawText
  rw [if_pos h, escapeText_eq]
  exact congrArg (fun f => p.val.flatMap f) (funext escaped_eq)

/-! ### C100 -/

omit [Uni] in
/-- **C100 (partial).** A TEXT value is written as a list with one element, itself, whatever characters it has: its commas
and semicolons do not separate. -/
theorem text_list_written_partial (p : Property) (h : IsText p) (sep : Char) (hs : sep = ',' ∨ sep = ';') :
    textList sep (rawText p) = [p.val] := by
  rw [rawText_escape h]
  unfold textList
  rw [items_escape hs, List.map_singleton, escape_conforming]

/-- **C100 (partial).** A TEXT line that is read and written again lists the same texts if and only if it lists one text
(and C10 does not interfere). Missing: lists of several texts, see `text_list_violated`. -/
theorem text_list_iff_partial (key raw : Str) (hk : KeyOk key) (ht : IsTextFor key none) (hr : ¬ ['\r', '\n'] <:+: raw)
    (sep : Char) (hs : sep = ',' ∨ sep = ';') :
    ∃ p raw', Property.fromStr (key ++ ':' :: raw ++ c!"\r\n") = some p ∧
      (∀ w, World.Ok w → ∀ out, p.fmtWrite w = .ok out → unfold out = key ++ ':' :: raw' ++ c!"\r\n") ∧
      (textList sep raw' = textList sep raw ↔ (items sep raw).length = 1 ∧ NoDoubleRead raw) := by
  have hp := property_ok (br := .crlf) (r := []) (params := []) (val := raw) hk.name hk.notEnd hk.notBegin (by simp) hr
    (by simp)
  have hm : meaningProp key [] raw = ⟨key, unescaped raw, []⟩ := by
    unfold meaningProp
    rw [if_pos]
    · rfl
    · exact ht
  have htext : IsText (PProp.toProperty ⟨key, unescaped raw, []⟩) := ht
  refine ⟨PProp.toProperty ⟨key, unescaped raw, []⟩, rawText (PProp.toProperty ⟨key, unescaped raw, []⟩), ?_, ?_, ?_⟩
  · unfold Property.fromStr readProperty
    have e : (Item.prop key [] raw).text .crlf ++ [] = key ++ ':' :: raw ++ c!"\r\n" := by simp [Item.text, Break.text]
    rw [← e, hp, hm]
    rfl
  · intro w hw out h
    have := unfold_property hw hk.name (p := PProp.toProperty ⟨key, unescaped raw, []⟩)
      ⟨.nil, fun x hx => absurd hx List.not_mem_nil, fun x hx => absurd hx List.not_mem_nil⟩ (.inl htext) h (t := []) noIndent_nil
    rw [List.append_nil, ← unfold_eq_spec] at this
    rw [this, rawText_escape htext, ← valueText_of_text ((isText_iff _).1 htext)]
    have e : (w.order [] (PProp.toProperty ⟨key, unescaped raw, []⟩).params).map dparam = [] := by
      have := hw.order [] (PProp.toProperty ⟨key, unescaped raw, []⟩).params
      have e0 : (PProp.toProperty ⟨key, unescaped raw, []⟩).params = [] := rfl
      rw [e0] at this ⊢
      rw [List.Perm.eq_nil this]
      rfl
    rw [e]
    simp [Item.text, Break.text, PProp.toProperty, unfoldSpec]
  · rw [text_list_written_partial _ htext sep hs]
    have hv : (PProp.toProperty ⟨key, unescaped raw, []⟩).val = unescaped raw := rfl
    rw [hv]
    unfold textList
    constructor
    · intro h
      have hl : (items sep raw).length = 1 := by
        have := congrArg List.length h
        simpa using this.symm
      rw [items_one sep raw hl] at h
      refine ⟨hl, (unescape_rfc_partial raw).1 ?_⟩
      rw [unescapeText_unescaped]
      simpa using h
    · rintro ⟨hl, hd⟩
      rw [items_one sep raw hl, ← unescapeText_unescaped, (unescape_rfc_partial raw).2 hd]
      rfl

omit [Uni] in
/-- **C100.** Lines of other types are written as they are read. -/
theorem other_list_written (p : Property) (h : ¬ IsText p) : rawText p = p.val := if_neg h

end Ical

/-! ### Examples -/

namespace Ical

open Spec

/-- **C100, counterexample.** Two categories become one when a calendar is read and written: the comma between them is
escaped. The same happens to the parts of a request status. -/
theorem text_list_violated :
    ∃ s c w out, @Calendar.fromStr Uni.ascii s = some c ∧ @Calendar.fmtWrite Uni.ascii c w = .ok out ∧
      c!"\r\nCATEGORIES:WORK,HOME\r\n" <:+: s ∧ c!"\r\nCATEGORIES:WORK\\,HOME\r\n" <:+: out ∧
      textList ',' c!"WORK,HOME" = [c!"WORK", c!"HOME"] ∧ textList ',' c!"WORK\\,HOME" = [c!"WORK,HOME"] ∧
      c!"\r\nREQUEST-STATUS:2.0;Success\r\n" <:+: s ∧ c!"\r\nREQUEST-STATUS:2.0\\;Success\r\n" <:+: out ∧
      textList ';' c!"2.0;Success" = [c!"2.0", c!"Success"] ∧ textList ';' c!"2.0\\;Success" = [c!"2.0;Success"] := by
  let w : World := ⟨fun _ => ⟨⟨⟨2026, 1, 1⟩, 0, 0, 0, 0⟩⟩, fun _ => c!"0-f", fun _ l => l⟩
  have h : (@Calendar.fromStr Uni.ascii c!"BEGIN:VCALENDAR\r\nBEGIN:VEVENT\r\nDTSTAMP:20260101T000000Z\r\nREQUEST-STATUS:2.0;Success\r\nUID:1\r\nCATEGORIES:WORK,HOME\r\nEND:VEVENT\r\nEND:VCALENDAR\r\n").map
      (fun c => @Calendar.fmtWrite Uni.ascii c w) =
    some (.ok c!"BEGIN:VCALENDAR\r\nBEGIN:VEVENT\r\nDTSTAMP:20260101T000000Z\r\nREQUEST-STATUS:2.0\\;Success\r\nUID:1\r\nCATEGORIES:WORK\\,HOME\r\nEND:VEVENT\r\nEND:VCALENDAR\r\n") := by
    decide +kernel
  obtain ⟨c, hc, ho⟩ := Option.map_eq_some_iff.1 h
  exact ⟨_, c, w, _, hc, ho, by decide +kernel, by decide +kernel, by decide, by decide, by decide +kernel,
    by decide +kernel, by decide, by decide⟩

local instance asciiUniLists : Uni := Uni.ascii

example : ∃ p raw', Property.fromStr (c!"CATEGORIES" ++ ':' :: c!"A\\,B" ++ c!"\r\n") = some p ∧
    (∀ w, World.Ok w → ∀ out, p.fmtWrite w = .ok out → unfold out = c!"CATEGORIES" ++ ':' :: raw' ++ c!"\r\n") ∧
    textList ',' raw' = [c!"A,B"] := by
  obtain ⟨p, raw', h1, h2, h3⟩ := text_list_iff_partial c!"CATEGORIES" c!"A\\,B" (by decide +kernel) (by decide +kernel)
    (by decide) ',' (.inl rfl)
  exact ⟨p, raw', h1, h2, (h3.2 ⟨by decide, by simp [NoDoubleRead, escapeMeaning]⟩).trans (by decide)⟩

example : textList ',' (rawText (Property.new c!"CATEGORIES" c!"a,b;c\\n")) = [c!"a,b;c\\n"] :=
  text_list_written_partial _ (by decide) ',' (.inl rfl)

example : rawText (Property.new c!"EXDATE" c!"20260101T000000Z,20260102T000000Z") = c!"20260101T000000Z,20260102T000000Z" :=
  other_list_written _ (by decide)

end Ical
