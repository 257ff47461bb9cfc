import Verif.Spec.StrictDocs
import Verif.Props.Strict
import Verif.Props.Foreign
import Verif.Props.Parsing

/-!
C112: which documents of RFC 5545 are read, and as what.
-/

namespace Ical

open Nom Spec

/-! ### Unfolding -/

theorem unfoldRfc_spec {t : Str} (h : MarkerFree (unfoldRfc t)) : unfoldSpec t = unfoldRfc t := by
  have key : ∀ n, ∀ t : Str, t.length ≤ n → MarkerFree (unfoldRfc t) → unfoldSpec t = unfoldRfc t := by
    intro n
    induction n with
    | zero =>
      intro t ht _
      cases t with
      | nil => rfl
      | cons => simp at ht
    | succ n ih =>
      intro t ht h
      fun_cases unfoldSpec t with
      | case1 => rfl
      | case2 s => rw [unfoldRfc.eq_2] at h ⊢; exact ih s (by simp at ht; omega) h
      | case3 s => rw [unfoldRfc.eq_3] at h ⊢; exact ih s (by simp at ht; omega) h
      | case4 s =>
        rw [unfoldRfc_cons (by decide), unfoldRfc_cons (by decide)] at h
        exact absurd ⟨[], unfoldRfc s, rfl⟩ h.1
      | case5 s =>
        rw [unfoldRfc_cons (by decide), unfoldRfc_cons (by decide)] at h
        exact absurd ⟨[], unfoldRfc s, rfl⟩ h.2
      | case6 c s h1 h2 h3 h4 =>
        have he : unfoldRfc (c :: s) = c :: unfoldRfc s := by
          rw [unfoldRfc.eq_4]
          · exact h1
          · exact h2
        rw [he] at h ⊢
        rw [ih s (by simp at ht; omega) ⟨fun hc => h.1 (hc.trans ⟨[c], [], by simp⟩), fun hc => h.2 (hc.trans ⟨[c], [], by simp⟩)⟩]
  exact key _ t (Nat.le_refl _) h

/-! ### Lines -/

/-- a line of a parameter list as an item of a document -/
theorem param_item {v a : Str} (hv : StrictValue v a) (hne : v ≠ []) {k : Str} :
    ∃ q : Bool, (DParam.mk k (some (q, v))).text = ';' :: k ++ '=' :: a ∧
      (q = true → v ≠ [] ∧ '"' ∉ v) ∧ (q = false → ':' ∉ v ∧ ';' ∉ v ∧ ¬ ['"'] <+: v) := by
  rcases hv with ⟨rfl, h⟩ | ⟨rfl, h⟩
  · refine ⟨false, by simp [DParam.text], by simp, fun _ => ⟨?_, ?_, ?_⟩⟩
    · exact fun hc => (h _ hc).2.2.2.1 rfl
    · exact fun hc => (h _ hc).2.2.1 rfl
    · rintro ⟨s, rfl⟩; exact (h '"' (by simp)).2.1 rfl
  · exact ⟨true, by simp [DParam.text], fun _ => ⟨hne, fun hc => (h _ hc).2 rfl⟩, by simp⟩

variable [Uni]

theorem rfcName_isName {s : Str} (h : RfcName s) : IsName s := by
  intro c hc
  rcases h.2 c hc with ⟨h1, h2⟩ | ⟨h1, h2⟩ | ⟨h1, h2⟩ | rfl
  · have h1 : 97 ≤ c.toNat := h1
    have h2 : c.toNat ≤ 122 := h2
    left; unfold isAlnum; rw [if_pos (by omega)]; simp; omega
  · have h1 : 65 ≤ c.toNat := h1
    have h2 : c.toNat ≤ 90 := h2
    left; unfold isAlnum; rw [if_pos (by omega)]; simp; omega
  · have h1 : 48 ≤ c.toNat := h1
    have h2 : c.toNat ≤ 57 := h2
    left; unfold isAlnum; rw [if_pos (by omega)]; simp; omega
  · right; simp

theorem params_items {l : List (Str × List Str)} {t : Str} (h : StrictParams l t)
    (hl : ∀ q ∈ l, ∃ v, v ≠ [] ∧ q.2 = [v]) :
    ∃ ps : List DParam, (ps.map DParam.text).flatten = t ∧ ps.map (fun d => (d.key, [d.value])) = l ∧ ∀ p ∈ ps, p.Ok := by
  induction l generalizing t with
  | nil => subst h; exact ⟨[], rfl, rfl, by simp⟩
  | cons x l ih =>
    obtain ⟨k, vs⟩ := x
    obtain ⟨a, b, h1, h2, h3, rfl⟩ := h
    obtain ⟨v, hv, hvs⟩ := hl (k, vs) (by simp)
    simp only at hvs
    subst hvs
    obtain ⟨q, h4, h5, h6⟩ := param_item (k := k) h2 hv
    obtain ⟨ps, h7, h8, h9⟩ := ih h3 (fun y hy => hl y (by simp [hy]))
    refine ⟨⟨k, some (q, v)⟩ :: ps, ?_, ?_, ?_⟩
    · simp only [List.map_cons, List.flatten_cons, h4, h7]
    · rw [List.map_cons, h8]; rfl
    · intro p hp
      rcases List.mem_cons.1 hp with rfl | hp
      · refine ⟨rfcName_isName h1, ?_⟩
        cases q
        · exact h6 rfl
        · exact h5 rfl
      · exact h9 p hp

mutual
/-- an item of a document of RFC 5545: well-formed, but for names that start with BEGIN or END -/
def AlmostOk : Item → Prop
  | .prop key params val => RfcName key ∧ key.map lowerAscii ≠ c!"begin" ∧ key.map lowerAscii ≠ c!"end" ∧
      (∀ p ∈ params, p.Ok) ∧ (∀ c ∈ val, ¬ ControlChar c) ∧
      '\r' ∉ (params.map DParam.text).flatten
  | .comp b e name items =>
    b.map lowerAscii = c!"begin:" ∧ e.map lowerAscii = c!"end:" ∧ RfcName name ∧ AllAlmostOk items
/-- see `AlmostOk` -/
def AllAlmostOk : List Item → Prop
  | [] => True
  | i :: l => AlmostOk i ∧ AllAlmostOk l
end

/-- the lines of an element, taken from the front of a text -/
def ItemOf (el : Element) : Prop :=
  ∀ ys T, StrictLines (el.lines ++ ys) T → ∃ item rest, Mirrors el item ∧ AlmostOk item ∧
    T = item.text .crlf ++ rest ∧ StrictLines ys rest

omit [Uni] in
theorem lower_colon {b k : Str} (h : b.map lowerAscii = k) : (b ++ [':']).map lowerAscii = k ++ [':'] := by
  rw [List.map_append, h]; rfl

mutual
theorem element_item : ∀ el : Element, el.Nested → el.All OneValue → ItemOf el
  | .line x, hn, ha => by
    intro ys T h
    simp only [Element.lines, List.cons_append, List.nil_append] at h
    obtain ⟨a, rest, h1, h2, rfl⟩ := h
    obtain ⟨t, h3, h4, h5, rfl⟩ := h1
    simp only [Element.All] at ha
    simp only [Element.Nested] at hn
    obtain ⟨ps, h6, h7, h8⟩ := params_items h4 ha
    refine ⟨.prop x.name ps x.value, rest, ?_, ?_, ?_, h2⟩
    · rw [Mirrors]; exact ⟨rfl, h7, rfl⟩
    · rw [AlmostOk]
      exact ⟨h3, hn.1, hn.2, h8, h5, by rw [h6]; exact strictParams_noCr h4⟩
    · simp only [Item.text, h6, Break.text]
      simp
  | .comp b e name els, hn, ha => by
    intro ys T h
    simp only [Element.All] at ha
    simp only [Element.Nested] at hn
    simp only [Element.lines, List.cons_append, List.nil_append, List.append_assoc] at h
    obtain ⟨a, rest, h1, h2, rfl⟩ := h
    obtain ⟨t, -, h4, -, rfl⟩ := h1
    have h4 : t = [] := h4
    subst h4
    obtain ⟨items, rest', h5, h6, rfl, h7⟩ := elements_items els hn.2.2.2 ha _ _ h2
    clear h2
    obtain ⟨a, rest, h1, h2, rfl⟩ := h7
    obtain ⟨t, -, h4, -, rfl⟩ := h1
    have h4 : t = [] := h4
    subst h4
    refine ⟨.comp (b ++ [':']) (e ++ [':']) name items, rest, ?_, ?_, ?_, h2⟩
    · rw [Mirrors]; exact ⟨rfl, h5⟩
    · rw [AlmostOk]
      exact ⟨lower_colon hn.1, lower_colon hn.2.1, hn.2.2.1, h6⟩
    · simp [Item.text, Break.text]
theorem elements_items : ∀ els : List Element, ElementsNested els → ElementsAll OneValue els →
    ∀ ys T, StrictLines (elementsLines els ++ ys) T → ∃ items rest, MirrorsAll els items ∧ AllAlmostOk items ∧
      T = itemsText .crlf items ++ rest ∧ StrictLines ys rest
  | [], _, _ => by
    intro ys T h
    refine ⟨[], T, by rw [MirrorsAll]; trivial, by rw [AllAlmostOk]; trivial, by rw [itemsText]; rfl, ?_⟩
    simpa [elementsLines] using h
  | el :: els, hn, ha => by
    intro ys T h
    simp only [ElementsAll] at ha
    simp only [ElementsNested] at hn
    simp only [elementsLines, List.append_assoc] at h
    obtain ⟨item, rest, h1, h2, rfl, h3⟩ := element_item el hn.1 ha.1 _ _ h
    obtain ⟨items, rest', h4, h5, rfl, h6⟩ := elements_items els hn.2 ha.2 _ _ h3
    refine ⟨item :: items, rest', ?_, ?_, ?_, h6⟩
    · rw [MirrorsAll]; exact ⟨h1, h4⟩
    · rw [AllAlmostOk]; exact ⟨h2, h5⟩
    · simp [itemsText]
end

/-! ### Names that start with BEGIN or END -/

/-- a line that starts with BEGIN or END, but goes on otherwise than with a colon -/
def KeywordLine (t : Str) : Prop := ∃ c s, c ≠ ':' ∧ (t = c!"END" ++ c :: s ∨ t = c!"BEGIN" ++ c :: s)

omit [Uni] in
theorem KeywordLine.append {t : Str} (h : KeywordLine t) (r : Str) : KeywordLine (t ++ r) := by
  obtain ⟨c, s, hc, rfl | rfl⟩ := h
  · exact ⟨c, s ++ r, hc, .inl (by simp)⟩
  · exact ⟨c, s ++ r, hc, .inr (by simp)⟩

omit [Uni] in
theorem KeywordLine.line {t : Str} (h : KeywordLine t) :
    (c!"END" <+: t ∧ ¬ c!"END:" <+: t) ∨ (c!"BEGIN" <+: t ∧ ¬ c!"BEGIN:" <+: t) := by
  obtain ⟨c, s, hc, rfl | rfl⟩ := h
  · refine .inl ⟨⟨_, rfl⟩, ?_⟩
    rintro ⟨r, hr⟩
    simp at hr
    exact hc hr.1.symm
  · refine .inr ⟨⟨_, rfl⟩, ?_⟩
    rintro ⟨r, hr⟩
    simp at hr
    exact hc hr.1.symm

omit [Uni] in
theorem keywordLine_of_name {k r : Str} (hk : RfcName k) (h1 : k.map lowerAscii ≠ c!"begin")
    (h2 : k.map lowerAscii ≠ c!"end") (h : c!"BEGIN" <+: k ∨ c!"END" <+: k) : KeywordLine (k ++ r) := by
  rcases h with ⟨s, rfl⟩ | ⟨s, rfl⟩
  · cases s with
    | nil => exact absurd (by decide) h1
    | cons c s => exact ⟨c, s ++ r, (nameChar_ne (hk.2 c (by simp))).1, .inr (by simp)⟩
  · cases s with
    | nil => exact absurd (by decide) h2
    | cons c s => exact ⟨c, s ++ r, (nameChar_ne (hk.2 c (by simp))).1, .inl (by simp)⟩

/-- the part of a text before the first such line -/
def Interrupted (t : Str) : Prop :=
  ∃ pre fs bad, t = itemsText .crlf pre ++ openText .crlf fs ++ bad ∧ ItemsOk .crlf pre ∧ FramesOk .crlf fs ∧
    KeywordLine bad

theorem Interrupted.append {t : Str} (h : Interrupted t) (r : Str) : Interrupted (t ++ r) := by
  obtain ⟨pre, fs, bad, rfl, h1, h2, h3⟩ := h
  exact ⟨pre, fs, bad ++ r, by simp, h1, h2, h3.append r⟩

theorem Interrupted.cons {i : Item} (hi : i.Ok .crlf) {t : Str} (h : Interrupted t) : Interrupted (i.text .crlf ++ t) := by
  obtain ⟨pre, fs, bad, rfl, h1, h2, h3⟩ := h
  exact ⟨i :: pre, fs, bad, by simp [itemsText], by rw [ItemsOk]; exact ⟨hi, h1⟩, h2, h3⟩

theorem Interrupted.comp {b n : Str} (hb : b.map lowerAscii = c!"begin:") (hn : IsName n) {t : Str}
    (h : Interrupted t) : Interrupted (b ++ n ++ Break.crlf.text ++ t) := by
  obtain ⟨pre, fs, bad, rfl, h1, h2, h3⟩ := h
  exact ⟨[], (b, n, pre) :: fs, bad, by simp [itemsText, openText], by rw [ItemsOk]; trivial, ⟨hb, hn, h1, h2⟩, h3⟩

mutual
theorem free_or_interrupted : ∀ (el : Element) (i : Item), Mirrors el i → AlmostOk i →
    (el.All FreeName ∧ i.Ok .crlf) ∨ (¬ el.All FreeName ∧ Interrupted (i.text .crlf))
  | .line x, .prop key params val, hm, hi => by
    rw [Mirrors] at hm
    rw [AlmostOk] at hi
    obtain ⟨rfl, -, -⟩ := hm
    obtain ⟨h1, h2, h3, h4, h5, -⟩ := hi
    rw [Element.All]
    by_cases hf : FreeName x
    · left
      refine ⟨hf, ?_⟩
      rw [Item.Ok]
      refine ⟨⟨rfcName_isName h1, hf.2, hf.1, h3, h2⟩, h4, ?_⟩
      rintro ⟨a, b, rfl⟩
      exact h5 '\r' (by simp) control_cr
    · right
      refine ⟨hf, [], [], x.name ++ ((params.map DParam.text).flatten ++ [':'] ++ val ++ Break.crlf.text), ?_, ?_, ?_, ?_⟩
      · simp [itemsText, openText, Item.text]
      · rw [ItemsOk]; trivial
      · rw [FramesOk]; trivial
      · refine keywordLine_of_name h1 h2 h3 ?_
        unfold FreeName at hf
        by_cases hb : c!"BEGIN" <+: x.name
        · exact .inl hb
        · exact .inr (Classical.byContradiction fun he => hf ⟨hb, he⟩)
  | .comp _ _ _ els, .comp b e name items, hm, hi => by
    rw [Mirrors] at hm
    rw [AlmostOk] at hi
    obtain ⟨rfl, hm⟩ := hm
    obtain ⟨h1, h2, h3, h4⟩ := hi
    rw [Element.All]
    rcases all_free_or_interrupted els items hm h4 with ⟨h5, h6⟩ | ⟨h5, h6⟩
    · left
      refine ⟨h5, ?_⟩
      rw [Item.Ok]
      exact ⟨h1, h2, rfcName_isName h3, h6⟩
    · right
      refine ⟨h5, ?_⟩
      rw [Item.text]
      exact (h6.comp h1 (rfcName_isName h3)).append _
  | .line _, .comp _ _ _ _, hm, _ => by rw [Mirrors] at hm; exact hm.elim; all_goals nofun
  | .comp _ _ _ _, .prop _ _ _, hm, _ => by rw [Mirrors] at hm; exact hm.elim; all_goals nofun
theorem all_free_or_interrupted : ∀ (els : List Element) (items : List Item), MirrorsAll els items → AllAlmostOk items →
    (ElementsAll FreeName els ∧ ItemsOk .crlf items) ∨ (¬ ElementsAll FreeName els ∧ Interrupted (itemsText .crlf items))
  | [], [], _, _ => by
    left
    rw [ElementsAll, ItemsOk]
    exact ⟨trivial, trivial⟩
  | el :: els, i :: items, hm, hi => by
    rw [MirrorsAll] at hm
    rw [AllAlmostOk] at hi
    rw [ElementsAll, ItemsOk, itemsText]
    rcases free_or_interrupted el i hm.1 hi.1 with ⟨h1, h2⟩ | ⟨h1, h2⟩
    · rcases all_free_or_interrupted els items hm.2 hi.2 with ⟨h3, h4⟩ | ⟨h3, h4⟩
      · exact .inl ⟨⟨h1, h3⟩, h2, h4⟩
      · exact .inr ⟨fun h => h3 h.2, h4.cons h2⟩
    · exact .inr ⟨fun h => h1 h.1, h2.append _⟩
  | [], _ :: _, hm, _ => by rw [MirrorsAll] at hm; exact hm.elim; all_goals nofun
  | _ :: _, [], hm, _ => by rw [MirrorsAll] at hm; exact hm.elim; all_goals nofun
end

theorem framesOk_split {br : Break} {fs gs : List Frame} (h : FramesOk br (fs ++ gs)) : FramesOk br fs ∧ FramesOk br gs := by
  induction fs with
  | nil => exact ⟨trivial, h⟩
  | cons f fs ih =>
    obtain ⟨b, n, items⟩ := f
    obtain ⟨h1, h2, h3, h4⟩ := h
    exact ⟨⟨h1, h2, h3, (ih h4).1⟩, (ih h4).2⟩

theorem interrupted_rejected {b n : Str} (hb : b.map lowerAscii = c!"begin:") (hn : IsName n) {t : Str}
    (h : Interrupted t) : readCalendar (b ++ n ++ Break.crlf.text ++ t) = none := by
  obtain ⟨pre, fs, bad, rfl, h1, h2, h3⟩ := h
  rcases List.eq_nil_or_concat ((b, n, pre) :: fs) with h | ⟨gs, g, h⟩
  · cases h
  · have hok : FramesOk .crlf ((b, n, pre) :: fs) := ⟨hb, hn, h1, h2⟩
    rw [h] at hok
    obtain ⟨h4, h5⟩ := framesOk_split (by simpa using hok : FramesOk .crlf (gs ++ [g]))
    obtain ⟨b', n', items⟩ := g
    have := (keyword_names_rejected h4 h5 h3.line (by simp)).1
    have he : openText .crlf (gs ++ [(b', n', items)]) =
        b ++ n ++ Break.crlf.text ++ itemsText .crlf pre ++ openText .crlf fs := by
      have : openText .crlf ((b, n, pre) :: fs) = b ++ n ++ Break.crlf.text ++ itemsText .crlf pre ++ openText .crlf fs := rfl
      rw [← this, h]
      simp
    rw [he] at this
    simpa using this

/-! ### The unfolded text -/

omit [Uni] in
theorem strictValue_no {x : Char} (hx : ControlChar x) {v t : Str} (h : StrictValue v t) : x ∉ t := by
  rcases h with ⟨rfl, h⟩ | ⟨rfl, h⟩
  · exact fun hc => (h _ hc).1 hx
  · simp only [List.cons_append, List.mem_cons, List.mem_append, List.not_mem_nil, or_false]
    have hq : ¬ x = '"' := by rintro rfl; revert hx; decide
    rintro (hc | hc | hc)
    · exact hq hc
    · exact (h _ hc).1 hx
    · exact hq hc

omit [Uni] in
theorem strictValues_no {x : Char} (hx : ControlChar x) {vs : List Str} {t : Str} (h : StrictValues vs t) : x ∉ t := by
  induction vs generalizing t with
  | nil => exact h.elim
  | cons v vs ih =>
    cases vs with
    | nil => exact strictValue_no hx h
    | cons u vs =>
      obtain ⟨a, b, h1, h2, rfl⟩ := h
      have := strictValue_no hx h1
      have := ih h2
      have hq : ¬ x = ',' := by rintro rfl; revert hx; decide
      simp_all

omit [Uni] in
theorem strictParams_no {x : Char} (hx : ControlChar x) {l : List (Str × List Str)} {t : Str} (h : StrictParams l t) :
    x ∉ t := by
  induction l generalizing t with
  | nil => subst h; simp
  | cons y l ih =>
    obtain ⟨k, vs⟩ := y
    obtain ⟨a, b, h1, h2, h3, rfl⟩ := h
    have : x ∉ k := fun hc => rfcName_control h1 _ hc hx
    have := strictValues_no hx h2
    have := ih h3
    have hq : ¬ x = ';' := by rintro rfl; revert hx; decide
    have hq' : ¬ x = '=' := by rintro rfl; revert hx; decide
    simp_all

omit [Uni] in
theorem strictLine_no {x : Char} (hx : ControlChar x) {y : Said} {t : Str} (h : StrictLine y t) : x ∉ t := by
  obtain ⟨ps, h1, h2, h3, rfl⟩ := h
  have : x ∉ y.name := fun hc => rfcName_control h1 _ hc hx
  have := strictParams_no hx h2
  have : x ∉ y.value := fun hc => h3 _ hc hx
  have hq : ¬ x = ':' := by rintro rfl; revert hx; decide
  simp_all

omit [Uni] in
theorem strictLine_unindented {y : Said} {t : Str} (h : StrictLine y t) (s : Str) : Unindented (t ++ s) := by
  obtain ⟨ps, h1, h2, h3, rfl⟩ := h
  simp only [List.append_assoc]
  exact name_unindented h1

omit [Uni] in
theorem markerFree_line {l rest : Str} (hl : '\n' ∉ l) (h1 : Unindented rest) (h2 : MarkerFree rest) :
    MarkerFree (l ++ ['\r', '\n'] ++ rest) := by
  have key : ∀ x : Char, (x = ' ' ∨ x = '\t') → ¬ ['\n', x] <:+: rest → ¬ ['\n', x] <:+: l ++ ['\r', '\n'] ++ rest := by
    intro x hx hr hc
    have hstep : ∀ (c : Char) (s : Str), c ≠ '\n' → ['\n', x] <:+: c :: s → ['\n', x] <:+: s := by
      intro c s hcn hi
      rcases List.infix_cons_iff.1 hi with hp | hi
      · obtain ⟨r, hr⟩ := hp
        simp only [List.cons_append, List.cons.injEq] at hr
        exact absurd hr.1.symm hcn
      · exact hi
    have hl' : ∀ (l : Str) (s : Str), '\n' ∉ l → ['\n', x] <:+: l ++ s → ['\n', x] <:+: s := by
      intro l
      induction l with
      | nil => intro s _ h; exact h
      | cons c l ih =>
        intro s hn h
        simp only [List.mem_cons, not_or] at hn
        exact ih s hn.2 (hstep c _ (Ne.symm hn.1) h)
    rw [List.append_assoc] at hc
    have h3 := hl' l _ hl hc
    have h4 := hstep '\r' ('\n' :: rest) (by decide) h3
    rcases List.infix_cons_iff.1 h4 with hp | hi
    · obtain ⟨r, hr'⟩ := hp
      simp only [List.cons_append, List.cons.injEq, true_and, List.nil_append] at hr'
      have := h1 x (by rw [← hr']; rfl)
      rcases hx with rfl | rfl
      · exact this.1 rfl
      · exact this.2 rfl
    · exact hr hi
  exact ⟨key ' ' (.inl rfl) h2.1, key '\t' (.inr rfl) h2.2⟩

omit [Uni] in
theorem strictLines_flat {xs : List Said} {T : Str} (h : StrictLines xs T) : MarkerFree T ∧ Unindented T := by
  induction xs generalizing T with
  | nil =>
    subst h
    exact ⟨⟨by decide, by decide⟩, by simp [Unindented]⟩
  | cons x xs ih =>
    obtain ⟨a, b, h1, h2, rfl⟩ := h
    obtain ⟨h3, h4⟩ := ih h2
    refine ⟨markerFree_line (strictLine_no control_lf h1) h4 h3, ?_⟩
    rw [List.append_assoc]
    exact strictLine_unindented h1 _

/-! ### C112 -/

/-- the text that is read, and the elements it consists of -/
theorem rfc_document_text {els : List Element} {t : Str} (h : RfcDocument els t) (h1 : ElementsAll OneValue els) :
    ∃ b e items, unfold t = (Item.comp b e c!"VCALENDAR" items).text .crlf ∧ MirrorsAll els items ∧
      AllAlmostOk items ∧ b.map lowerAscii = c!"begin:" ∧ e.map lowerAscii = c!"end:" := by
  obtain ⟨b, e, hn, ht⟩ := h
  have hu : unfold t = unfoldRfc t := by
    rw [unfold_eq_spec]
    exact unfoldRfc_spec (strictLines_flat ht).1
  obtain ⟨item, rest, h2, h3, h4, h5⟩ := element_item _ hn (by rw [Element.All]; exact h1) [] (unfoldRfc t)
    (by rw [List.append_nil]; exact ht)
  have h5 : rest = [] := h5
  subst h5
  cases item with
  | prop => rw [Mirrors] at h2; exact h2.elim; all_goals nofun
  | comp b' e' n items =>
    rw [Mirrors] at h2
    rw [AlmostOk] at h3
    obtain ⟨rfl, h2⟩ := h2
    exact ⟨b', e', items, by rw [hu, h4, List.append_nil], h2, h3.2.2.2, h3.1, h3.2.1⟩

/-- **C112 (partial: documents with lists of values in parameters are left out; names that start with BEGIN or END are
not read).** A document of RFC 5545 of which every parameter has one value is read exactly if none of its lines has a
name that starts with BEGIN or END in capitals. -/
theorem rfc_document_read_iff_partial (els : List Element) (t : Str) (h : RfcDocument els t)
    (h1 : ElementsAll OneValue els) : (∃ c, Calendar.fromStr t = some c) ↔ ElementsAll FreeName els := by
  obtain ⟨b, e, items, h2, h3, h4, h5, h6⟩ := rfc_document_text h h1
  rcases all_free_or_interrupted els items h3 h4 with ⟨h7, h8⟩ | ⟨h7, h8⟩
  · refine ⟨fun _ => h7, fun _ => ?_⟩
    have hok : (Item.comp b e c!"VCALENDAR" items).Ok .crlf := by
      rw [Item.Ok]; exact ⟨h5, h6, rfcName_isName (by decide), h8⟩
    unfold Calendar.fromStr readCalendar
    rw [h2, components_ok (component_doc hok (by simp))]
    simp [finish, PComp.name]
  · refine ⟨?_, fun h => absurd h h7⟩
    rintro ⟨c, hc⟩
    have hr := interrupted_rejected (n := c!"VCALENDAR") h5 (rfcName_isName (by decide))
      (h8.append (e ++ c!"VCALENDAR" ++ Break.crlf.text))
    have he : unfold t = b ++ c!"VCALENDAR" ++ Break.crlf.text ++
        (itemsText .crlf items ++ (e ++ c!"VCALENDAR" ++ Break.crlf.text)) := by
      rw [h2, Item.text]; simp
    unfold Calendar.fromStr at hc
    rw [he, hr] at hc
    cases hc

/-- **C112 (partial, as above).** Such a document is read as what its lines say: its own lines are the properties of the
calendar, one by one, its components are those of the calendar, in order and of the right kinds, and each of them contains
of each name the last line, or all if the name is repeatable. -/
theorem rfc_document_means_partial (els : List Element) (t : Str) (h : RfcDocument els t)
    (h1 : ElementsAll OneValue els) (hf : ElementsAll FreeName els) :
    ∃ c items, Calendar.fromStr t = some c ∧ MirrorsAll els items ∧ LinesMean (ownLines items) c.props ∧
      CompsContain items c.comps := by
  obtain ⟨b, e, items, h2, h3, h4, h5, h6⟩ := rfc_document_text h h1
  rcases all_free_or_interrupted els items h3 h4 with ⟨h7, h8⟩ | ⟨h7, h8⟩
  · have hok : (Item.comp b e c!"VCALENDAR" items).Ok .crlf := by
      rw [Item.Ok]; exact ⟨h5, h6, rfcName_isName (by decide), h8⟩
    refine ⟨{ props := (itemsProps items).map PProp.toProperty, comps := (itemsComps items).map PComp.toCalComp }, items, ?_,
      h3, linesMean_props items, compsContain items⟩
    unfold Calendar.fromStr readCalendar
    rw [h2, components_ok (component_doc hok (by simp))]
    simp [finish, PComp.name, PCal.toCalendar, PComp.props, PComp.comps]
  · exact absurd hf h7

/-! ### Examples -/

def sampleEls : List Element :=
  [.line ⟨c!"PRODID", [], c!"me"⟩,
   .comp c!"BEGIN" c!"End" c!"VEVENT" [.line ⟨c!"ATTENDEE", [(c!"CN", [c!"Doe, J"])], c!"mailto:j"⟩]]

def sampleText : Str :=
  c!"begin:VCALENDAR\r\nPRODID:m\r\n e\r\nBEGIN:VEVENT\r\nATTENDEE;C\r\n\tN=\"Doe, J\":mailto:j\r\nEnd:VEVENT\r\nEND:VCALENDAR\r\n"

omit [Uni] in
theorem sampleDocument : RfcDocument sampleEls sampleText := by
  refine ⟨c!"begin", c!"END", ?_, ?_⟩
  · simp only [sampleEls, Element.Nested, ElementsNested]
    decide +kernel
  · have hp : ∀ b v : Str, RfcName b → (∀ c ∈ v, ¬ ControlChar c) → StrictLine ⟨b, [], v⟩ (b ++ [':'] ++ v) :=
      fun b v hb hv => bare_strict hb hv
    unfold StrictText
    simp only [sampleEls, Element.lines, elementsLines, List.cons_append, List.nil_append]
    refine ⟨_, _, hp c!"begin" c!"VCALENDAR" (by decide) (by decide), ⟨_, _, hp c!"PRODID" c!"me" (by decide) (by decide),
      ⟨_, _, hp c!"BEGIN" c!"VEVENT" (by decide) (by decide), ⟨c!"ATTENDEE;CN=\"Doe, J\":mailto:j", _,
        ⟨c!";CN=\"Doe, J\"", by decide, ⟨c!"\"Doe, J\"", [], by decide, .inr ⟨rfl, by decide +kernel⟩, rfl, by decide +kernel⟩,
          by decide +kernel, by decide +kernel⟩,
        ⟨_, _, hp c!"End" c!"VEVENT" (by decide) (by decide), ⟨_, [], hp c!"END" c!"VCALENDAR" (by decide) (by decide), rfl, rfl⟩,
          rfl⟩, rfl⟩, rfl⟩, rfl⟩, ?_⟩
    decide +kernel

omit [Uni] in
theorem sampleEls_ok : ElementsAll OneValue sampleEls ∧ ElementsAll FreeName sampleEls := by
  simp only [sampleEls, ElementsAll, Element.All, OneValue, FreeName]
  refine ⟨⟨by simp, ⟨?_, trivial⟩, trivial⟩, by decide +kernel⟩
  simp

example : ∃ c, Calendar.fromStr sampleText = some c := (rfc_document_read_iff_partial sampleEls sampleText sampleDocument sampleEls_ok.1).2 sampleEls_ok.2
example := rfc_document_means_partial sampleEls sampleText sampleDocument sampleEls_ok.1 sampleEls_ok.2

/-- **C112** does not hold in full: there are documents of RFC 5545 that are rejected, and of which each line is as it
should be. -/
theorem rfc_document_read_violated : ∃ els t, RfcDocument els t ∧ Calendar.fromStr t = none := by
  have hd : RfcDocument [.line ⟨c!"ENDPOINT", [], c!"x"⟩] c!"BEGIN:VCALENDAR\r\nENDPOINT:x\r\nEND:VCALENDAR\r\n" := by
    refine ⟨c!"BEGIN", c!"END", ?_, ?_⟩
    · simp only [Element.Nested, ElementsNested]
      decide +kernel
    · have hp : ∀ b v : Str, RfcName b → (∀ c ∈ v, ¬ ControlChar c) → StrictLine ⟨b, [], v⟩ (b ++ [':'] ++ v) :=
        fun b v hb hv => bare_strict hb hv
      unfold StrictText
      simp only [Element.lines, elementsLines, List.cons_append, List.nil_append]
      refine ⟨_, _, hp c!"BEGIN" c!"VCALENDAR" (by decide) (by decide), ⟨_, _, hp c!"ENDPOINT" c!"x" (by decide) (by decide),
        ⟨_, [], hp c!"END" c!"VCALENDAR" (by decide) (by decide), rfl, rfl⟩, rfl⟩, ?_⟩
      decide +kernel
  refine ⟨_, _, hd, ?_⟩
  cases hc : Calendar.fromStr c!"BEGIN:VCALENDAR\r\nENDPOINT:x\r\nEND:VCALENDAR\r\n" with
  | none => rfl
  | some c =>
    have := (rfc_document_read_iff_partial _ _ hd (by simp [ElementsAll, Element.All, OneValue])).1 ⟨c, hc⟩
    simp only [ElementsAll, Element.All, FreeName] at this
    exact absurd this (by decide)

end Ical
