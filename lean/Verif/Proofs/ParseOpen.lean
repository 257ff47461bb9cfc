import Verif.Proofs.ParseDoc

/-!
Documents whose last components are still open when something else follows.
-/

namespace Ical

open Nom Spec

variable [Uni]

/-- putting children in front of a result -/
def prependChildren {β : Type} (l : List Child) : Res (List Child × β) → Res (List Child × β)
  | .ok r (l', b) => .ok r (l ++ l', b)
  | .error => .error
  | .failure => .failure

/-- an element of a body does not close it -/
theorem item_end {br : Break} {it : Item} (hi : it.Ok br) (name rest : Str) :
    componentEnd name (it.text br ++ rest) = .error := by
  refine line_error (item_lineEnding hi rest) ?_
  cases it with
  | prop key params val =>
    simp only [Item.Ok] at hi
    have := keyOk_line hi.1 params val (br.text ++ rest) (t := c!"END") (.inl rfl)
    simpa [Item.text] using this
  | comp b e' name' items' =>
    simp only [Item.Ok] at hi
    obtain ⟨c, s, rfl, hc⟩ := keyword_head hi.1
    simp only [Item.text, List.cons_append]
    exact prefixNoCase_head_ne (by rw [hc]; decide)

/-- a well-formed element of a body is read -/
theorem item_child {br : Break} {it : Item} (hi : it.Ok br) (l : List Item) {rest : Str}
    (hrest : lineEnding rest = .error) (hq : br = .lf → '\r' ∉ it.text br ++ rest) :
    ∃ ch, itemsChildren (it :: l) = ch :: itemsChildren l ∧
      componentChild component (it.text br ++ rest) = .ok rest ch := by
  have hle := item_lineEnding hi rest
  cases it with
  | prop key params val =>
    simp only [Item.Ok] at hi
    obtain ⟨hk, hp, hv⟩ := hi
    refine ⟨_, rfl, ?_⟩
    have hq' : br = .lf → '\r' ∉ val ++ rest := by
      intro hbr; have := hq hbr; simp [Item.text] at this ⊢; simp [this]
    have hpr := property_ok hk.name hk.notEnd hk.notBegin hp hv hq'
    have hb : component ((Item.prop key params val).text br ++ rest) = .error := by
      rw [component_eq]
      unfold componentBody
      rw [line_error hle]
      have := keyOk_line hk params val (br.text ++ rest) (t := c!"BEGIN") (.inr rfl)
      simpa [Item.text] using this
    unfold componentChild cut alt map
    rw [lineSeparated_error hle hb, lineSeparated_ok hle hpr (many0_lineEnding_none hrest)]
  | comp b e' name' items' =>
    refine ⟨_, rfl, ?_⟩
    have hc := component_ok hi hrest hq
    unfold componentChild cut alt map
    rw [lineSeparated_ok hle hc (many0_lineEnding_none hrest)]

/-- the body parser reads through well-formed elements -/
theorem body_append {br : Break} {items : List Item} (h : ItemsOk br items) {name : Str} {s : Str}
    (hs : lineEnding s = .error) (hq : br = .lf → '\r' ∉ itemsText br items ++ s) :
    manyTill (componentChild component) (componentEnd name) (itemsText br items ++ s) =
      prependChildren (itemsChildren items) (manyTill (componentChild component) (componentEnd name) s) := by
  induction items with
  | nil =>
    simp only [itemsText, List.nil_append, itemsChildren]
    cases manyTill (componentChild component) (componentEnd name) s <;> rfl
  | cons it l ih =>
    simp only [ItemsOk] at h
    obtain ⟨hi, hl⟩ := h
    have ih := ih hl (by intro hbr; have := hq hbr; simp [itemsText] at this ⊢; simp [this])
    rw [itemsText, List.append_assoc] at hq ⊢
    obtain ⟨ch, hch1, hch2⟩ := item_child hi l (items_lineEnding hl hs) hq
    rw [manyTill_eq (shrinks_componentChild shrinks_component), item_end hi, hch2, hch1]
    simp only
    rw [if_neg (by have := item_text_pos br it; simp only [List.length_append]; omega), ih]
    cases manyTill (componentChild component) (componentEnd name) s <;> rfl

theorem framesOk_append {br : Break} {fs gs : List Frame} (h : FramesOk br fs) (h' : FramesOk br gs) :
    FramesOk br (fs ++ gs) := by
  induction fs with
  | nil => exact h'
  | cons f fs ih =>
    simp only [List.cons_append, FramesOk] at h ⊢
    exact ⟨h.1, h.2.1, h.2.2.1, ih h.2.2.2⟩

theorem open_lineEnding {br : Break} {fs : List Frame} (h : FramesOk br fs) {t : Str}
    (ht : lineEnding t = .error) : lineEnding (openText br fs ++ t) = .error := by
  cases fs with
  | nil => simpa [openText] using ht
  | cons f fs =>
    obtain ⟨b, n, items⟩ := f
    simp only [FramesOk] at h
    simp only [openText, List.append_assoc]
    exact keyword_lineEnding h.1 (by decide) (by decide)

/-- one frame: the component result in terms of the body result on what follows -/
theorem component_frame {br : Break} {b n : Str} {items : List Item}
    (hb : b.map lowerAscii = c!"begin:") (hn : IsName n) (hi : ItemsOk br items) {t : Str}
    (ht : lineEnding t = .error) (hq : br = .lf → '\r' ∉ itemsText br items ++ t) :
    component (b ++ n ++ br.text ++ itemsText br items ++ t) =
      match manyTill (componentChild component) (componentEnd n) t with
      | .error => .error
      | .failure => .failure
      | .ok i (children, _) =>
        match many0 (tag ['\n']) i with
        | .error => .error
        | .failure => .failure
        | .ok i _ => .ok i (.mk n (childProps (itemsChildren items ++ children))
            (childComps (itemsChildren items ++ children))) := by
  rw [component_eq]
  unfold componentBody
  have h1 : line c!"BEGIN:" validKeySequence (b ++ n ++ br.text ++ itemsText br items ++ t) =
      .ok (itemsText br items ++ t) n := by
    rw [List.append_assoc, List.append_assoc, List.append_assoc]
    refine line_ok (br := br) (by rw [hb]; decide) (keyword_lineEnding hb (by decide) (by decide)) ?_
      (items_lineEnding hi ht)
    exact validKeySequence_ok hn (stopsAt_break br)
  rw [h1]
  simp only
  rw [body_append hi ht hq]
  cases manyTill (componentChild component) (componentEnd n) t <;> rfl

/-- a failing body makes every enclosing component fail -/
theorem open_failure {br : Break} {fs : List Frame} (h : FramesOk br fs) {b n : Str} {items : List Item}
    (hf : FramesOk br [(b, n, items)]) {t : Str} (ht : lineEnding t = .error)
    (hq : br = .lf → '\r' ∉ openText br (fs ++ [(b, n, items)]) ++ t)
    (hbody : manyTill (componentChild component) (componentEnd n) t = .failure) :
    component (openText br (fs ++ [(b, n, items)]) ++ t) = .failure := by
  induction fs with
  | nil =>
    simp only [FramesOk] at hf
    simp only [List.nil_append, openText, List.append_nil] at hq ⊢
    rw [component_frame hf.1 hf.2.1 hf.2.2.1 ht, hbody]
    intro hbr; have := hq hbr; simp at this ⊢; simp [this]
  | cons f fs ih =>
    obtain ⟨b', n', items'⟩ := f
    simp only [FramesOk] at h
    have hin := ih h.2.2.2 (by intro hbr; have := hq hbr; simp [openText] at this ⊢; simp [this])
    have hfs : FramesOk br (fs ++ [(b, n, items)]) := framesOk_append h.2.2.2 hf
    have hle := open_lineEnding hfs ht
    have e : openText br ((b', n', items') :: fs ++ [(b, n, items)]) ++ t =
        b' ++ n' ++ br.text ++ itemsText br items' ++ (openText br (fs ++ [(b, n, items)]) ++ t) := by
      simp [openText]
    rw [e] at hq ⊢
    rw [component_frame h.1 h.2.1 h.2.2.1 hle (by intro hbr; have := hq hbr; simp at this ⊢; simp [this])]
    have hend : componentEnd n' (openText br (fs ++ [(b, n, items)]) ++ t) = .error := by
      refine line_error hle ?_
      cases hc : fs ++ [(b, n, items)] with
      | nil => simp at hc
      | cons g gs =>
        obtain ⟨b2, n2, i2⟩ := g
        rw [hc] at hfs
        simp only [FramesOk] at hfs
        obtain ⟨c, s, rfl, hcc⟩ := keyword_head hfs.1
        simp only [openText, List.cons_append]
        exact prefixNoCase_head_ne (by rw [hcc]; decide)
    rw [manyTill_eq (shrinks_componentChild shrinks_component), hend]
    have : componentChild component (openText br (fs ++ [(b, n, items)]) ++ t) = .failure := by
      unfold componentChild cut alt map
      rw [lineSeparated_failure hle hin]
    simp only [this]

/-- at the end of the input the body of a component is not over -/
theorem body_eof (n : Str) : manyTill (componentChild component) (componentEnd n) [] = .error := by
  rfl

/-- `component` on nothing, and on text that does not start with its keyword -/
theorem component_error {i : Str} (hl : lineEnding i = .error) (h : prefixNoCase c!"BEGIN:" i = false) :
    component i = .error := by
  rw [component_eq]
  unfold componentBody
  rw [line_error hl h]

/-- text that starts like a keyword is not a property -/
theorem property_failure {i : Str} (h : c!"END" <+: i ∨ c!"BEGIN" <+: i) : property i = .failure := by
  have hk : propertyKey i = .error := by
    unfold propertyKey
    rw [if_pos]
    rw [Bool.or_eq_true, List.isPrefixOf_iff_prefix, List.isPrefixOf_iff_prefix]
    exact h
  have hm : multispace0 i = .ok i [] := by
    apply takeWhile_ok (a := []) (by simp)
    intro c hc
    cases i with
    | nil => simp at hc
    | cons d s =>
      simp only [List.head?_cons, Option.some.injEq] at hc
      subst hc
      rcases h with h | h <;> (rw [List.cons_prefix_cons] at h; obtain ⟨rfl, -⟩ := h; rfl)
  unfold property cut map pair propertyParts alt separatedPair map pair
  unfold cut preceded map pair
  simp only [hm, hk]

/-- a component that is never closed makes the enclosing body fail -/
theorem child_unclosed {i : Str} (h : c!"BEGIN" <+: i) (hc : component i = .error) :
    componentChild component i = .failure := by
  have hl : lineEnding i = .error := by
    obtain ⟨s, rfl⟩ := h
    exact lineEnding_cons_error (by decide) (by decide)
  unfold componentChild cut alt map
  rw [lineSeparated_error hl hc, lineSeparated_failure hl (property_failure (.inr h))]

/-- two or more open components (with upper-case keyword for the inner one) and an unfinished body -/
theorem open_unclosed {br : Break} {fs : List Frame} (h : FramesOk br fs) (hne : fs ≠ [])
    {n : Str} {items : List Item} (hf : FramesOk br [(c!"BEGIN:", n, items)]) {t : Str}
    (ht : lineEnding t = .error)
    (hq : br = .lf → '\r' ∉ openText br (fs ++ [(c!"BEGIN:", n, items)]) ++ t)
    (hbody : manyTill (componentChild component) (componentEnd n) t = .error) :
    component (openText br (fs ++ [(c!"BEGIN:", n, items)]) ++ t) = .failure := by
  obtain ⟨gs, ⟨b', n', items'⟩, rfl⟩ : ∃ gs g, fs = gs ++ [g] :=
    ⟨fs.dropLast, fs.getLast hne, (List.dropLast_concat_getLast hne).symm⟩
  have hgs : FramesOk br gs ∧ FramesOk br [(b', n', items')] := by
    clear hq hne
    induction gs with
    | nil => exact ⟨trivial, h⟩
    | cons g gs ih =>
      simp only [List.cons_append, FramesOk] at h
      have := ih h.2.2.2
      exact ⟨⟨h.1, h.2.1, h.2.2.1, this.1⟩, this.2⟩
  have eapp : ∀ (l : List Frame) (k : List Frame), openText br (l ++ k) = openText br l ++ openText br k := by
    intro l k
    induction l with
    | nil => rfl
    | cons f l ih =>
      obtain ⟨b, n, i⟩ := f
      simp [openText, ih]
  have e : openText br (gs ++ [(b', n', items')] ++ [(c!"BEGIN:", n, items)]) ++ t =
      openText br (gs ++ [(b', n', items')]) ++ (openText br [(c!"BEGIN:", n, items)] ++ t) := by
    rw [eapp _ [(c!"BEGIN:", n, items)]]
    simp
  rw [e] at hq ⊢
  have hle := open_lineEnding hf ht
  refine open_failure hgs.1 hgs.2 hle hq ?_
  have hpre : c!"BEGIN" <+: openText br [(c!"BEGIN:", n, items)] ++ t := by
    simp [openText]
  have hend : componentEnd n' (openText br [(c!"BEGIN:", n, items)] ++ t) = .error := by
    refine line_error hle ?_
    simp only [openText, List.cons_append]
    exact prefixNoCase_head_ne (by decide)
  have hc : component (openText br [(c!"BEGIN:", n, items)] ++ t) = .error := by
    simp only [FramesOk] at hf
    simp only [openText, List.append_nil]
    rw [component_frame hf.1 hf.2.1 hf.2.2.1 ht, hbody]
    intro hbr; have := hq hbr; simp [openText] at this ⊢; simp [this]
  rw [manyTill_eq (shrinks_componentChild shrinks_component), hend, child_unclosed hpre hc]

/-! ### Whole documents -/

theorem component_nil : component [] = .error := rfl

theorem components_ok {i : Str} {c : PComp} (h : component i = .ok [] c) : components i = .ok [] [c] := by
  refine many0_ok (shrinks_allConsuming shrinks_component) (r := []) (a := c) ?_ ?_ (many0_error ?_)
  · simp [allConsuming, h]
  · cases i with
    | nil => simp [component_nil] at h
    | cons x s => simp
  · simp [allConsuming, component_nil]

theorem components_none {i : Str} (h : component i = .error ∨ ∃ r c, r ≠ [] ∧ component i = .ok r c) :
    components i = .ok i [] := by
  refine many0_error ?_
  rcases h with h | ⟨r, c, hr, h⟩
  · simp [allConsuming, h]
  · simp [allConsuming, h, hr]

theorem components_failure {i : Str} (h : component i = .failure) : components i = .failure := by
  refine many0_failure ?_
  simp [allConsuming, h]

/-- `components` in terms of `component` -/
theorem components_cases (i : Str) :
    (∃ c, component i = .ok [] c ∧ components i = .ok [] [c]) ∨
    ((component i = .error ∨ ∃ r c, r ≠ [] ∧ component i = .ok r c) ∧ components i = .ok i []) ∨
    (component i = .failure ∧ components i = .failure) := by
  cases h : component i with
  | error => exact .inr (.inl ⟨.inl rfl, components_none (.inl h)⟩)
  | failure => exact .inr (.inr ⟨rfl, components_failure h⟩)
  | ok r c =>
    by_cases hr : r = []
    · subst hr
      exact .inl ⟨c, rfl, components_ok h⟩
    · exact .inr (.inl ⟨.inr ⟨r, c, hr, rfl⟩, components_none (.inr ⟨r, c, hr, h⟩)⟩)

end Ical
