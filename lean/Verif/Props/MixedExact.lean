import Verif.Props.Mixed
import Verif.Proofs.ParseOpen
import Verif.Proofs.ParseNames
import Verif.Proofs.Acceptance

/-!
C80: exactly which files with line breaks of both kinds are read faithfully.
-/

namespace Ical

open Nom Spec

/-- the text up to the first CRLF -/
theorem first_crlf {s : Str} (h : ['\r', '\n'] <:+: s) : ∃ w r, s = w ++ '\r' :: '\n' :: r ∧ ¬ ['\r', '\n'] <:+: w := by
  cases hf : findSub ['\r', '\n'] s with
  | none => exact absurd h (findSub_none hf)
  | some x =>
    obtain ⟨w, y⟩ := x
    obtain ⟨rfl, r, rfl⟩ := findSub_some hf
    exact ⟨w, r, by simp, findSub_crlf_free hf⟩

theorem first_lf {s : Str} (h : '\n' ∈ s) : ∃ w r, s = w ++ '\n' :: r ∧ '\n' ∉ w := by
  induction s with
  | nil => cases h
  | cons c s ih =>
    by_cases hc : c = '\n'
    · subst hc
      exact ⟨[], s, rfl, by simp⟩
    · obtain ⟨w, r, rfl, hw⟩ := ih (by simpa [Ne.symm hc] using h)
      exact ⟨c :: w, r, rfl, by simp [hw, Ne.symm hc]⟩

/-- a character without a meaning of its own stands for itself wherever it is -/
theorem unescapedRun_append {c : Char} (hc : c ≠ '\\') (hm : escapeMeaning c = none) (v f : Str) (k : Nat) :
    unescapedRun k (v ++ c :: f) = unescapedRun k v ++ c :: unescapedRun 0 f := by
  induction v generalizing k with
  | nil =>
    simp only [List.nil_append, unescapedRun, if_neg hc, hm]
    split
    · rename_i h0
      subst h0
      simp
    · rfl
  | cons d v ih =>
    simp only [List.cons_append, unescapedRun, ih]
    split
    · rfl
    · split
      · rfl
      · split <;> simp

/-- a content line that ends in LF and is followed by a CRLF is read as something else -/
theorem meaning_ne {v w g r : Str} (key : Str) (params : List DParam) (hv : '\n' ∉ v)
    (h : v ++ '\n' :: g = w ++ '\r' :: '\n' :: r) :
    meaningProp key params w ≠ meaningProp key params v := by
  have key1 : ∀ (c : Char) (a b : Str), c ≠ '\\' → escapeMeaning c = none →
      unescaped (a ++ c :: b) ≠ unescaped a ∧ a ++ c :: b ≠ a := by
    intro c a b hc hm
    constructor
    · unfold unescaped
      rw [unescapedRun_append hc hm]
      intro he
      have := congrArg List.length he
      simp at this
    · intro he
      have := congrArg List.length he
      simp at this
  have hval : (meaningProp key params w).val ≠ (meaningProp key params v).val := by
    rcases List.append_eq_append_iff.1 h with ⟨a, rfl, h2⟩ | ⟨a, rfl, h2⟩
    · cases a with
      | nil => simp at h2
      | cons d a =>
        obtain ⟨rfl, -⟩ := List.cons.inj h2
        have := key1 '\n' v a (by decide) (by decide)
        unfold meaningProp
        simp only
        split
        · exact this.1
        · exact this.2
    · cases a with
      | nil => simp at h2
      | cons d a =>
        obtain ⟨rfl, -⟩ := List.cons.inj h2
        have := key1 '\r' w a (by decide) (by decide)
        unfold meaningProp
        simp only
        split
        · exact this.1.symm
        · exact this.2.symm
  exact fun he => hval (congrArg PProp.val he)

variable [Uni]

/-- what a line that is not a keyword in upper case is read as, if no component is -/
theorem property_any {k rest : Str} (hk : IsName k) (h1 : ¬ c!"END" <+: k) (h2 : ¬ c!"BEGIN" <+: k) (hn : '\n' ∈ rest) :
    ∃ r p, property (k ++ ':' :: rest) = .ok r p ∧ p.name = k := by
  by_cases hc : ['\r', '\n'] <:+: rest
  · obtain ⟨w, r, rfl, hw⟩ := first_crlf hc
    have := property_ok (br := .crlf) (params := []) (val := w) (r := r) hk h1 h2 (by simp) hw (by simp)
    exact ⟨r, _, by simpa [Item.text, Break.text] using this, rfl⟩
  · obtain ⟨w, r, rfl, hw⟩ := first_lf hn
    have := property_mixed (br := .lf) (params := []) (val := w) (r := r) hk h1 h2 (by simp) hw (fun _ => hc)
    exact ⟨r, _, by simpa [Item.text, Break.text] using this, rfl⟩

omit [Uni] in
theorem childProps_cons_prop (p : PProp) (l : List Child) : childProps (.prop p :: l) = p :: childProps l := rfl
omit [Uni] in
theorem childProps_cons_comp (c : PComp) (l : List Child) : childProps (.comp c :: l) = childProps l := rfl
omit [Uni] in
theorem childComps_cons_prop (p : PProp) (l : List Child) : childComps (.prop p :: l) = childComps l := rfl
omit [Uni] in
theorem childComps_cons_comp (c : PComp) (l : List Child) : childComps (.comp c :: l) = c :: childComps l := rfl

/-- the first element of a body -/
theorem body_first {n i r r1 nm : Str} {ch : List Child} {a : Child} (he : componentEnd n i = .error)
    (hc : componentChild component i = .ok r1 a)
    (h : manyTill (componentChild component) (componentEnd n) i = .ok r (ch, nm)) :
    ∃ ch', ch = a :: ch' ∧ manyTill (componentChild component) (componentEnd n) r1 = .ok r (ch', nm) := by
  rw [manyTill_eq (shrinks_componentChild shrinks_component), he, hc] at h
  simp only at h
  split at h
  · cases h
  · cases hm : manyTill (componentChild component) (componentEnd n) r1 with
    | ok r2 x =>
      obtain ⟨l, b⟩ := x
      rw [hm] at h
      cases h
      exact ⟨l, rfl, rfl⟩
    | error => rw [hm] at h; cases h
    | failure => rw [hm] at h; cases h

/-- the names of the properties of a document -/
theorem mixed_names {q : Str → Str → Prop} : ∀ {items : List Item} {t f : Str}, MixedTexts q items t f →
    ∀ p ∈ itemsProps items, KeyOk p.name
  | [], _, _, _, p, hp => by simp [itemsProps] at hp
  | .prop key params val :: l, t, f, h, p, hp => by
    unfold MixedTexts MixedText at h
    obtain ⟨s1, s2, ⟨br, bl, hbl, hk, -⟩, hs2, rfl⟩ := h
    simp only [itemsProps, List.mem_cons] at hp
    rcases hp with rfl | hp
    · exact hk
    · exact mixed_names hs2 p hp
  | .comp b e n sub :: l, t, f, h, p, hp => by
    unfold MixedTexts at h
    obtain ⟨s1, s2, -, hs2, rfl⟩ := h
    simp only [itemsProps] at hp
    exact mixed_names hs2 p hp

/-- If the elements of a body are read as they are, no line of it swallows another. -/
theorem body_exact : ∀ (items : List Item) {body X : Str} {n r nm : Str} {ch : List Child},
    MixedTexts (fun _ _ => True) items body X → lineEnding X = .error →
    manyTill (componentChild component) (componentEnd n) (body ++ X) = .ok r (ch, nm) →
    childProps ch = itemsProps items → childComps ch = itemsComps items → MixedTexts NoCrlfAfter items body X
  | [], body, X, n, r, nm, ch, h, _, _, _, _ => by
    unfold MixedTexts at h ⊢
    exact h
  | .prop key params val :: l, body, X, n, r, nm, ch, h, hX, hm, h1, h2 => by
    unfold MixedTexts MixedText at h ⊢
    obtain ⟨s1, s2, ⟨br, bl, hbl, hk, hp, hv, rfl, -⟩, hs2, rfl⟩ := h
    rw [List.append_assoc, List.append_assoc] at hm
    have hrest := mixedAll_lineEnding hs2 hX
    have hle := item_lineEnding (br := br) (it := .prop key params val) (by simp only [Item.Ok]; exact ⟨hk, hp, hv⟩)
      (bl ++ (s2 ++ X))
    have e1 : (Item.prop key params val).text br ++ (bl ++ (s2 ++ X)) =
        key ++ ((params.map DParam.text).flatten ++ (':' :: (val ++ (br.text ++ (bl ++ (s2 ++ X)))))) := by
      simp [Item.text]
    have hend : componentEnd n ((Item.prop key params val).text br ++ (bl ++ (s2 ++ X))) = .error :=
      line_error hle (by rw [e1]; exact keyOk_line hk params val _ (.inl rfl))
    have hb : component ((Item.prop key params val).text br ++ (bl ++ (s2 ++ X))) = .error :=
      component_error hle (by rw [e1]; exact keyOk_line hk params val _ (.inr rfl))
    by_cases hq : br = .lf → NoCrlfAfter val (bl ++ (s2 ++ X))
    · refine ⟨_, s2, ⟨br, bl, hbl, hk, hp, hv, rfl, hq⟩, ?_, rfl⟩
      have hpr := property_mixed hk.name hk.notEnd hk.notBegin hp hv hq
      have hsep := lineSeparated_blank (lead := []) blank_nil hle hpr hbl hrest
      rw [List.nil_append] at hsep
      have hch : componentChild component ((Item.prop key params val).text br ++ (bl ++ (s2 ++ X))) =
          .ok (s2 ++ X) (.prop (meaningProp key params val)) := by
        unfold componentChild cut alt map
        rw [lineSeparated_error hle hb, hsep]
      obtain ⟨ch', rfl, hm'⟩ := body_first hend hch hm
      rw [childProps_cons_prop, itemsProps] at h1
      rw [childComps_cons_prop, itemsComps] at h2
      exact body_exact l hs2 hX hm' (List.cons.inj h1).2 h2
    · exfalso
      obtain ⟨rfl, hq'⟩ := Classical.not_imp.1 hq
      unfold NoCrlfAfter at hq'
      obtain ⟨w, r', hw, hw'⟩ := first_crlf (Classical.not_not.1 hq')
      have hpr := property_ok (br := .crlf) (params := params) (val := w) (r := r') hk.name hk.notEnd hk.notBegin hp hw'
        (by simp)
      have e2 : (Item.prop key params w).text .crlf ++ r' =
          (Item.prop key params val).text .lf ++ (bl ++ (s2 ++ X)) := by
        rw [e1]
        simp [Item.text, Break.text, ← hw]
      rw [e2] at hpr
      obtain ⟨bl', r'', l', h3, h4, h5⟩ := many0_lineEnding r'
      have hch : componentChild component ((Item.prop key params val).text .lf ++ (bl ++ (s2 ++ X))) =
          .ok r'' (.prop (meaningProp key params w)) := by
        unfold componentChild cut alt map
        rw [lineSeparated_error hle hb, lineSeparated_ok hle hpr h3]
      obtain ⟨ch', rfl, hm'⟩ := body_first hend hch hm
      rw [childProps_cons_prop, itemsProps] at h1
      exact meaning_ne key params hv hw (List.cons.inj h1).1
  | .comp b e n' sub :: l, body, X, n, r, nm, ch, h, hX, hm, h1, h2 => by
    have hnames := mixed_names h
    unfold MixedTexts at h ⊢
    obtain ⟨s1, s2, hs1, hs2, rfl⟩ := h
    have hrest := mixedAll_lineEnding hs2 hX
    have hle := mixed_lineEnding hs1 (s2 ++ X)
    unfold MixedText at hs1
    obtain ⟨br, bl, body', br', bl', hbl, hbl', hb1, he1, hn1, hbody, rfl⟩ := hs1
    rw [List.append_assoc] at hm
    generalize hi : b ++ (n' ++ (br.text ++ bl ++ (body' ++ (e ++ (n' ++ (br'.text ++ bl')))))) ++ (s2 ++ X) = i at hm hle
    have hi' : i = b ++ (n' ++ (br.text ++ bl ++ (body' ++ (e ++ (n' ++ ((br'.text ++ bl') ++ (s2 ++ X))))))) := by
      rw [← hi]; simp
    have hend : componentEnd n i = .error := by
      refine line_error hle ?_
      obtain ⟨c, s, rfl, hc⟩ := keyword_head hb1
      rw [hi', List.cons_append]
      exact prefixNoCase_head_ne (by rw [hc]; decide)
    have hX' : lineEnding (e ++ (n' ++ ((br'.text ++ bl') ++ (s2 ++ X)))) = .error :=
      keyword_lineEnding he1 (by decide) (by decide)
    -- the inner component
    cases hco : component i with
    | ok r1 c =>
      obtain ⟨bl'', r2, l2, h3, h4, h5⟩ := many0_lineEnding r1
      have hch : componentChild component i = .ok r2 (.comp c) := by
        unfold componentChild cut alt map
        rw [lineSeparated_ok hle hco h3]
      obtain ⟨ch', rfl, hm'⟩ := body_first hend hch hm
      rw [childProps_cons_comp, itemsProps] at h1
      rw [childComps_cons_comp, itemsComps] at h2
      obtain ⟨h6, h7⟩ := List.cons.inj h2
      subst h6
      -- the inner body
      have hline : line c!"BEGIN:" validKeySequence i =
          .ok (body' ++ (e ++ (n' ++ ((br'.text ++ bl') ++ (s2 ++ X))))) n' := by
        rw [hi']
        exact line_blank (lead := []) blank_nil (by rw [hb1]; decide) (keyword_lineEnding hb1 (by decide) (by decide))
          (validKeySequence_ok hn1 (by rw [List.append_assoc]; exact stopsAt_break br)) (blank_break br hbl)
          (mixedAll_lineEnding hbody (by simpa using hX'))
      have hco' := hco
      rw [component_eq] at hco
      unfold componentBody at hco
      rw [hline] at hco
      simp only at hco
      cases hin : manyTill (componentChild component) (componentEnd n')
          (body' ++ (e ++ (n' ++ ((br'.text ++ bl') ++ (s2 ++ X))))) with
      | error => rw [hin] at hco; cases hco
      | failure => rw [hin] at hco; cases hco
      | ok r3 x =>
        obtain ⟨ch2, nm2⟩ := x
        rw [hin] at hco
        simp only at hco
        cases hlf : many0 (tag ['\n']) r3 with
        | error => rw [hlf] at hco; cases hco
        | failure => rw [hlf] at hco; cases hco
        | ok r4 y =>
          rw [hlf] at hco
          simp only [Res.ok.injEq, PComp.mk.injEq] at hco
          obtain ⟨-, -, hp2, hc2⟩ := hco
          have hinner := body_exact sub (by simpa using hbody) hX' hin hp2 hc2
          have hread := component_mixed (lead := []) (br := br) hb1 he1 hn1 blank_nil hbl hinner
            (blank_break br' hbl') hrest
          rw [List.nil_append, ← hi', hco'] at hread
          simp only [Res.ok.injEq, and_true] at hread
          subst hread
          rw [many0_lineEnding_none hrest] at h3
          simp only [Res.ok.injEq] at h3
          obtain ⟨rfl, -⟩ := h3
          refine ⟨_, s2, ?_, body_exact l hs2 hX hm' h1 h7, rfl⟩
          unfold MixedText
          exact ⟨br, bl, body', br', bl', hbl, hbl', hb1, he1, hn1, by simpa using hinner, rfl⟩
    | failure =>
      exfalso
      have hch : componentChild component i = .failure := by
        unfold componentChild cut alt map
        rw [lineSeparated_failure hle hco]
      rw [manyTill_eq (shrinks_componentChild shrinks_component), hend, hch] at hm
      cases hm
    | error =>
      exfalso
      by_cases hB : c!"BEGIN" <+: b
      · have hch := child_unclosed (i := i) (by rw [hi']; exact hB.trans (List.prefix_append _ _)) hco
        rw [manyTill_eq (shrinks_componentChild shrinks_component), hend, hch] at hm
        cases hm
      · have hbl6 : b.length = 6 := by simpa using congrArg List.length hb1
        have hbs : b = b.take 5 ++ [':'] := by
          have h8 : (b.drop 5).map lowerAscii = [':'] := by rw [List.map_drop, hb1]; rfl
          have h9 : b.drop 5 = [':'] := by
            have hl : (b.drop 5).length = 1 := by simp [hbl6]
            match hd : b.drop 5, hl with
            | [x], _ =>
              rw [hd] at h8
              simp only [List.map_cons, List.map_nil, List.cons.injEq, and_true] at h8
              rw [lowerAscii_eq (by decide) h8]
          rw [← h9, List.take_append_drop]
        have hk5 : (b.take 5).map lowerAscii = c!"begin" := by rw [List.map_take, hb1]; rfl
        have hname : IsName (b.take 5) := by
          intro c hc
          have : lowerAscii c ∈ c!"begin" := by
            rw [← hk5]
            exact List.mem_map_of_mem hc
          exact letter_nameChar (by revert this; generalize lowerAscii c = d; revert d; decide) rfl
        have hE : ¬ c!"END" <+: b.take 5 := by
          rintro ⟨u, hu⟩
          rw [← hu] at hk5
          simp [lowerAscii] at hk5
        have hB' : ¬ c!"BEGIN" <+: b.take 5 := fun hc => hB (hc.trans (List.take_prefix _ _))
        obtain ⟨r1, p, hp, hpn⟩ := property_any
          (rest := n' ++ (br.text ++ bl ++ (body' ++ (e ++ (n' ++ ((br'.text ++ bl') ++ (s2 ++ X))))))) hname hE hB'
          (by cases br <;> simp [Break.text])
        have hi2 : b.take 5 ++ ':' :: (n' ++ (br.text ++ bl ++ (body' ++ (e ++ (n' ++ ((br'.text ++ bl') ++ (s2 ++ X))))))) =
            i := by
          rw [hi']
          conv => rhs; rw [hbs]
          simp
        rw [hi2] at hp
        obtain ⟨bl'', r2, l2, h3, h4, h5⟩ := many0_lineEnding r1
        have hch : componentChild component i = .ok r2 (.prop p) := by
          unfold componentChild cut alt map
          rw [lineSeparated_error hle hco, lineSeparated_ok hle hp h3]
        obtain ⟨ch', rfl, hm'⟩ := body_first hend hch hm
        have := hnames p (by rw [← h1, childProps_cons_prop]; simp)
        rw [hpn] at this
        exact this.notBeginAnyCase hk5

omit [Uni] in
theorem items_empty {items : List Item} (h1 : itemsProps items = []) (h2 : itemsComps items = []) : items = [] := by
  cases items with
  | nil => rfl
  | cons i l =>
    cases i with
    | prop k ps v => simp [itemsProps] at h1
    | comp b e n sub => simp [itemsComps] at h2

/-- **C80** (partial: not all choices of line breaks). A file with a document whose lines end in CRLF or LF is read as
the elements of the document exactly if no CRLF comes after a content line that ends in LF. -/
theorem mixed_breaks_exact_partial {b e : Str} {items : List Item} {file : Str}
    (hf : MixedFile (fun _ _ => True) (.comp b e c!"VCALENDAR" items) file) :
    readCalendar (unfold file) = some ⟨itemsProps items, itemsComps items⟩ ↔
      MixedFile NoCrlfAfter (.comp b e c!"VCALENDAR" items) file := by
  constructor
  · intro h
    unfold MixedFile MixedText at hf ⊢
    obtain ⟨lead, s, h0, ⟨br, bl, body, br', bl', h1, h2, h3, h4, h5, h6, rfl⟩, hfold⟩ := hf
    refine ⟨lead, _, h0, ⟨br, bl, body, br', bl', h1, h2, h3, h4, h5, ?_, rfl⟩, hfold⟩
    have hu : unfold file = lead ++ (b ++ (c!"VCALENDAR" ++ (br.text ++ bl ++ (body ++ (e ++ (c!"VCALENDAR" ++
        (br'.text ++ bl' ++ []))))))) := by
      obtain ⟨p, rest, ht, rfl, m1, m2, m3⟩ := hfold
      rw [unfold_any_folding p rest m1 m2 m3, ← ht]
      simp
    have hX : lineEnding (e ++ (c!"VCALENDAR" ++ (br'.text ++ bl' ++ []))) = .error :=
      keyword_lineEnding h4 (by decide) (by decide)
    have hline : line c!"BEGIN:" validKeySequence (unfold file) =
        .ok (body ++ (e ++ (c!"VCALENDAR" ++ (br'.text ++ bl' ++ [])))) c!"VCALENDAR" := by
      rw [hu]
      exact line_blank h0 (by rw [h3]; decide) (keyword_lineEnding h3 (by decide) (by decide))
        (validKeySequence_ok h5 (by rw [List.append_assoc]; exact stopsAt_break br)) (blank_break br h1)
        (mixedAll_lineEnding h6 hX)
    have hempty : (⟨[], []⟩ : PCal) = ⟨itemsProps items, itemsComps items⟩ →
        MixedTexts NoCrlfAfter items body (e ++ (c!"VCALENDAR" ++ (br'.text ++ bl' ++ []))) := by
      intro he
      simp only [PCal.mk.injEq] at he
      have := items_empty he.1.symm he.2.symm
      subst this
      unfold MixedTexts at h6 ⊢
      exact h6
    unfold readCalendar at h
    rcases components_cases (unfold file) with ⟨c, hc, hcs⟩ | ⟨-, hcs⟩ | ⟨-, hcs⟩
    · rw [hcs] at h
      rw [component_eq] at hc
      unfold componentBody at hc
      rw [hline] at hc
      simp only at hc
      cases hin : manyTill (componentChild component) (componentEnd c!"VCALENDAR")
          (body ++ (e ++ (c!"VCALENDAR" ++ (br'.text ++ bl' ++ [])))) with
      | error => rw [hin] at hc; cases hc
      | failure => rw [hin] at hc; cases hc
      | ok r3 x =>
        obtain ⟨ch2, nm2⟩ := x
        rw [hin] at hc
        simp only at hc
        cases hlf : many0 (tag ['\n']) r3 with
        | error => rw [hlf] at hc; cases hc
        | failure => rw [hlf] at hc; cases hc
        | ok r4 y =>
          rw [hlf] at hc
          simp only [Res.ok.injEq] at hc
          obtain ⟨-, rfl⟩ := hc
          simp only [finish, PComp.name, PComp.props, PComp.comps, if_true, Option.some.injEq, PCal.mk.injEq] at h
          exact body_exact items h6 hX hin h.1 h.2
    · rw [hcs] at h
      simp only [finish, Option.some.injEq] at h
      exact hempty h
    · rw [hcs] at h
      cases h
  · intro h
    unfold readCalendar
    rw [components_ok (mixed_read h)]
    simp [finish, PComp.name, PComp.props, PComp.comps]

end Ical

namespace Ical

open Nom Spec

/-- a value that ends in a carriage return, in a line that ends in LF: it loses its last character -/
example :
    let items := [Item.prop c!"X-A" [] c!"1\r"]
    let file := c!"BEGIN:VCALENDAR\r\nX-A:1\r\nEND:VCALENDAR\r\n"
    @MixedFile Uni.ascii (fun _ _ => True) (.comp c!"BEGIN:" c!"END:" c!"VCALENDAR" items) file ∧
    ¬ @MixedFile Uni.ascii NoCrlfAfter (.comp c!"BEGIN:" c!"END:" c!"VCALENDAR" items) file := by
  have hf : @MixedFile Uni.ascii (fun _ _ => True) (.comp c!"BEGIN:" c!"END:" c!"VCALENDAR"
      [Item.prop c!"X-A" [] c!"1\r"]) c!"BEGIN:VCALENDAR\r\nX-A:1\r\nEND:VCALENDAR\r\n" := by
    have hk : ∀ k ∈ [c!"X-A"], @KeyOk Uni.ascii k := by decide +kernel
    simp only [MixedFile, MixedText, MixedTexts]
    refine ⟨[], _, blank_nil, ⟨.crlf, [], c!"X-A:1\r\n", .crlf, [], blank_nil, blank_nil, by decide, by decide,
      by decide +kernel, ⟨c!"X-A:1\r\n", [], ⟨.lf, [], blank_nil, hk _ (by simp), by simp, by simp [ValOk],
        by decide +kernel, by simp⟩, rfl, rfl⟩, rfl⟩, ?_⟩
    exact ⟨_, [], by simp [unmarked, Break.text]; rfl, by simp [joinMarked], by decide +kernel, by simp, trivial⟩
  refine ⟨hf, fun h => ?_⟩
  have h1 := (@mixed_breaks_exact_partial Uni.ascii _ _ _ _ hf).2 h
  have h2 : (@readCalendar Uni.ascii (unfold c!"BEGIN:VCALENDAR\r\nX-A:1\r\nEND:VCALENDAR\r\n")).map
      (fun c => c.props.map PProp.val) = some [c!"1"] := by decide +kernel
  rw [h1] at h2
  exact absurd h2 (by decide +kernel)

end Ical
