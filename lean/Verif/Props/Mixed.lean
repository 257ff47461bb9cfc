import Verif.Spec.Mixed
import Verif.Props.Presentation

/-!
C80: line breaks of both kinds in one file.
-/

namespace Ical

open Nom Spec

theorem findSub_absent {pat s : Str} (h : ¬ pat <:+: s) (hp : pat ≠ []) : findSub pat s = none := by
  induction s with
  | nil =>
    cases pat with
    | nil => exact absurd rfl hp
    | cons c p => simp [findSub]
  | cons c s ih =>
    rw [findSub, if_neg, ih]
    · intro hi
      exact h (hi.trans ⟨[c], [], by simp⟩)
    · intro hc
      rw [List.isPrefixOf_iff_prefix] at hc
      exact h hc.isInfix

theorem propertyRest_mixed {br : Break} {v r : Str} (hv : ValOk br v) (hr : br = .lf → NoCrlfAfter v r) :
    propertyRest (v ++ (br.text ++ r)) = .ok (br.text ++ r) v := by
  cases br with
  | crlf => exact propertyRest_ok hv (by simp)
  | lf =>
    unfold propertyRest alt takeUntil
    rw [Break.text, List.cons_append, List.nil_append, findSub_absent (hr rfl) (by simp), findSub_lf hv]

variable [Uni]

theorem property_mixed {br : Break} {key : Str} {params : List DParam} {val r : Str}
    (hk : IsName key) (h1 : ¬ c!"END" <+: key) (h2 : ¬ c!"BEGIN" <+: key)
    (hp : ∀ p ∈ params, p.Ok) (hv : ValOk br val) (hr : br = .lf → NoCrlfAfter val r) :
    property ((Item.prop key params val).text br ++ r) = .ok r (meaningProp key params val) := by
  have hl := lineHead_prop hk params val (br.text ++ r)
  have e : (Item.prop key params val).text br ++ r =
      key ++ ((params.map DParam.text).flatten ++ (':' :: (val ++ (br.text ++ r)))) := by
    simp [Item.text]
  have e' : key ++ (params.map DParam.text).flatten ++ [':'] ++ val ++ (br.text ++ r) =
      key ++ ((params.map DParam.text).flatten ++ (':' :: (val ++ (br.text ++ r)))) := by simp
  rw [e'] at hl
  rw [e]
  have hparts : propertyParts (key ++ ((params.map DParam.text).flatten ++ (':' :: (val ++ (br.text ++ r)))))
      = .ok (br.text ++ r) ((key, params.map DParam.meaning), val) := by
    unfold propertyParts alt separatedPair map
    have : pair (cut (preceded multispace0 propertyKey)) parameters
        (key ++ ((params.map DParam.text).flatten ++ (':' :: (val ++ (br.text ++ r))))) =
        .ok (':' :: (val ++ (br.text ++ r))) (key, params.map DParam.meaning) := by
      unfold pair cut preceded map pair
      rw [hl.multispace]
      simp only
      rw [propertyKey_ok hk h1 h2 (params_stop params _)]
      simp only
      rw [parameters_ok hp]
    unfold pair at this ⊢
    simp only [this]
    rw [show ':' :: (val ++ (br.text ++ r)) = [':'] ++ (val ++ (br.text ++ r)) from rfl, tag_ok]
    simp only
    rw [propertyRest_mixed hv hr]
  unfold property cut map pair
  rw [hparts]
  simp only [opt, lineEnding_break, mkProperty_meaning]

theorem mixed_lineEnding {q : Str → Str → Prop} {it : Item} {t f : Str} (ht : MixedText q it t f) (s : Str) :
    lineEnding (t ++ s) = .error := by
  cases it with
  | prop key params val =>
    unfold MixedText at ht
    obtain ⟨br, bl, -, h1, h2, h3, rfl, -⟩ := ht
    rw [List.append_assoc]
    exact item_lineEnding (br := br) (by simp only [Item.Ok]; exact ⟨h1, h2, h3⟩) _
  | comp b e name items =>
    unfold MixedText at ht
    obtain ⟨br, bl, body, br', bl', -, -, h1, -, -, -, rfl⟩ := ht
    rw [List.append_assoc]
    exact keyword_lineEnding h1 (by decide) (by decide)

theorem mixedAll_lineEnding {q : Str → Str → Prop} {l : List Item} {t f : Str} (ht : MixedTexts q l t f) {s : Str}
    (hs : lineEnding s = .error) : lineEnding (t ++ s) = .error := by
  cases l with
  | nil => unfold MixedTexts at ht; subst ht; exact hs
  | cons i l =>
    unfold MixedTexts at ht
    obtain ⟨s1, s2, h1, -, rfl⟩ := ht
    rw [List.append_assoc]
    exact mixed_lineEnding h1 _

theorem mixed_pos {q : Str → Str → Prop} {it : Item} {t f : Str} (ht : MixedText q it t f) : 0 < t.length := by
  cases it with
  | prop key params val =>
    unfold MixedText at ht
    obtain ⟨br, bl, -, h1, h2, h3, rfl, -⟩ := ht
    have := break_length_pos br
    simp [Item.text]
    omega
  | comp b e name items =>
    unfold MixedText at ht
    obtain ⟨br, bl, body, br', bl', -, -, h1, -, -, -, rfl⟩ := ht
    have := break_length_pos br
    simp
    omega

mutual
/-- reading one component -/
theorem component_mixed {b e name : Str} {items : List Item} {lead bl body tail : Str} {br : Break} {r : Str}
    (hb : b.map lowerAscii = c!"begin:") (he : e.map lowerAscii = c!"end:") (hn : IsName name)
    (h0 : Blank lead) (h1 : Blank bl) (h2 : MixedTexts NoCrlfAfter items body (e ++ (name ++ (tail ++ r))))
    (h3 : Blank tail) (hr : lineEnding r = .error) :
    component (lead ++ (b ++ (name ++ (br.text ++ bl ++ (body ++ (e ++ (name ++ (tail ++ r)))))))) =
      .ok r (.mk name (itemsProps items) (itemsComps items)) := by
  rw [component_eq]
  unfold componentBody
  have hend : lineEnding (e ++ (name ++ (tail ++ r))) = .error := keyword_lineEnding he (by decide) (by decide)
  have hline : line c!"BEGIN:" validKeySequence
      (lead ++ (b ++ (name ++ (br.text ++ bl ++ (body ++ (e ++ (name ++ (tail ++ r)))))))) =
      .ok (body ++ (e ++ (name ++ (tail ++ r)))) name :=
    line_blank h0 (by rw [hb]; decide) (keyword_lineEnding hb (by decide) (by decide))
      (validKeySequence_ok hn (by rw [List.append_assoc]; exact stopsAt_break br)) (blank_break br h1)
      (mixedAll_lineEnding h2 hend)
  rw [hline]
  simp only
  rw [body_mixed h2 he h3 hr]
  simp only
  rw [many0_lf_none hr]
  simp only [childProps_items, childComps_items]

/-- reading the body of a component -/
theorem body_mixed {items : List Item} {body e name tail r : Str}
    (h2 : MixedTexts NoCrlfAfter items body (e ++ (name ++ (tail ++ r))))
    (he : e.map lowerAscii = c!"end:") (h3 : Blank tail) (hr : lineEnding r = .error) :
    manyTill (componentChild component) (componentEnd name) (body ++ (e ++ (name ++ (tail ++ r)))) =
      .ok r (itemsChildren items, name) := by
  have hend : lineEnding (e ++ (name ++ (tail ++ r))) = .error := keyword_lineEnding he (by decide) (by decide)
  match items, h2 with
  | [], h2 =>
    unfold MixedTexts at h2
    subst h2
    simp only [List.nil_append, itemsChildren]
    exact manyTill_stop (componentEnd_blank he h3 hr)
  | .prop key params val :: l, h2 =>
    unfold MixedTexts MixedText at h2
    obtain ⟨s1, s2, ⟨br, bl, hbl, hk, hp, hv, rfl, hq⟩, hs2, rfl⟩ := h2
    rw [List.append_assoc, List.append_assoc]
    have hrest := mixedAll_lineEnding hs2 hend
    have hle := item_lineEnding (br := br) (it := .prop key params val) (by simp only [Item.Ok]; exact ⟨hk, hp, hv⟩)
      (bl ++ (s2 ++ (e ++ (name ++ (tail ++ r)))))
    have e1 : (Item.prop key params val).text br ++ (bl ++ (s2 ++ (e ++ (name ++ (tail ++ r))))) =
        key ++ ((params.map DParam.text).flatten ++ (':' :: (val ++ (br.text ++
          (bl ++ (s2 ++ (e ++ (name ++ (tail ++ r))))))))) := by simp [Item.text]
    have hpr := property_mixed hk.name hk.notEnd hk.notBegin hp hv hq
    refine manyTill_ok (shrinks_componentChild shrinks_component)
      (r := s2 ++ (e ++ (name ++ (tail ++ r)))) ?_ ?_ ?_
      (body_mixed hs2 he h3 hr)
    · exact line_error hle (by rw [e1]; exact keyOk_line hk params val _ (.inl rfl))
    · have hb : component ((Item.prop key params val).text br ++
          (bl ++ (s2 ++ (e ++ (name ++ (tail ++ r)))))) = .error := by
        rw [component_eq]
        unfold componentBody
        rw [line_error hle (by rw [e1]; exact keyOk_line hk params val _ (.inr rfl))]
      have hsep := lineSeparated_blank (lead := []) blank_nil hle hpr hbl hrest
      rw [List.nil_append] at hsep
      unfold componentChild cut alt map
      rw [lineSeparated_error hle hb, hsep]
    · have := item_text_pos br (.prop key params val)
      simp only [List.length_append] at this ⊢
      omega
  | .comp b e' name' items' :: l, h2 =>
    unfold MixedTexts at h2
    obtain ⟨s1, s2, hs1, hs2, rfl⟩ := h2
    have hrest := mixedAll_lineEnding hs2 hend
    have hle := mixed_lineEnding hs1 (s2 ++ (e ++ (name ++ (tail ++ r))))
    have hpos := mixed_pos hs1
    rw [List.append_assoc]
    have hrec := body_mixed hs2 (name := name) he h3 hr
    unfold MixedText at hs1
    obtain ⟨br, bl, body', br', bl', hbl, hbl', hb1, he1, hn1, hbody, rfl⟩ := hs1
    refine manyTill_ok (shrinks_componentChild shrinks_component)
      (r := s2 ++ (e ++ (name ++ (tail ++ r)))) ?_ ?_ ?_ hrec
    · refine line_error hle ?_
      obtain ⟨c, s, rfl, hc⟩ := keyword_head hb1
      simp only [List.cons_append]
      exact prefixNoCase_head_ne (by rw [hc]; decide)
    · have hc := component_mixed (lead := []) (br := br) hb1 he1 hn1 blank_nil hbl hbody (blank_break br' hbl') hrest
      simp only [List.nil_append, List.append_assoc] at hc hle ⊢
      unfold componentChild cut alt map
      rw [lineSeparated_ok hle hc (many0_lineEnding_none hrest)]
    · simp only [List.length_append] at hpos ⊢
      omega
end

/-- what a file with mixed line breaks is read as -/
theorem mixed_read {b e name : Str} {items : List Item} {file : Str}
    (hf : MixedFile NoCrlfAfter (.comp b e name items) file) :
    component (unfold file) = .ok [] (.mk name (itemsProps items) (itemsComps items)) := by
  unfold MixedFile MixedText at hf
  obtain ⟨lead, s, h0, ⟨br, bl, body, br', bl', h1, h2, h3, h4, h5, h6, rfl⟩, p, rest, ht, rfl, m1, m2, m3⟩ := hf
  rw [unfold_any_folding p rest m1 m2 m3, ← ht]
  have := component_mixed (lead := lead) (br := br) (r := []) h3 h4 h5 h0 h1 (by simpa using h6) (blank_break br' h2) lineEnding_nil
  simpa using this

/-- **C80** (partial: no CRLF comes after a content line that ends in LF). Such a file contains what the document
says. -/
theorem mixed_breaks_partial {b e : Str} {items : List Item} {file : Str}
    (hf : MixedFile NoCrlfAfter (.comp b e c!"VCALENDAR" items) file) :
    ∃ c, Calendar.fromStr file = some c ∧ LinesMean (ownLines items) c.props ∧ CompsContain items c.comps := by
  refine ⟨{ props := (itemsProps items).map PProp.toProperty, comps := (itemsComps items).map PComp.toCalComp }, ?_,
    linesMean_props items, compsContain items⟩
  unfold Calendar.fromStr readCalendar
  rw [components_ok (mixed_read hf)]
  simp [finish, PComp.name, PCal.toCalendar, PComp.props, PComp.comps]

/-- **C80, what is missing, for all texts.** A content line that ends in LF swallows everything up to the next CRLF. -/
theorem lf_line_swallows (key : Str) (params : List DParam) (v f r : Str) (hk : KeyOk key) (hp : ∀ p ∈ params, p.Ok)
    (hv : ¬ ['\r', '\n'] <:+: v ++ '\n' :: f) :
    readProperty ((Item.prop key params v).text .lf ++ (f ++ '\r' :: '\n' :: r)) =
      some (meaningProp key params (v ++ '\n' :: f)) := by
  have h := property_ok (br := .crlf) (r := r) hk.name hk.notEnd hk.notBegin hp hv (by simp)
  unfold readProperty
  have e : (Item.prop key params v).text .lf ++ (f ++ '\r' :: '\n' :: r) =
      (Item.prop key params (v ++ '\n' :: f)).text .crlf ++ r := by simp [Item.text, Break.text]
  rw [e, h]
  rfl

end Ical

namespace Ical

open Nom Spec

/-- **C80, what is missing.** A calendar with two properties, of which the second is read as part of the first. -/
theorem mixed_breaks_violated :
    let items := [Item.prop c!"X-A" [] c!"1", Item.prop c!"X-B" [] c!"2"]
    let file := c!"BEGIN:VCALENDAR\r\nX-A:1\nX-B:2\r\nEND:VCALENDAR\r\n"
    @MixedFile Uni.ascii (fun _ _ => True) (.comp c!"BEGIN:" c!"END:" c!"VCALENDAR" items) file ∧
    (@Calendar.fromStr Uni.ascii file).map Calendar.props = some [⟨c!"X-A", c!"1\nX-B:2", []⟩] := by
  have hk : ∀ k ∈ [c!"X-A", c!"X-B"], @KeyOk Uni.ascii k := by decide +kernel
  refine ⟨?_, by decide +kernel⟩
  simp only [MixedFile, MixedText, MixedTexts]
  refine ⟨[], _, blank_nil, ⟨.crlf, [], c!"X-A:1\nX-B:2\r\n", .crlf, [], blank_nil, blank_nil, by decide, by decide,
    by decide +kernel, ⟨c!"X-A:1\n", c!"X-B:2\r\n", ⟨.lf, [], blank_nil, hk _ (by simp), by simp, by simp [ValOk],
      by decide +kernel, by simp⟩, ⟨c!"X-B:2\r\n", [], ⟨.crlf, [], blank_nil, hk _ (by simp), by simp, ?_,
      by decide +kernel, by simp⟩, rfl, rfl⟩, rfl⟩, rfl⟩, ?_⟩
  · show ¬ _ <:+: _; decide
  · exact ⟨_, [], by simp [unmarked, Break.text]; rfl, by simp [joinMarked], by decide +kernel, by simp, trivial⟩

/-- a file whose first lines end in CRLF and whose later lines end in LF -/
example : @MixedFile Uni.ascii NoCrlfAfter (.comp c!"BEGIN:" c!"END:" c!"VCALENDAR"
    [Item.prop c!"X-A" [] c!"1", Item.prop c!"X-B" [] c!"2"])
    c!"BEGIN:VCALENDAR\nX-A:1\r\nX-B:2\nEND:VCALENDAR\n" := by
  have hk : ∀ k ∈ [c!"X-A", c!"X-B"], @KeyOk Uni.ascii k := by decide +kernel
  simp only [MixedFile, MixedText, MixedTexts]
  refine ⟨[], _, blank_nil, ⟨.lf, [], c!"X-A:1\r\nX-B:2\n", .lf, [], blank_nil, blank_nil, by decide, by decide,
    by decide +kernel, ⟨c!"X-A:1\r\n", c!"X-B:2\n", ⟨.crlf, [], blank_nil, hk _ (by simp), by simp, ?_,
      by decide +kernel, by simp⟩, ⟨c!"X-B:2\n", [], ⟨.lf, [], blank_nil, hk _ (by simp), by simp, by simp [ValOk],
      by decide +kernel, fun _ => ?_⟩, rfl, rfl⟩, rfl⟩, rfl⟩, ?_⟩
  · show ¬ _ <:+: _; decide
  · show ¬ _ <:+: _; decide +kernel
  · exact ⟨_, [], by simp [unmarked, Break.text]; rfl, by simp [joinMarked], by decide +kernel, by simp, trivial⟩

end Ical
