import Verif.Props.Foreign

/-!
C68: blank lines, the last line break, the kind of line breaks and the folding of a document do not matter.
-/

namespace Ical

open Nom Spec

theorem blank_nil : Blank [] := ⟨[], rfl⟩

theorem blank_break {bl : Str} (br : Break) (h : Blank bl) : Blank (br.text ++ bl) := by
  obtain ⟨bs, rfl⟩ := h
  exact ⟨br :: bs, rfl⟩

theorem many0_blank {bl r : Str} (hb : Blank bl) (h : lineEnding r = .error) :
    ∃ l, many0 lineEnding (bl ++ r) = .ok r l := by
  obtain ⟨bs, rfl⟩ := hb
  induction bs with
  | nil => exact ⟨[], many0_lineEnding_none h⟩
  | cons b bs ih =>
    obtain ⟨l, hl⟩ := ih
    refine ⟨b.text :: l, ?_⟩
    simp only [List.map_cons, List.flatten_cons, List.append_assoc]
    exact many0_ok shrinks_lineEnding (lineEnding_break b _) (by have := break_length_pos b; simp; omega) hl

/-- a parser with blank lines before and after -/
theorem lineSeparated_blank {α : Type} {p : P α} {lead i bl r : Str} {a : α} (h0 : Blank lead)
    (hi : lineEnding i = .error) (hp : p i = .ok (bl ++ r) a) (hb : Blank bl) (hr : lineEnding r = .error) :
    lineSeparated p (lead ++ i) = .ok r a := by
  obtain ⟨l, hl⟩ := many0_blank h0 hi
  obtain ⟨l', hl'⟩ := many0_blank hb hr
  unfold lineSeparated delimited map pair
  rw [hl]
  simp only [hp, hl']

theorem line_blank {α : Type} {lead bl t b : Str} {p : P α} {i r : Str} {a : α} (h0 : Blank lead)
    (hb : b.map lowerAscii = t.map lowerAscii) (hl : lineEnding (b ++ i) = .error)
    (hp : p i = .ok (bl ++ r) a) (hbl : Blank bl) (hr : lineEnding r = .error) :
    line t p (lead ++ (b ++ i)) = .ok r a := by
  refine lineSeparated_blank h0 hl ?_ hbl hr
  unfold complete preceded map pair
  rw [tagNoCase_ok hb]
  simp only [hp]

theorem componentEnd_blank {bl e name r : Str} (he : e.map lowerAscii = c!"end:") (hb : Blank bl)
    (hr : lineEnding r = .error) : componentEnd name (e ++ (name ++ (bl ++ r))) = .ok r name := by
  refine line_blank (lead := []) blank_nil (by rw [he]; decide) (keyword_lineEnding he (by decide) (by decide)) ?_ hb hr
  unfold cut
  rw [tag_ok]

variable [Uni]

theorem stopsAt_blank {bl s : Str} (hb : Blank bl) (hs : StopsAt isKeyChar s) : StopsAt isKeyChar (bl ++ s) := by
  obtain ⟨bs, rfl⟩ := hb
  cases bs with
  | nil => exact hs
  | cons b bs =>
    simp only [List.map_cons, List.flatten_cons, List.append_assoc]
    exact stopsAt_break b

theorem spaced_lineEnding {br : Break} {it : Item} (h : it.Ok br) {t : Str} (ht : Spaced br it t) (s : Str) :
    lineEnding (t ++ s) = .error := by
  cases it with
  | prop key params val =>
    unfold Spaced at ht
    obtain ⟨bl, -, rfl⟩ := ht
    rw [List.append_assoc]
    exact item_lineEnding h _
  | comp b e name items =>
    unfold Spaced at ht
    simp only [Item.Ok] at h
    obtain ⟨bl, body, bl', -, -, -, rfl⟩ := ht
    rw [List.append_assoc]
    exact keyword_lineEnding h.1 (by decide) (by decide)

theorem spacedAll_lineEnding {br : Break} {l : List Item} (h : ItemsOk br l) {t : Str} (ht : SpacedAll br l t) {s : Str}
    (hs : lineEnding s = .error) : lineEnding (t ++ s) = .error := by
  cases l with
  | nil => unfold SpacedAll at ht; subst ht; exact hs
  | cons i l =>
    unfold SpacedAll at ht
    simp only [ItemsOk] at h
    obtain ⟨s1, s2, h1, -, rfl⟩ := ht
    rw [List.append_assoc]
    exact spaced_lineEnding h.1 h1 _

omit [Uni] in
theorem spaced_pos {br : Break} {it : Item} {t : Str} (ht : Spaced br it t) : 0 < t.length := by
  have := break_length_pos br
  cases it with
  | prop key params val =>
    unfold Spaced at ht
    obtain ⟨bl, -, rfl⟩ := ht
    simp [Item.text]
    omega
  | comp b e name items =>
    unfold Spaced at ht
    obtain ⟨bl, body, bl', -, -, -, rfl⟩ := ht
    simp
    omega

mutual
/-- reading one component with blank lines -/
theorem component_spaced {br : Break} {b e name : Str} {items : List Item} (h : (Item.comp b e name items).Ok br)
    {lead bl body tail : Str} (h0 : Blank lead) (h1 : Blank bl) (h2 : SpacedAll br items body) (h3 : Blank tail)
    {r : Str} (hr : lineEnding r = .error)
    (hq : br = .lf → '\r' ∉ lead ++ (b ++ (name ++ (br.text ++ bl ++ (body ++ (e ++ (name ++ (tail ++ r)))))))) :
    component (lead ++ (b ++ (name ++ (br.text ++ bl ++ (body ++ (e ++ (name ++ (tail ++ r)))))))) =
      .ok r (.mk name (itemsProps items) (itemsComps items)) := by
  simp only [Item.Ok] at h
  obtain ⟨hb, he, hn, hi⟩ := h
  rw [component_eq]
  unfold componentBody
  have hend : lineEnding (e ++ (name ++ (tail ++ r))) = .error := keyword_lineEnding he (by decide) (by decide)
  have hline : line c!"BEGIN:" validKeySequence
      (lead ++ (b ++ (name ++ (br.text ++ bl ++ (body ++ (e ++ (name ++ (tail ++ r)))))))) =
      .ok (body ++ (e ++ (name ++ (tail ++ r)))) name :=
    line_blank h0 (by rw [hb]; decide) (keyword_lineEnding hb (by decide) (by decide))
      (validKeySequence_ok hn (by rw [List.append_assoc]; exact stopsAt_break br)) (blank_break br h1)
      (spacedAll_lineEnding hi h2 hend)
  rw [hline]
  simp only
  rw [body_spaced hi h2 he h3 hr (by intro hbr; have := hq hbr; simp at this ⊢; simp [this])]
  simp only
  rw [many0_lf_none hr]
  simp only [childProps_items, childComps_items]

/-- reading the body of a component with blank lines -/
theorem body_spaced {br : Break} {items : List Item} (h : ItemsOk br items) {body : Str} (h2 : SpacedAll br items body)
    {e name tail : Str} (he : e.map lowerAscii = c!"end:") (h3 : Blank tail) {r : Str} (hr : lineEnding r = .error)
    (hq : br = .lf → '\r' ∉ body ++ (e ++ (name ++ (tail ++ r)))) :
    manyTill (componentChild component) (componentEnd name) (body ++ (e ++ (name ++ (tail ++ r)))) =
      .ok r (itemsChildren items, name) := by
  have hend : lineEnding (e ++ (name ++ (tail ++ r))) = .error := keyword_lineEnding he (by decide) (by decide)
  match items, h, h2 with
  | [], _, h2 =>
    unfold SpacedAll at h2
    subst h2
    simp only [List.nil_append, itemsChildren]
    exact manyTill_stop (componentEnd_blank he h3 hr)
  | .prop key params val :: l, h, h2 =>
    unfold SpacedAll Spaced at h2
    obtain ⟨s1, s2, ⟨bl, hbl, rfl⟩, hs2, rfl⟩ := h2
    simp only [ItemsOk, Item.Ok] at h
    obtain ⟨⟨hk, hp, hv⟩, hl⟩ := h
    rw [List.append_assoc, List.append_assoc] at hq ⊢
    have hrest := spacedAll_lineEnding hl hs2 hend
    have hle := item_lineEnding (br := br) (it := .prop key params val) (by simp only [Item.Ok]; exact ⟨hk, hp, hv⟩)
      (bl ++ (s2 ++ (e ++ (name ++ (tail ++ r)))))
    have hq' : br = .lf → '\r' ∉ val ++ (bl ++ (s2 ++ (e ++ (name ++ (tail ++ r))))) := by
      intro hbr; have := hq hbr; simp [Item.text] at this ⊢; simp [this]
    have e1 : (Item.prop key params val).text br ++ (bl ++ (s2 ++ (e ++ (name ++ (tail ++ r))))) =
        key ++ ((params.map DParam.text).flatten ++ (':' :: (val ++ (br.text ++
          (bl ++ (s2 ++ (e ++ (name ++ (tail ++ r))))))))) := by simp [Item.text]
    have hpr := property_ok hk.name hk.notEnd hk.notBegin hp hv hq'
    refine manyTill_ok (shrinks_componentChild shrinks_component)
      (r := s2 ++ (e ++ (name ++ (tail ++ r)))) ?_ ?_ ?_
      (body_spaced hl hs2 he h3 hr (by intro hbr; have := hq hbr; simp at this ⊢; simp [this]))
    · exact line_error hle (by rw [e1]; exact keyOk_line hk params val _ (.inl rfl))
    · have hb : component ((Item.prop key params val).text br ++
          (bl ++ (s2 ++ (e ++ (name ++ (tail ++ r)))))) = .error := by
        rw [component_eq]
        unfold componentBody
        rw [line_error hle (by rw [e1]; exact keyOk_line hk params val _ (.inr rfl))]
      have hsep := lineSeparated_blank (lead := []) blank_nil hle hpr hbl hrest
      rw [List.nil_append] at hsep
      unfold componentChild cut alt map
      rw [lineSeparated_error hle hb, hsep]
    · have := item_text_pos br (.prop key params val)
      simp only [List.length_append] at this ⊢
      omega
  | .comp b e' name' items' :: l, h, h2 =>
    unfold SpacedAll at h2
    obtain ⟨s1, s2, hs1, hs2, rfl⟩ := h2
    simp only [ItemsOk] at h
    obtain ⟨hi, hl⟩ := h
    have hrest := spacedAll_lineEnding hl hs2 hend
    have hle := spaced_lineEnding hi hs1 (s2 ++ (e ++ (name ++ (tail ++ r))))
    have hpos := spaced_pos hs1
    rw [List.append_assoc] at hq ⊢
    have hrec := body_spaced hl hs2 (name := name) he h3 hr
      (by intro hbr; have := hq hbr; simp at this ⊢; simp [this])
    unfold Spaced at hs1
    obtain ⟨bl, body', bl', hbl, hbl', hbody, rfl⟩ := hs1
    refine manyTill_ok (shrinks_componentChild shrinks_component)
      (r := s2 ++ (e ++ (name ++ (tail ++ r)))) ?_ ?_ ?_ hrec
    · refine line_error hle ?_
      simp only [Item.Ok] at hi
      obtain ⟨c, s, rfl, hc⟩ := keyword_head hi.1
      simp only [List.cons_append]
      exact prefixNoCase_head_ne (by rw [hc]; decide)
    · have hc := component_spaced hi (lead := []) blank_nil hbl hbody (blank_break br hbl') hrest
        (by intro hbr; have := hq hbr; simp at this ⊢; simp [this])
      simp only [List.nil_append, List.append_assoc] at hc hle ⊢
      unfold componentChild cut alt map
      rw [lineSeparated_ok hle hc (many0_lineEnding_none hrest)]
    · simp only [List.length_append] at hpos ⊢
      omega
end

/-- what any presentation of a document is read as -/
theorem presents_read {br : Break} {b e name : Str} {items : List Item} (h : (Item.comp b e name items).Ok br)
    {file : Str} (hf : Presents br (.comp b e name items) file) :
    component (unfold file) = .ok [] (.mk name (itemsProps items) (itemsComps items)) := by
  unfold Presents at hf
  obtain ⟨lead, bl, body, tail, h0, h1, h3, h2, hq, p, rest, ht, rfl, m1, m2, m3⟩ := hf
  rw [unfold_any_folding p rest m1 m2 m3, ← ht]
  have := component_spaced h h0 h1 h2 h3 (r := []) lineEnding_nil (by simpa using hq)
  simpa using this

/-- **C68.** Two files that present the same document, with LF or CRLF line breaks, blank lines anywhere, with or without
a line break at the end and folded in any way, are read as the same calendar. -/
theorem presentation_irrelevant {br br' : Break} {it : Item} (h : it.Ok br) (h' : it.Ok br') {file file' : Str}
    (hf : Presents br it file) (hf' : Presents br' it file') :
    (∃ c, Calendar.fromStr file = some c) ∧ Calendar.fromStr file = Calendar.fromStr file' ∧
    CalComp.fromStr file = CalComp.fromStr file' := by
  cases it with
  | prop k ps v => exact absurd hf (by simp [Presents])
  | comp b e name items =>
    have e1 := presents_read h hf
    have e2 := presents_read h' hf'
    have c1 := components_ok e1
    have c2 := components_ok e2
    unfold Calendar.fromStr readCalendar CalComp.fromStr readComponent
    rw [c1, c2, e1, e2]
    refine ⟨?_, rfl, rfl⟩
    simp only [finish]
    split <;> exact ⟨_, rfl⟩

/-- **C68.** In particular a file with blank lines and without last line break contains what the document says. -/
theorem presentation_content {br : Break} {b e : Str} {items : List Item}
    (h : (Item.comp b e c!"VCALENDAR" items).Ok br) {file : Str}
    (hf : Presents br (.comp b e c!"VCALENDAR" items) file) :
    ∃ c, Calendar.fromStr file = some c ∧ LinesMean (ownLines items) c.props ∧ CompsContain items c.comps := by
  refine ⟨{ props := (itemsProps items).map PProp.toProperty, comps := (itemsComps items).map PComp.toCalComp }, ?_,
    linesMean_props items, compsContain items⟩
  unfold Calendar.fromStr readCalendar
  rw [components_ok (presents_read h hf)]
  simp [finish, PComp.name, PCal.toCalendar, PComp.props, PComp.comps]

end Ical

namespace Ical

open Nom Spec

/-- a document with LF line breaks, blank lines, a fold and no last line break -/
example : Presents .lf (.comp c!"BEGIN:" c!"END:" c!"VCALENDAR" [.prop c!"VERSION" [] c!"2.0", .comp c!"BEGIN:" c!"END:" c!"VEVENT" []])
    c!"\n\nBEGIN:VCALENDAR\nVERSI\n ON:2.0\n\nBEGIN:VEVENT\n\nEND:VEVENT\nEND:VCALENDAR" := by
  unfold Presents
  refine ⟨c!"\n\n", [], c!"VERSION:2.0\n\nBEGIN:VEVENT\n\nEND:VEVENT\n", [], ⟨[.lf, .lf], rfl⟩, blank_nil, blank_nil, ?_,
    fun _ => by decide +kernel, c!"\n\nBEGIN:VCALENDAR\nVERSI", [(.lfSp, c!"ON:2.0\n\nBEGIN:VEVENT\n\nEND:VEVENT\nEND:VCALENDAR")],
    rfl, rfl, by decide +kernel, by decide +kernel, ⟨fun _ => by decide, trivial⟩⟩
  simp only [SpacedAll, Spaced]
  exact ⟨c!"VERSION:2.0\n\n", c!"BEGIN:VEVENT\n\nEND:VEVENT\n", ⟨c!"\n", ⟨[.lf], rfl⟩, rfl⟩,
    ⟨_, [], ⟨c!"\n", [], [], ⟨[.lf], rfl⟩, blank_nil, rfl, rfl⟩, rfl, rfl⟩, rfl⟩

/-- the same document as usual -/
example : Presents .crlf (.comp c!"BEGIN:" c!"END:" c!"VCALENDAR" [.prop c!"VERSION" [] c!"2.0", .comp c!"BEGIN:" c!"END:" c!"VEVENT" []])
    c!"BEGIN:VCALENDAR\r\nVERSION:2.0\r\nBEGIN:VEVENT\r\nEND:VEVENT\r\nEND:VCALENDAR\r\n" := by
  unfold Presents
  refine ⟨[], [], c!"VERSION:2.0\r\nBEGIN:VEVENT\r\nEND:VEVENT\r\n", c!"\r\n", blank_nil, blank_nil, ⟨[.crlf], rfl⟩, ?_,
    (fun h => by cases h), c!"BEGIN:VCALENDAR\r\nVERSION:2.0\r\nBEGIN:VEVENT\r\nEND:VEVENT\r\nEND:VCALENDAR\r\n", [],
    rfl, rfl, by decide +kernel, by decide +kernel, trivial⟩
  simp only [SpacedAll, Spaced]
  exact ⟨c!"VERSION:2.0\r\n", c!"BEGIN:VEVENT\r\nEND:VEVENT\r\n", ⟨[], blank_nil, rfl⟩,
    ⟨_, [], ⟨[], [], [], blank_nil, blank_nil, rfl, rfl⟩, rfl, rfl⟩, rfl⟩

end Ical
