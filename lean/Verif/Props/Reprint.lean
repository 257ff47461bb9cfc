import Verif.Spec.Reprint
import Verif.Proofs.CalendarIO

/-!
C22: printing a parsed calendar and parsing the printed text.
-/

namespace Ical

open Nom Spec

/-- how a parsed parameter is printed -/
def pdparam (p : PParam) : DParam := ⟨p.key, p.val.map (fun v => (false, v))⟩

theorem pdparam_text (p : PParam) : (pdparam p).text = p.text := by
  obtain ⟨k, v⟩ := p
  cases v <;> rfl

theorem unescape_noEscapes {s : Str} (h : NoEscapes s) : unescapeText s = s := by
  rw [unescapeText_eq]
  rw [rep2_of_not_infix (h '\\' (by simp)), rep2_of_not_infix (h ',' (by simp)), rep2_of_not_infix (h ';' (by simp)),
    rep2_of_not_infix (h ':' (by simp)), rep2_of_not_infix (h 'N' (by simp)), rep2_of_not_infix (h 'n' (by simp))]

/-- the printed line of a parsed property -/
def ppropItem (p : PProp) : Item := .prop p.name (p.params.map pdparam) p.val

theorem ppropItem_text (p : PProp) : (ppropItem p).text .crlf = p.line ++ crlf := by
  unfold ppropItem Item.text PProp.line
  have : (p.params.map pdparam).map DParam.text = p.params.map PParam.text := by
    rw [List.map_map]
    apply List.map_congr_left
    intro q _
    exact pdparam_text q
  rw [this]
  rfl

mutual
/-- the printed text of a parsed component -/
def PComp.item : PComp → Item
  | .mk name props comps => .comp c!"BEGIN:" c!"END:" name (props.map ppropItem ++ pcompItems comps)
/-- see `PComp.item` -/
def pcompItems : List PComp → List Item
  | [] => []
  | c :: l => c.item :: pcompItems l
end

variable [Uni]

theorem pdparam_meaning {p : PParam} (h : ReprintParam p) : (pdparam p).meaning = p := by
  obtain ⟨k, v⟩ := p
  cases v with
  | none => rfl
  | some v =>
    have := (h.val v rfl).1
    simp [pdparam, DParam.meaning, this]

theorem pdparam_ok {p : PParam} (h : ReprintParam p) : (pdparam p).Ok := by
  obtain ⟨k, v⟩ := p
  refine ⟨h.key, ?_⟩
  cases v with
  | none => trivial
  | some v =>
    obtain ⟨-, h1, h2, h3, -⟩ := h.val v rfl
    exact ⟨h1, h2, h3⟩

theorem pdparams_meaning {l : List PParam} (h : ∀ q ∈ l, ReprintParam q) : (l.map pdparam).map DParam.meaning = l := by
  rw [List.map_map]
  conv => rhs; rw [← List.map_id l]
  apply List.map_congr_left
  intro q hq
  exact pdparam_meaning (h q hq)

theorem ppropItem_meaning {p : PProp} (h : ReprintProp p) : meaningProp p.name (p.params.map pdparam) p.val = p := by
  unfold meaningProp
  rw [pdparams_meaning h.params]
  have ht := h.text
  unfold pvalueParam at ht
  split
  · rename_i hc
    rw [← unescapeText_unescaped, unescape_noEscapes (ht hc)]
  · rfl

theorem ppropItem_ok {p : PProp} (h : ReprintProp p) : (ppropItem p).Ok .crlf := by
  simp only [ppropItem, Item.Ok]
  refine ⟨h.name, ?_, h.line⟩
  intro q hq
  obtain ⟨x, hx, rfl⟩ := List.mem_map.1 hq
  exact pdparam_ok (h.params x hx)

theorem pparam_markerFree {p : PParam} (h : ReprintParam p) {d : Char} {s : Str}
    (hd1 : d ≠ ' ') (hd2 : d ≠ '\t') (hs : MarkerFree (d :: s)) : MarkerFree (p.text ++ d :: s) := by
  have hn := name_not_mem h.key isKeyChar_lf
  unfold PParam.text
  split
  · rename_i v hv
    rw [List.append_assoc, List.append_assoc, List.append_assoc]
    exact markerFree_noLf_append (by simp) (markerFree_noLf_append hn (markerFree_noLf_append (by simp)
      (markerFree_append_cons hd1 hd2 (h.val v hv).2.2.2.2 hs)))
  · rw [List.append_assoc]
    exact markerFree_noLf_append (by simp) (markerFree_noLf_append hn hs)

theorem pparams_markerFree {l : List PParam} (h : ∀ q ∈ l, ReprintParam q) {s : Str} (hs : MarkerFree s) :
    MarkerFree ((l.map PParam.text).flatten ++ ':' :: s) := by
  induction l with
  | nil => exact markerFree_cons (by decide) hs
  | cons x l ih =>
    have ih := ih (fun y hy => h y (by simp [hy]))
    rw [List.map_cons, List.flatten_cons, List.append_assoc]
    cases l with
    | nil => exact pparam_markerFree (h x (by simp)) (by decide) (by decide) ih
    | cons y l =>
      have hh : ∃ t, ((y :: l).map PParam.text).flatten ++ ':' :: s = ';' :: t := by
        rw [List.map_cons, List.flatten_cons]
        unfold PParam.text
        split <;> exact ⟨_, rfl⟩
      obtain ⟨t, ht⟩ := hh
      rw [ht] at ih ⊢
      exact pparam_markerFree (h x (by simp)) (by decide) (by decide) ih

theorem pline_markerFree {p : PProp} (h : ReprintProp p) : MarkerFree p.line := by
  unfold PProp.line
  rw [List.append_assoc, List.append_assoc]
  exact markerFree_noLf_append (name_not_mem h.name.name isKeyChar_lf) (pparams_markerFree h.params h.marker)

theorem unfold_pprops {l : List PProp} (hl : ∀ p ∈ l, ReprintProp p) {out : Str}
    (h : fmtPProps l = .ok out) {t : Str} (ht : NoIndent t) :
    unfoldSpec (out ++ t) = itemsText .crlf (l.map ppropItem) ++ unfoldSpec t ∧ NoIndent (out ++ t) := by
  induction l generalizing out with
  | nil => cases h; exact ⟨rfl, ht⟩
  | cons p l ih =>
    unfold fmtPProps PProp.fmtWrite at h
    cases hf : foldLine p.line with
    | error e => rw [hf] at h; cases h
    | ok f =>
      rw [hf] at h
      cases hb : fmtPProps l with
      | error e => rw [hb] at h; cases h
      | ok b =>
        rw [hb] at h
        cases h
        have hp := hl p (by simp)
        obtain ⟨h1, h2⟩ := ih (fun q hq => hl q (by simp [hq])) hb
        have hm := pline_markerFree hp
        have h3 := unfold_line hm hf h2
        have h4 := unfold_line hm hf (t := []) noIndent_nil
        have e2 : unfoldSpec [] = [] := rfl
        rw [List.append_nil, e2, List.append_nil] at h4
        simp only [List.append_assoc]
        refine ⟨?_, ?_⟩
        · rw [h3, h1, List.map_cons, itemsText, ppropItem_text]
          simp only [List.append_assoc]
        · have := noIndent_of_unfold (t := b ++ t) h4 (by
            rw [← ppropItem_text]; exact item_noIndent (ppropItem_ok hp) _) h2
          simpa only [List.append_assoc] using this

omit [Uni] in
theorem calendarStamp_nil {name : Str} (h : name.map lowerAscii ≠ c!"calendar") (props : List PProp) (w : World) :
    calendarStamp name props w = [] := by
  unfold calendarStamp
  rw [if_neg h]

mutual
theorem unfold_pcomp (c : PComp) (hc : ReprintComp c) {w : World} {out : Str} (h : c.fmtWrite w = .ok out)
    {t : Str} (ht : NoIndent t) :
    unfoldSpec (out ++ t) = c.item.text .crlf ++ unfoldSpec t ∧ NoIndent (out ++ t) := by
  match c, hc with
  | .mk name props comps, hc =>
    obtain ⟨hn, hcal, hp, hc⟩ := hc
    unfold PComp.fmtWrite at h
    cases hps : fmtPProps props with
    | error e => simp only [hps] at h; cases h
    | ok ps =>
      cases hcs : fmtPComps comps (w.sub 0) with
      | error e => simp only [hps, hcs] at h; cases h
      | ok cs =>
        simp only [hps, hcs] at h
        cases h
        have hnl := name_not_mem hn isKeyChar_lf
        have hend : NoIndent (c!"END:" ++ name ++ crlf ++ t) := noIndent_cons (by decide) (by decide)
        have e0 := keyword_line name c!"END:" (by simpa using hnl) ht
        obtain ⟨c1, c2⟩ := unfold_pcomps comps hc hcs hend
        obtain ⟨p1, p2⟩ := unfold_pprops hp hps c2
        have e1 := keyword_line name c!"BEGIN:" (by simpa using hnl) p2
        rw [p1, c1, e0] at e1
        refine ⟨?_, noIndent_cons (by decide) (by decide)⟩
        rw [calendarStamp_nil hcal]
        simp only [PComp.item, Item.text, itemsText_append, Break.text]
        simp only [List.append_assoc, List.nil_append] at e1 ⊢
        exact e1
theorem unfold_pcomps (l : List PComp) (hl : ReprintComps l) {w : World} {out : Str} (h : fmtPComps l w = .ok out)
    {t : Str} (ht : NoIndent t) :
    unfoldSpec (out ++ t) = itemsText .crlf (pcompItems l) ++ unfoldSpec t ∧ NoIndent (out ++ t) := by
  match l, hl with
  | [], _ =>
    simp only [fmtPComps] at h
    cases h
    exact ⟨rfl, ht⟩
  | c :: l, hl =>
    obtain ⟨hc, hl⟩ := hl
    unfold fmtPComps at h
    cases ha : c.fmtWrite (w.sub 0) with
    | error e => rw [ha] at h; cases h
    | ok a =>
      rw [ha] at h
      cases hb : fmtPComps l (w.sub 1) with
      | error e => rw [hb] at h; cases h
      | ok b =>
        rw [hb] at h
        cases h
        obtain ⟨h1, h2⟩ := unfold_pcomps l hl hb ht
        obtain ⟨h3, h4⟩ := unfold_pcomp c hc ha h2
        rw [List.append_assoc]
        exact ⟨by rw [h3, h1, pcompItems, itemsText, List.append_assoc], h4⟩
end

theorem ppropItems_ok {l : List PProp} (hl : ∀ p ∈ l, ReprintProp p) : ItemsOk .crlf (l.map ppropItem) := by
  induction l with
  | nil => trivial
  | cons p l ih => exact ⟨ppropItem_ok (hl p (by simp)), ih (fun q hq => hl q (by simp [hq]))⟩

theorem ppropItems_props {l : List PProp} (hl : ∀ p ∈ l, ReprintProp p) :
    itemsProps (l.map ppropItem) = l ∧ itemsComps (l.map ppropItem) = [] := by
  induction l with
  | nil => exact ⟨rfl, by simp [itemsComps]⟩
  | cons p l ih =>
    obtain ⟨h1, h2⟩ := ih (fun q hq => hl q (by simp [hq]))
    simp only [List.map_cons, ppropItem, itemsProps, itemsComps]
    rw [ppropItem_meaning (hl p (by simp)), h1]
    exact ⟨rfl, h2⟩

mutual
theorem pcomp_item_ok (c : PComp) (hc : ReprintComp c) : c.item.Ok .crlf := by
  match c, hc with
  | .mk name props comps, hc =>
    obtain ⟨hn, -, hp, hc⟩ := hc
    simp only [PComp.item, Item.Ok, itemsOk_append]
    exact ⟨rfl, rfl, hn, ppropItems_ok hp, pcompItems_ok comps hc⟩
theorem pcompItems_ok (l : List PComp) (hl : ReprintComps l) : ItemsOk .crlf (pcompItems l) := by
  match l, hl with
  | [], _ => trivial
  | c :: l, hl => exact ⟨pcomp_item_ok c hl.1, pcompItems_ok l hl.2⟩
end

omit [Uni] in
theorem pcompItems_props (l : List PComp) : itemsProps (pcompItems l) = [] := by
  match l with
  | [] => rfl
  | .mk name props comps :: l => simp only [pcompItems, PComp.item, itemsProps]; exact pcompItems_props l

mutual
theorem pcomp_meaning (c : PComp) (hc : ReprintComp c) : itemsComps [c.item] = [c] := by
  match c, hc with
  | .mk name props comps, hc =>
    obtain ⟨-, -, hp, hc⟩ := hc
    simp only [PComp.item, itemsComps, itemsProps_append, itemsComps_append, (ppropItems_props hp).1,
      (ppropItems_props hp).2, pcompItems_props, pcompItems_meaning comps hc, List.append_nil, List.nil_append]
theorem pcompItems_meaning (l : List PComp) (hl : ReprintComps l) : itemsComps (pcompItems l) = l := by
  match l, hl with
  | [], _ => simp [pcompItems, itemsComps]
  | c :: l, hl =>
    have h1 := pcomp_meaning c hl.1
    have h2 := pcompItems_meaning l hl.2
    have e : pcompItems (c :: l) = [c.item] ++ pcompItems l := by simp [pcompItems]
    rw [e, itemsComps_append, h1, h2]
    rfl
end

/-- **C22 (partial).** If a parsed calendar has no quoted parameter values, no text with escape sequences left
over and no component called `calendar`, then printing it and parsing the printed text gives it back. Missing:
trees with parameter values or texts that the printer would have to quote or escape (see
`reprint_violated`). -/
theorem reprint_partial {c : PCal} (hc : ReprintCal c) {w : World} {out : Str} (h : c.fmtWrite w = .ok out) :
    readCalendar (unfold out) = some c := by
  obtain ⟨props, comps⟩ := c
  have hr : ReprintComp (.mk c!"VCALENDAR" props comps) :=
    ⟨isName_upper _ (by decide), by decide, hc.props, hc.comps⟩
  have hu := (unfold_pcomp _ hr h noIndent_nil).1
  have e2 : unfoldSpec [] = [] := rfl
  rw [List.append_nil, e2, List.append_nil, ← unfold_eq_spec] at hu
  have hok := pcomp_item_ok _ hr
  unfold readCalendar
  rw [hu]
  simp only [PComp.item] at hok ⊢
  rw [components_ok (component_doc hok (by simp))]
  simp only [finish, PComp.name, PComp.props, PComp.comps, if_true, itemsProps_append, itemsComps_append,
    pcompItems_props, pcompItems_meaning comps hc.comps, (ppropItems_props hc.props).1,
    (ppropItems_props hc.props).2, List.append_nil, List.nil_append]

/-- **C22 (partial).** The same for a single component. -/
theorem reprint_component_partial {c : PComp} (hc : ReprintComp c) {w : World} {out : Str}
    (h : c.fmtWrite w = .ok out) : readComponent (unfold out) = some c := by
  have hu := (unfold_pcomp _ hc h noIndent_nil).1
  have e2 : unfoldSpec [] = [] := rfl
  rw [List.append_nil, e2, List.append_nil, ← unfold_eq_spec] at hu
  have hok := pcomp_item_ok _ hc
  have hm := pcomp_meaning c hc
  unfold readComponent
  rw [hu]
  obtain ⟨name, props, comps⟩ := c
  simp only [PComp.item] at hok hm ⊢
  rw [component_doc hok (by simp)]
  simp only [itemsComps, List.cons.injEq, and_true] at hm
  rw [hm]
  rfl

end Ical

/-! ### Examples -/

namespace Ical

open Spec

/-- **C22, counterexample.** The quotes around a parameter value are not printed: after printing, its semicolon
starts a new parameter. Every escape sequence that is left in a text after parsing is taken away by parsing the
printed text. -/
theorem reprint_violated :
    (∃ (s : Str) (c c' : PCal) (w : World) (out : Str), @readCalendar Uni.ascii s = some c ∧
      c.fmtWrite w = .ok out ∧ @readCalendar Uni.ascii (unfold out) = some c' ∧
      c.props.map PProp.params = [[⟨c!"CN", some c!"A;B"⟩]] ∧
      c'.props.map PProp.params = [[⟨c!"CN", some c!"A"⟩, ⟨c!"B", none⟩]]) ∧
    (∃ (s : Str) (c c' : PCal) (w : World) (out : Str), @readCalendar Uni.ascii s = some c ∧
      c.fmtWrite w = .ok out ∧ @readCalendar Uni.ascii (unfold out) = some c' ∧
      c.props.map PProp.val = [c!"C:\\,"] ∧ c'.props.map PProp.val = [c!"C:,"]) := by
  let w : World := ⟨fun _ => ⟨⟨⟨2026, 1, 1⟩, 0, 0, 0, 0⟩⟩, fun _ => c!"0-f", fun _ l => l⟩
  constructor
  · refine ⟨c!"BEGIN:VCALENDAR\r\nATTENDEE;CN=\"A;B\":x\r\nEND:VCALENDAR\r\n",
      ⟨[⟨c!"ATTENDEE", c!"x", [⟨c!"CN", some c!"A;B"⟩]⟩], []⟩,
      ⟨[⟨c!"ATTENDEE", c!"x", [⟨c!"CN", some c!"A"⟩, ⟨c!"B", none⟩]⟩], []⟩, w,
      c!"BEGIN:VCALENDAR\r\nATTENDEE;CN=A;B:x\r\nEND:VCALENDAR\r\n", ?_, ?_, ?_, by decide, by decide⟩
    · rfl
    · decide +kernel
    · rfl
  · refine ⟨c!"BEGIN:VCALENDAR\r\nSUMMARY:C:\\\\\\,\r\nEND:VCALENDAR\r\n",
      ⟨[⟨c!"SUMMARY", c!"C:\\,", []⟩], []⟩, ⟨[⟨c!"SUMMARY", c!"C:,", []⟩], []⟩, w,
      c!"BEGIN:VCALENDAR\r\nSUMMARY:C:\\,\r\nEND:VCALENDAR\r\n", ?_, ?_, ?_, by decide, by decide⟩
    · rfl
    · decide +kernel
    · rfl

/-- a calendar as parsed: a folded line, parameters with and without value, nested components -/
def reprintSample : PCal :=
  ⟨[⟨c!"VERSION", c!"2.0", []⟩],
   [.mk c!"VEVENT"
     [⟨c!"SUMMARY", c!"Team, weekly; bring the numbers of the last quarter and of the quarter before the last", []⟩,
      ⟨c!"ATTENDEE", c!"mailto:a@b.c", [⟨c!"CN", some c!"A \"B\" C"⟩, ⟨c!"RSVP", none⟩]⟩]
     [.mk c!"VALARM" [⟨c!"TRIGGER", c!"-PT5M", []⟩] []]]⟩

example : ∃ w out, reprintSample.fmtWrite w = .ok out ∧ @readCalendar Uni.ascii (unfold out) = some reprintSample ∧
    crlf ++ [' '] <:+: out := by
  let w : World := ⟨fun _ => ⟨⟨⟨2026, 1, 1⟩, 0, 0, 0, 0⟩⟩, fun _ => c!"0-f", fun _ l => l⟩
  have h : @ReprintCal Uni.ascii reprintSample := by
    refine @ReprintCal.mk Uni.ascii _ (by decide +kernel) ?_
    refine ⟨⟨by decide +kernel, by decide, by decide +kernel, ?_⟩, trivial⟩
    exact ⟨⟨by decide +kernel, by decide, by decide +kernel, trivial⟩, trivial⟩
  obtain ⟨out, ho⟩ : ∃ out, reprintSample.fmtWrite w = .ok out ∧ crlf ++ [' '] <:+: out := by
    refine ⟨c!"BEGIN:VCALENDAR\r\nVERSION:2.0\r\nBEGIN:VEVENT\r\nSUMMARY:Team, weekly; bring the numbers of the last quarter and of the quar\r\n ter before the last\r\nATTENDEE;CN=A \"B\" C;RSVP:mailto:a@b.c\r\nBEGIN:VALARM\r\nTRIGGER:-PT5M\r\nEND:VALARM\r\nEND:VEVENT\r\nEND:VCALENDAR\r\n", by decide +kernel, by decide +kernel⟩
  exact ⟨w, out, ho.1, @reprint_partial Uni.ascii _ h w out ho.1, ho.2⟩

end Ical
