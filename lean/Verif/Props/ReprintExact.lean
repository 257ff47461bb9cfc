import Verif.Props.Reprint
import Verif.Props.Grammar

/-!
C22: which parsed calendars survive printing and parsing. The argument: reading takes away quotes, backslashes and blanks
and never adds a character (other than a line feed or a colon), so a text of the same weight has none of them.
-/

namespace Ical

open Nom Spec

/-! ### Weight -/

/-- the number of characters other than colons and line breaks -/
def weight (s : Str) : Nat := s.countP (fun c => c != '\r' && c != '\n' && c != ':')

theorem weight_append (a b : Str) : weight (a ++ b) = weight a + weight b := List.countP_append

theorem weight_cons (c : Char) (s : Str) :
    weight (c :: s) = weight s + (if c != '\r' && c != '\n' && c != ':' then 1 else 0) := by
  unfold weight
  rw [List.countP_cons]

theorem weight_nil : weight [] = 0 := rfl

theorem weight_rep2 {y z : Char} (hz : weight [z] ≤ weight [y]) (s : Str) :
    weight (rep2 y z s) ≤ weight s ∧ (weight (rep2 y z s) = weight s → ¬ ['\\', y] <:+: s) := by
  fun_induction rep2 y z s with
  | case1 => exact ⟨Nat.le_refl _, fun _ h => by simp at h⟩
  | case2 c => exact ⟨Nat.le_refl _, fun _ h => by have := h.length_le; simp at this⟩
  | case3 a b s hab ih =>
    obtain ⟨rfl, rfl⟩ := hab
    have e1 : weight ('\\' :: b :: s) = weight s + weight [b] + 1 := by
      rw [weight_cons, weight_cons, weight_cons b []]
      simp [weight_nil]
    have e2 : weight (z :: rep2 b z s) = weight (rep2 b z s) + weight [z] := by
      rw [weight_cons, weight_cons z []]
      simp [weight_nil]
    have := ih.1
    refine ⟨by omega, fun h => by omega⟩
  | case4 a b s hab ih =>
    have e1 := weight_cons a (b :: s)
    have e2 := weight_cons a (rep2 y z (b :: s))
    obtain ⟨h1, h2⟩ := ih
    refine ⟨by omega, fun h hi => ?_⟩
    have h3 := h2 (by omega)
    rcases List.infix_cons_iff.1 hi with hp | hi
    · obtain ⟨t, ht⟩ := hp
      simp only [List.cons_append, List.nil_append, List.cons.injEq] at ht
      exact hab ⟨ht.1.symm, ht.2.1.symm⟩
    · exact h3 hi

theorem weight_unescape (s : Str) :
    weight (unescaped s) ≤ weight s ∧ (weight (unescaped s) = weight s → NoEscapes s ∧ unescaped s = s) := by
  rw [← unescapeText_unescaped, unescapeText_eq]
  obtain ⟨a1, b1⟩ := weight_rep2 (y := '\\') (z := '\\') (by decide) s
  generalize h1 : rep2 '\\' '\\' s = s1 at *
  obtain ⟨a2, b2⟩ := weight_rep2 (y := ',') (z := ',') (by decide) s1
  generalize h2 : rep2 ',' ',' s1 = s2 at *
  obtain ⟨a3, b3⟩ := weight_rep2 (y := ';') (z := ';') (by decide) s2
  generalize h3 : rep2 ';' ';' s2 = s3 at *
  obtain ⟨a4, b4⟩ := weight_rep2 (y := ':') (z := ':') (by decide) s3
  generalize h4 : rep2 ':' ':' s3 = s4 at *
  obtain ⟨a5, b5⟩ := weight_rep2 (y := 'N') (z := '\n') (by decide) s4
  generalize h5 : rep2 'N' '\n' s4 = s5 at *
  obtain ⟨a6, b6⟩ := weight_rep2 (y := 'n') (z := '\n') (by decide) s5
  generalize h6 : rep2 'n' '\n' s5 = s6 at *
  refine ⟨by omega, fun h => ?_⟩
  have c1 := b1 (by omega)
  have e1 := rep2_of_not_infix (z := '\\') c1
  rw [h1] at e1; subst e1
  have c2 := b2 (by omega)
  have e2 := rep2_of_not_infix (z := ',') c2
  rw [h2] at e2; subst e2
  have c3 := b3 (by omega)
  have e3 := rep2_of_not_infix (z := ';') c3
  rw [h3] at e3; subst e3
  have c4 := b4 (by omega)
  have e4 := rep2_of_not_infix (z := ':') c4
  rw [h4] at e4; subst e4
  have c5 := b5 (by omega)
  have e5 := rep2_of_not_infix (z := '\n') c5
  rw [h5] at e5; subst e5
  have c6 := b6 (by omega)
  have e6 := rep2_of_not_infix (z := '\n') c6
  rw [h6] at e6; subst e6
  refine ⟨?_, rfl⟩
  intro c hc
  simp only [List.mem_cons, List.not_mem_nil, or_false] at hc
  rcases hc with rfl | rfl | rfl | rfl | rfl | rfl <;> assumption

/-- a text that reading as TEXT does not change has no escape sequences -/
theorem unescaped_eq_iff (s : Str) : unescaped s = s ↔ NoEscapes s :=
  ⟨fun h => ((weight_unescape s).2 (by rw [h])).1, fun h => by rw [← unescapeText_unescaped, unescape_noEscapes h]⟩

theorem bareLine_line (p : PProp) : bareLine p = p.line := by
  unfold bareLine PProp.line
  rw [List.map_congr_left (g := PParam.text)]
  · simp
  · rintro ⟨k, v⟩ -
    cases v <;> simp [PParam.text]

/-! ### Unfolding -/

theorem lineProp_noIndent {p : PProp} (hp : LineProp p) (s : Str) : NoIndent (p.line ++ crlf ++ s) := by
  have h := hp.indent
  rw [bareLine_line] at h
  cases hl : p.line with
  | nil => exact noIndent_cons (by decide) (by decide)
  | cons c l =>
    rw [hl] at h
    exact noIndent_cons (h c (by simp)).1 (h c (by simp)).2

theorem unfold_lineProps {l : List PProp} (hl : ∀ p ∈ l, LineProp p) {out : Str}
    (h : fmtPProps l = .ok out) {t : Str} (ht : NoIndent t) :
    unfoldSpec (out ++ t) = itemsText .crlf (l.map ppropItem) ++ unfoldSpec t ∧ NoIndent (out ++ t) := by
  induction l generalizing out with
  | nil => cases h; exact ⟨rfl, ht⟩
  | cons p l ih =>
    unfold fmtPProps PProp.fmtWrite at h
    cases hf : foldLine p.line with
    | error e => rw [hf] at h; cases h
    | ok f =>
      rw [hf] at h
      cases hb : fmtPProps l with
      | error e => rw [hb] at h; cases h
      | ok b =>
        rw [hb] at h
        cases h
        have hp := hl p (by simp)
        obtain ⟨h1, h2⟩ := ih (fun q hq => hl q (by simp [hq])) hb
        have hm := hp.marker
        rw [bareLine_line] at hm
        have h3 := unfold_line hm hf h2
        have h4 := unfold_line hm hf (t := []) noIndent_nil
        have e2 : unfoldSpec [] = [] := rfl
        rw [List.append_nil, e2, List.append_nil] at h4
        simp only [List.append_assoc]
        refine ⟨?_, ?_⟩
        · rw [h3, h1, List.map_cons, itemsText, ppropItem_text]
          simp only [List.append_assoc]
        · have := noIndent_of_unfold (t := b ++ t) h4 (lineProp_noIndent hp _) h2
          simpa only [List.append_assoc] using this

/-- unfolding a line made of a keyword and a name -/
theorem keyword_line_markerFree (name kw : Str) (h : '\n' ∉ kw) (hm : MarkerFree name) {t : Str} (ht : NoIndent t) :
    unfoldSpec (kw ++ name ++ crlf ++ t) = kw ++ name ++ crlf ++ unfoldSpec t := by
  have := unfold_raw (markerFree_noLf_append h hm) .crlf ht
  rw [List.append_assoc, List.append_assoc _ crlf]
  exact this

mutual
theorem unfold_lineComp (c : PComp) (hc : LineComp c) {w : World} {out : Str} (h : c.fmtWrite w = .ok out)
    {t : Str} (ht : NoIndent t) :
    unfoldSpec (out ++ t) = c.item.text .crlf ++ unfoldSpec t ∧ NoIndent (out ++ t) := by
  match c, hc with
  | .mk name props comps, hc =>
    obtain ⟨hn, hcal, hp, hc⟩ := hc
    unfold PComp.fmtWrite at h
    cases hps : fmtPProps props with
    | error e => simp only [hps] at h; cases h
    | ok ps =>
      cases hcs : fmtPComps comps (w.sub 0) with
      | error e => simp only [hps, hcs] at h; cases h
      | ok cs =>
        simp only [hps, hcs] at h
        cases h
        have hend : NoIndent (c!"END:" ++ name ++ crlf ++ t) := noIndent_cons (by decide) (by decide)
        have e0 := keyword_line_markerFree name c!"END:" (by decide) hn ht
        obtain ⟨c1, c2⟩ := unfold_lineComps comps hc hcs hend
        obtain ⟨p1, p2⟩ := unfold_lineProps hp hps c2
        have e1 := keyword_line_markerFree name c!"BEGIN:" (by decide) hn p2
        rw [p1, c1, e0] at e1
        refine ⟨?_, noIndent_cons (by decide) (by decide)⟩
        rw [calendarStamp_nil hcal]
        simp only [PComp.item, Item.text, itemsText_append, Break.text]
        simp only [List.append_assoc, List.nil_append] at e1 ⊢
        exact e1
theorem unfold_lineComps (l : List PComp) (hl : LineComps l) {w : World} {out : Str} (h : fmtPComps l w = .ok out)
    {t : Str} (ht : NoIndent t) :
    unfoldSpec (out ++ t) = itemsText .crlf (pcompItems l) ++ unfoldSpec t ∧ NoIndent (out ++ t) := by
  match l, hl with
  | [], _ =>
    simp only [fmtPComps] at h
    cases h
    exact ⟨rfl, ht⟩
  | c :: l, hl =>
    obtain ⟨hc, hl⟩ := hl
    unfold fmtPComps at h
    cases ha : c.fmtWrite (w.sub 0) with
    | error e => rw [ha] at h; cases h
    | ok a =>
      rw [ha] at h
      cases hb : fmtPComps l (w.sub 1) with
      | error e => rw [hb] at h; cases h
      | ok b =>
        rw [hb] at h
        cases h
        obtain ⟨h1, h2⟩ := unfold_lineComps l hl hb ht
        obtain ⟨h3, h4⟩ := unfold_lineComp c hc ha h2
        rw [List.append_assoc]
        exact ⟨by rw [h3, h1, pcompItems, itemsText, List.append_assoc], h4⟩
end

/-! ### Reading -/

variable [Uni]

theorem paramReads_weight {p : PParam} {t f : Str} (h : ParamReads p t f) :
    weight p.text ≤ weight t ∧ (weight p.text = weight t →
      IsName p.key ∧ ∀ v, p.val = some v → v ≠ [] ∧ ':' ∉ v ∧ ';' ∉ v) := by
  obtain ⟨hk, blanks, form, -, rfl, hform⟩ := h
  obtain ⟨k, v⟩ := p
  cases v with
  | none =>
    refine ⟨?_, fun _ => ⟨hk, by simp⟩⟩
    simp [PParam.text, weight_append, weight_cons]
    omega
  | some v =>
    obtain ⟨hne, hform⟩ := hform
    rcases hform with ⟨rfl, -⟩ | ⟨rfl, h1, h2, -⟩
    · have e : weight (PParam.text ⟨k, some v⟩) + 2 ≤ weight (';' :: blanks ++ k ++ '=' :: '"' :: v ++ ['"']) := by
        simp [PParam.text, weight_append, weight_cons, weight_nil]
        omega
      have e' : weight (';' :: blanks ++ k ++ '=' :: '"' :: v ++ ['"']) =
        weight (';' :: blanks ++ k ++ ('=' :: '"' :: v ++ ['"'])) := by simp
      rw [e'] at e
      refine ⟨Nat.le_trans (Nat.le_add_right _ _) e, fun h => ?_⟩
      rw [h] at e
      exact absurd e (Nat.not_le.2 (Nat.lt_add_of_pos_right (by decide)))
    · refine ⟨?_, fun _ => ⟨hk, fun w hw => by cases hw; exact ⟨hne, h1, h2⟩⟩⟩
      simp [PParam.text, weight_append, weight_cons]

theorem paramsRead_weight {l : List PParam} {t f : Str} (h : ParamsRead l t f) :
    weight (l.map PParam.text).flatten ≤ weight t ∧ (weight (l.map PParam.text).flatten = weight t →
      ∀ q ∈ l, IsName q.key ∧ ∀ v, q.val = some v → v ≠ [] ∧ ':' ∉ v ∧ ';' ∉ v) := by
  induction l generalizing t with
  | nil => exact ⟨by rw [show t = [] from h]; exact Nat.le_refl _, by simp⟩
  | cons p l ih =>
    obtain ⟨a, b, h1, h2, rfl⟩ := h
    obtain ⟨i1, i2⟩ := ih h2
    obtain ⟨j1, j2⟩ := paramReads_weight h1
    rw [List.map_cons, List.flatten_cons, weight_append, weight_append]
    refine ⟨by omega, fun he q hq => ?_⟩
    rcases List.mem_cons.1 hq with rfl | hq
    · exact j2 (by omega)
    · exact i2 (by omega) q hq

omit [Uni] in
theorem markerFree_param {p : PProp} (h : MarkerFree p.line) {q : PParam} (hq : q ∈ p.params) {v : Str}
    (hv : q.val = some v) : MarkerFree v := by
  refine markerFree_infix h (List.IsInfix.trans (l₂ := q.text) ?_ ?_)
  · unfold PParam.text
    rw [hv]
    exact ⟨[';'] ++ q.key ++ ['='], [], by simp⟩
  · obtain ⟨l1, l2, e⟩ := List.append_of_mem hq
    unfold PProp.line
    rw [e]
    exact ⟨p.name ++ (l1.map PParam.text).flatten, (l2.map PParam.text).flatten ++ [':'] ++ p.val, by simp⟩

theorem propReads_weight {p : PProp} {t f : Str} (h : PropReads p t f) (hp : LineProp p) :
    weight p.line ≤ weight t ∧ (weight p.line = weight t → ReprintProp p) := by
  obtain ⟨hn, he, hb, h⟩ := h
  have hm := hp.marker
  rw [bareLine_line] at hm
  have hmv : MarkerFree p.val := markerFree_infix hm ⟨p.name ++ (p.params.map PParam.text).flatten ++ [':'], [], by
    simp [PProp.line]⟩
  have hk : KeyOk p.name := ⟨hn, he, hb, hp.notEnd, hp.notBegin⟩
  rcases h with ⟨white, params, raw, br, -, hps, hraw, -, hv, rfl⟩ | ⟨h1, h2, br, -, rfl, -⟩
  · obtain ⟨i1, i2⟩ := paramsRead_weight hps
    have hval : weight p.val ≤ weight raw ∧ (weight p.val = weight raw → p.val = raw ∧
        (IsTextFor p.name (pvalueParam p.params) → NoEscapes p.val)) := by
      by_cases ht : IsTextFor p.name ((p.params.find? (fun q => q.key == c!"VALUE")).bind PParam.val)
      · rw [(hv.2 ht).1]
        refine ⟨(weight_unescape raw).1, fun h => ?_⟩
        obtain ⟨a, b⟩ := (weight_unescape raw).2 h
        exact ⟨b, fun _ => by rw [b]; exact a⟩
      · rw [hv.1 ht]
        exact ⟨Nat.le_refl _, fun _ => ⟨rfl, fun h => absurd h ht⟩⟩
    have e1 : weight p.line = weight p.name + weight (p.params.map PParam.text).flatten + weight p.val := by
      simp [PProp.line, weight_append, weight_cons]
      omega
    have e2 : weight (white ++ p.name ++ params ++ ':' :: raw ++ br) =
        weight white + weight p.name + weight params + weight raw + weight br := by
      simp [weight_append, weight_cons]
      omega
    obtain ⟨j1, j2⟩ := hval
    refine ⟨by omega, fun h => ?_⟩
    obtain ⟨k1, k2⟩ := j2 (by omega)
    refine ⟨hk, ?_, by rw [k1]; exact hraw, hmv, k2⟩
    intro q hq
    obtain ⟨m1, m2⟩ := i2 (by omega) q hq
    exact ⟨m1, fun v hv => ⟨(m2 v hv).1, (m2 v hv).2.1, (m2 v hv).2.2, hp.quote q hq v hv, markerFree_param hm hq hv⟩⟩
  · refine ⟨?_, fun _ => ⟨hk, by simp [h1], by simp [h2], hmv, fun _ => by rw [h2]; decide⟩⟩
    simp [PProp.line, h1, h2, weight_append, weight_cons, weight_nil]

omit [Uni] in
theorem weight_ppropItems (p : PProp) (l : List PProp) :
    weight (itemsText .crlf ((p :: l).map ppropItem)) = weight p.line + weight (itemsText .crlf (l.map ppropItem)) := by
  rw [List.map_cons, itemsText, ppropItem_text, weight_append, weight_append]
  rfl

omit [Uni] in
theorem weight_lower (b : Str) : weight (b.map lowerAscii) ≤ weight b := by
  induction b with
  | nil => exact Nat.le_refl _
  | cons c b ih =>
    rw [List.map_cons, weight_cons, weight_cons]
    by_cases hc : c = '\r' ∨ c = '\n' ∨ c = ':'
    · have : lowerAscii c = c := by rcases hc with rfl | rfl | rfl <;> rfl
      rw [this]
      omega
    · have : (c != '\r' && c != '\n' && c != ':') = true := by simpa [not_or, and_assoc] using hc
      rw [this]
      split <;> simp only [if_true] <;> omega

mutual
theorem compReads_weight {c : PComp} {t f : Str} : CompReads c t f → LineComp c →
    weight (c.item.text .crlf) ≤ weight t ∧ (weight (c.item.text .crlf) = weight t → ReprintComp c)
  | .mk (n := n) (props := props) (comps := comps) (lead := lead) (b := b) (gap := gap) (body := body) (last := last)
      (e := e) (trail := trail) _ hbeg hn _ _ hb _ hend _, hp => by
    obtain ⟨-, hcal, hp, hc⟩ := hp
    obtain ⟨h1, h2⟩ := bodyReads_weight hb hp hc
    have e1 : weight (Item.text .crlf (.mk n props comps : PComp).item) = 5 + weight n +
        (weight (itemsText .crlf (props.map ppropItem)) + weight (itemsText .crlf (pcompItems comps))) + 3 + weight n := by
      simp only [PComp.item, Item.text, itemsText_append, weight_append, Break.text]
      have : weight c!"BEGIN:" = 5 ∧ weight c!"END:" = 3 ∧ weight ['\r', '\n'] = 0 := by decide
      omega
    have hwb : 5 ≤ weight b := by
      have := weight_lower b
      rw [hbeg] at this
      exact this
    have hwe : 3 ≤ weight e := by
      have := weight_lower e
      rw [hend] at this
      exact this
    simp only [weight_append]
    rw [e1]
    refine ⟨by omega, fun h => ?_⟩
    exact ⟨hn, hcal, h2 (by omega)⟩
theorem bodyReads_weight {props : List PProp} {comps : List PComp} {t f : Str} : BodyReads props comps t f →
    (∀ p ∈ props, LineProp p) → LineComps comps →
    weight (itemsText .crlf (props.map ppropItem)) + weight (itemsText .crlf (pcompItems comps)) ≤ weight t ∧
    (weight (itemsText .crlf (props.map ppropItem)) + weight (itemsText .crlf (pcompItems comps)) = weight t →
      (∀ p ∈ props, ReprintProp p) ∧ ReprintComps comps)
  | .nil, _, _ => ⟨Nat.le_refl _, fun _ => ⟨by simp, trivial⟩⟩
  | .prop (lead := lead) (t := t) (trail := trail) (rest := rest) _ hp _ hr, h1, h2 => by
    obtain ⟨h3, h4⟩ := bodyReads_weight hr (fun p hp => h1 p (List.mem_cons_of_mem _ hp)) h2
    obtain ⟨h5, h6⟩ := propReads_weight hp (h1 _ List.mem_cons_self)
    rw [weight_ppropItems]
    simp only [weight_append]
    refine ⟨by omega, fun h => ?_⟩
    obtain ⟨h7, h8⟩ := h4 (by omega)
    exact ⟨fun p hp => by
      rcases List.mem_cons.1 hp with rfl | hp
      · exact h6 (by omega)
      · exact h7 p hp, h8⟩
  | .comp (c := c) (lead := lead) (t := t) (trail := trail) (rest := rest) _ hc _ hr, h1, h2 => by
    obtain ⟨h3, h4⟩ := bodyReads_weight hr h1 h2.2
    obtain ⟨h5, h6⟩ := compReads_weight hc h2.1
    rw [pcompItems, itemsText]
    simp only [weight_append]
    refine ⟨by omega, fun h => ?_⟩
    obtain ⟨h7, h8⟩ := h4 (by omega)
    exact ⟨h7, h6 (by omega), h8⟩
end

/-! ### C22 -/

omit [Uni] in
theorem span_unique {P : Char → Prop} {a b x y : Str} (h : a ++ x = b ++ y) (ha : ∀ c ∈ a, P c) (hb : ∀ c ∈ b, P c)
    (hx : ∀ c ∈ x.head?, ¬ P c) (hy : ∀ c ∈ y.head?, ¬ P c) : a = b := by
  induction a generalizing b with
  | nil =>
    cases b with
    | nil => rfl
    | cons d b =>
      rw [List.nil_append] at h
      subst h
      exact absurd (hb d (by simp)) (hx d (by simp))
  | cons c a ih =>
    cases b with
    | nil =>
      rw [List.nil_append] at h
      subst h
      exact absurd (ha c (by simp)) (hy c (by simp))
    | cons d b =>
      rw [List.cons_append, List.cons_append, List.cons.injEq] at h
      rw [h.1, ih h.2 (fun c hc => ha c (by simp [hc])) (fun c hc => hb c (by simp [hc]))]

/-- the name of a component is the name in its first line -/
theorem compReads_name {d : PComp} {name t u f : Str} (hn : IsName name) (hu : c!"BEGIN:" ++ (name ++ '\r' :: t) = u) :
    CompReads d u f → d.name = name
  | .mk (n := n) (lead := lead) (b := b) (gap := gap) (body := body) (last := last) (e := e) (trail := trail)
      hl hb hn' hs _ _ _ _ _ => by
    have hlead : lead = [] := by
      obtain ⟨bs, rfl⟩ := hl
      match bs with
      | [] => rfl
      | .crlf :: bs => simp [Break.text] at hu
      | .lf :: bs => simp [Break.text] at hu
    subst hlead
    have hlen : b.length = 6 := by
      have := congrArg List.length hb
      simpa using this
    simp only [List.nil_append, List.append_assoc] at hu
    obtain ⟨-, h2⟩ := List.append_inj hu (by rw [hlen]; rfl)
    have := span_unique (P := NameChar) h2 hn hn' (by
      intro c hc
      simp only [List.head?_cons, Option.mem_some_iff] at hc
      subst hc
      intro h
      have := (isKeyChar_iff _).2 h
      rw [isKeyChar_cr] at this
      cases this) (by
      intro c hc
      refine hs c ?_
      have : c ∈ ((gap ++ (body ++ (last ++ (e ++ (n ++ trail))))) ++ f).head? := by
        rw [List.head?_append, Option.mem_def.1 hc]
        rfl
      simpa only [List.append_assoc] using this)
    exact this.symm

/-- **C22 (partial).** A parsed calendar whose lines are printed each as one line is read back exactly if it has no
parameter values in need of quotes, no escape sequences left over in texts and no line breaks in values. -/
theorem reprint_iff_partial {c : PCal} (hc : LineCal c) {w : World} {out : Str} (h : c.fmtWrite w = .ok out) :
    readCalendar (unfold out) = some c ↔ ReprintCal c := by
  refine ⟨fun hr => ?_, fun hr => reprint_partial hr h⟩
  by_cases hne : c.props = [] ∧ c.comps = []
  · exact ⟨by rw [hne.1]; simp, by rw [hne.2]; trivial⟩
  obtain ⟨props, comps⟩ := c
  have hlc : LineComp (.mk c!"VCALENDAR" props comps) := ⟨by decide, by decide, hc.props, hc.comps⟩
  have hu := (unfold_lineComp _ hlc h noIndent_nil).1
  have e2 : unfoldSpec [] = [] := rfl
  rw [List.append_nil, e2, List.append_nil, ← unfold_eq_spec] at hu
  rw [hu] at hr
  rcases read_calendar_sound hr hne with hs | ⟨d, hd, -, -, hs⟩
  · exact ⟨((compReads_weight hs hlc).2 rfl).2.2.1, ((compReads_weight hs hlc).2 rfl).2.2.2⟩
  · refine absurd (compReads_name (name := c!"VCALENDAR")
      (t := '\n' :: (itemsText .crlf (props.map ppropItem ++ pcompItems comps) ++ (c!"END:" ++ c!"VCALENDAR" ++ crlf)))
      (isName_upper _ (by decide)) ?_ hs) hd
    · simp [PComp.item, Item.text, Break.text, crlf]

/-- **C22 (partial).** The same for a single component. -/
theorem reprint_component_iff_partial {c : PComp} (hc : LineComp c) {w : World} {out : Str}
    (h : c.fmtWrite w = .ok out) : readComponent (unfold out) = some c ↔ ReprintComp c := by
  refine ⟨fun hr => ?_, fun hr => reprint_component_partial hr h⟩
  have hu := (unfold_lineComp _ hc h noIndent_nil).1
  have e2 : unfoldSpec [] = [] := rfl
  rw [List.append_nil, e2, List.append_nil, ← unfold_eq_spec] at hu
  rw [hu] at hr
  obtain ⟨t, rest, he, hs⟩ := read_component_sound hr
  obtain ⟨h1, h2⟩ := compReads_weight hs hc
  have h3 := congrArg weight he
  rw [weight_append] at h3
  exact h2 (by omega)

end Ical

/-! ### Examples -/

namespace Ical

open Spec

local instance asciiUniReprint : Uni := Uni.ascii

/-- a parsed calendar with a parameter value that was in quotes, without the quotes -/
def quotedSample : PCal := ⟨[⟨c!"ATTENDEE", c!"x", [⟨c!"CN", some c!"A;B"⟩]⟩], []⟩

theorem quotedSample_line : LineCal quotedSample := by
  refine ⟨?_, trivial⟩
  intro p hp
  obtain rfl : p = ⟨c!"ATTENDEE", c!"x", [⟨c!"CN", some c!"A;B"⟩]⟩ := by simpa [quotedSample] using hp
  exact ⟨by decide, by decide, by decide, by decide, by decide⟩

example (w : World) (out : Str) (h : quotedSample.fmtWrite w = .ok out) :
    readCalendar (unfold out) ≠ some quotedSample := fun hr =>
  absurd (((reprint_iff_partial quotedSample_line h).1 hr).props _ List.mem_cons_self) (by decide +kernel)

example (w : World) (out : Str) (h : (PCal.mk [⟨c!"SUMMARY", c!"C:\\,", []⟩] []).fmtWrite w = .ok out) :
    readCalendar (unfold out) ≠ some ⟨[⟨c!"SUMMARY", c!"C:\\,", []⟩], []⟩ := fun hr => by
  have hl : LineCal ⟨[⟨c!"SUMMARY", c!"C:\\,", []⟩], []⟩ := by
    refine ⟨?_, trivial⟩
    intro p hp
    obtain rfl : p = ⟨c!"SUMMARY", c!"C:\\,", []⟩ := by simpa using hp
    exact ⟨by decide, by decide, by decide, by decide, by decide⟩
  exact absurd (((reprint_iff_partial hl h).1 hr).props _ List.mem_cons_self) (by decide +kernel)

end Ical
