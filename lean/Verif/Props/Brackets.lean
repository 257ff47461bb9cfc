import Verif.Spec.Brackets
import Verif.Props.Redact

/-!
# The lines that begin and end components

C145: in a written file, and in an unfolded file of others, the lines that start with `BEGIN:` or `END:` are those of the
components, in order. So counting such lines counts components.
-/

namespace Ical

open Nom Spec

/-- the text starts with the word, in any letter case -/
def StartsAny (kw s : Str) : Prop := ∃ u v, s = u ++ v ∧ u.map lowerAscii = kw

theorem startsAny_iff (kw s : Str) : (s.take kw.length).map lowerAscii = kw ↔ StartsAny kw s := by
  constructor
  · intro h
    exact ⟨s.take kw.length, s.drop kw.length, (List.take_append_drop _ _).symm, h⟩
  · rintro ⟨u, v, rfl, rfl⟩
    simp

theorem startsAny_before {kw x y : Str} {d : Char} (hd : lowerAscii d ∉ kw) (h : StartsAny kw (x ++ d :: y)) : StartsAny kw x := by
  obtain ⟨u, v, e, rfl⟩ := h
  rcases List.append_eq_append_iff.1 e with ⟨a, rfl, ha⟩ | ⟨a, rfl, -⟩
  · cases a with
    | nil => exact ⟨x, [], by simp, by simp⟩
    | cons c a =>
      rw [List.cons_append, List.cons.injEq] at ha
      obtain ⟨rfl, -⟩ := ha
      exact absurd (by simp) hd
  · exact ⟨u, a, rfl, rfl⟩

theorem startsAny_append {kw x : Str} (y : Str) (h : StartsAny kw x) : StartsAny kw (x ++ y) := by
  obtain ⟨u, v, rfl, h⟩ := h
  exact ⟨u, v ++ y, by simp, h⟩

/-- a line that starts with a word and a colon has the word as its name -/
theorem startsAny_key {kw key t : Str} {d : Char} (hkw : ':' ∉ kw ∧ ';' ∉ kw) (hkey : ':' ∉ key ∧ ';' ∉ key) (hd : d = ':' ∨ d = ';')
    (h : StartsAny (kw ++ [':']) (key ++ d :: t)) : key.map lowerAscii = kw := by
  obtain ⟨u, v, e, hu⟩ := h
  rw [List.map_eq_append_iff] at hu
  obtain ⟨u', x, rfl, rfl, hx⟩ := hu
  obtain ⟨c, rfl⟩ : ∃ c, x = [c] := by
    have hl : x.length = 1 := by rw [← List.length_map (f := lowerAscii), hx]; rfl
    exact List.length_eq_one_iff.1 hl
  have hc : lowerAscii c = ':' := by simpa using hx
  obtain rfl := lowerAscii_eq (by decide) hc
  have h1 : ':' ∉ u' := fun hm => hkw.1 (List.mem_map.2 ⟨_, hm, by decide⟩)
  have h2 : ';' ∉ u' := fun hm => hkw.2 (List.mem_map.2 ⟨_, hm, by decide⟩)
  rw [(named_key ⟨h1, h2⟩ hkey hd).1 (.inl ⟨v, e.symm⟩)]

theorem bracketOf_none {line : Str} (h1 : ¬ StartsAny c!"begin:" line) (h2 : ¬ StartsAny c!"end:" line) : bracketOf line = none := by
  rw [← startsAny_iff] at h1 h2
  simp only [List.length_cons, List.length_nil, Nat.zero_add, Nat.reduceAdd] at h1 h2
  unfold bracketOf
  rw [if_neg h1, if_neg h2]

/-- no beginning of the line of a property, ended by a line break or not, is such a line -/
theorem bracketOf_prop [Uni] {key t q z : Str} {d : Char} (hk : KeyOk key) (hd : d = ':' ∨ d = ';') (hq : q <+: key ++ d :: t)
    (hz : z = [] ∨ ∃ c y, z = c :: y ∧ (c = '\r' ∨ c = '\n')) : bracketOf (q ++ z) = none := by
  have hpl := (name_plain hk.name).1
  have key : ∀ kw : Str, '\r' ∉ kw ++ [':'] → '\n' ∉ kw ++ [':'] → ':' ∉ kw → ';' ∉ kw → key.map lowerAscii ≠ kw →
      ¬ StartsAny (kw ++ [':']) (q ++ z) := by
    intro kw hr hn h1 h2 hne h
    have : StartsAny (kw ++ [':']) q := by
      rcases hz with rfl | ⟨c, y, rfl, hc⟩
      · simpa using h
      · refine startsAny_before ?_ h
        rcases hc with rfl | rfl
        · exact hr
        · exact hn
    obtain ⟨u, hu⟩ := hq
    have := startsAny_append u this
    rw [hu] at this
    exact hne (startsAny_key ⟨h1, h2⟩ hpl hd this)
  exact bracketOf_none (key c!"begin" (by decide) (by decide) (by decide) (by decide) hk.notBeginAnyCase)
    (key c!"end" (by decide) (by decide) (by decide) (by decide) hk.notEndAnyCase)

theorem bracketOf_blank {z : Char} {x : Str} (h1 : lowerAscii z ≠ 'b') (h2 : lowerAscii z ≠ 'e') : bracketOf (z :: x) = none := by
  apply bracketOf_none
  · rintro ⟨u, v, e, h⟩
    cases u with
    | nil => cases h
    | cons c u =>
      rw [List.cons_append, List.cons.injEq] at e
      obtain ⟨rfl, -⟩ := e
      simp at h
      exact h1 h.1
  · rintro ⟨u, v, e, h⟩
    cases u with
    | nil => cases h
    | cons c u =>
      rw [List.cons_append, List.cons.injEq] at e
      obtain ⟨rfl, -⟩ := e
      simp at h
      exact h2 h.1

theorem lineContent_break {x : Str} (h : '\r' ∉ x) (br : Break) : lineContent (x ++ br.text) = x := by
  cases br
  · have := lineContent_crlf x
    rw [List.append_assoc] at this
    exact this
  · exact lineContent_lf (fun ⟨t, e⟩ => h (by rw [← e]; simp))

theorem lineContent_none {x : Str} (h : '\n' ∉ x) : lineContent x = x := by
  unfold lineContent
  rw [if_neg, if_neg]
  · rintro ⟨t, rfl⟩; exact h (by simp)
  · rintro ⟨t, rfl⟩; exact h (by simp)

theorem bracketOf_begin {b x : Str} (hb : b.map lowerAscii = c!"begin:") : bracketOf (b ++ x) = some (true, lineContent x) := by
  have hl : b.length = 6 := by rw [← List.length_map (f := lowerAscii), hb]; rfl
  have h1 : (b ++ x).take 6 = b := by rw [← hl]; simp
  have h2 : (b ++ x).drop 6 = x := by rw [← hl]; simp
  unfold bracketOf
  rw [h1, if_pos hb, h2]

theorem bracketOf_end {b x : Str} (hb : b.map lowerAscii = c!"end:") : bracketOf (b ++ x) = some (false, lineContent x) := by
  have hl : b.length = 4 := by rw [← List.length_map (f := lowerAscii), hb]; rfl
  have h1 : (b ++ x).take 4 = b := by rw [← hl]; simp
  have h2 : (b ++ x).drop 4 = x := by rw [← hl]; simp
  unfold bracketOf
  rw [if_neg, h1, if_pos hb, h2]
  intro h
  obtain ⟨u, v, e, h⟩ := (startsAny_iff c!"begin:" _).1 h
  cases u with
  | nil => cases h
  | cons c u =>
    cases b with
    | nil => cases hb
    | cons c' b =>
      rw [List.cons_append, List.cons_append, List.cons.injEq] at e
      obtain ⟨rfl, -⟩ := e
      simp at h hb
      rw [hb.1] at h
      exact absurd h.1 (by decide)

/-! ### texts made of whole lines -/

/-- the text adds these lines, whatever follows -/
def Bracketed (s : Str) (l : List (Bool × Str)) : Prop := ∀ t, brackets (s ++ t) = l ++ brackets t

theorem bracketed_nil : Bracketed [] [] := fun _ => rfl

theorem bracketed_append {a b : Str} {la lb : List (Bool × Str)} (ha : Bracketed a la) (hb : Bracketed b lb) :
    Bracketed (a ++ b) (la ++ lb) := by
  intro t
  rw [List.append_assoc, ha, hb, List.append_assoc]

theorem bracketed_line {x : Str} (h : NoLf x) : Bracketed (x ++ ['\n']) (bracketOf (x ++ ['\n'])).toList := by
  intro t
  unfold brackets
  rw [List.append_assoc, List.singleton_append, cutLines_line h, List.filterMap_cons]
  cases bracketOf (x ++ ['\n']) <;> rfl

theorem bracketed_break {x : Str} (h : NoLf x) (br : Break) : Bracketed (x ++ br.text) (bracketOf (x ++ br.text)).toList := by
  obtain ⟨q, hq, e⟩ := break_cases br
  have := bracketed_line (x := x ++ q) (by simp [NoLf] at h hq ⊢; exact ⟨h, hq⟩)
  rw [List.append_assoc, ← e] at this
  exact this

theorem bracketed_blank {bl : Str} (h : Blank bl) : Bracketed bl [] := by
  obtain ⟨bs, rfl⟩ := h
  induction bs with
  | nil => exact bracketed_nil
  | cons b bs ih =>
    have : Bracketed b.text [] := by
      have := bracketed_break (x := []) (by decide) b
      cases b <;> exact this
    exact bracketed_append this ih

variable [Uni]

theorem bracketed_begin {b n : Str} (hb : b.map lowerAscii = c!"begin:") (hn : IsName n) (br : Break) :
    Bracketed (b ++ n ++ br.text) [(true, n)] := by
  have h1 := name_plain hn
  have h2 := keyword_unbroken hb (by decide) (by decide)
  have := bracketed_break (x := b ++ n) (by simpa [NoLf] using ⟨h2.2, h1.2.1⟩) br
  rw [List.append_assoc b, bracketOf_begin hb, lineContent_break h1.2.2.1] at this
  rwa [List.append_assoc]

theorem bracketed_end {e n : Str} (he : e.map lowerAscii = c!"end:") (hn : IsName n) (br : Break) :
    Bracketed (e ++ n ++ br.text) [(false, n)] := by
  have h1 := name_plain hn
  have h2 := keyword_unbroken he (by decide) (by decide)
  have := bracketed_break (x := e ++ n) (by simpa [NoLf] using ⟨h2.2, h1.2.1⟩) br
  rw [List.append_assoc e, bracketOf_end he, lineContent_break h1.2.2.1] at this
  rwa [List.append_assoc]

omit [Uni] in
theorem break_start (br : Break) : ∃ c y, br.text = c :: y ∧ (c = '\r' ∨ c = '\n') := by
  cases br
  · exact ⟨_, _, rfl, .inl rfl⟩
  · exact ⟨_, _, rfl, .inr rfl⟩

/-! ### documents -/

theorem bracketed_items {br : Break} : (l : List Item) → ItemsOk br l → ItemsUnbroken l → {s : Str} → SpacedAll br l s →
    Bracketed s (bracketsWithinAll (toOthers (itemsComps l)))
  | [], _, _, s, hs => by
    simp only [SpacedAll] at hs
    subst hs
    simp only [itemsComps, toOthers, bracketsWithinAll]
    exact bracketed_nil
  | .prop key params val :: l, h, hu, s, hs => by
    simp only [SpacedAll, Spaced] at hs
    obtain ⟨s1, s2, ⟨bl, hb, rfl⟩, h2, rfl⟩ := hs
    simp only [ItemsOk, Item.Ok] at h
    simp only [ItemsUnbroken, Item.Unbroken] at hu
    have ih := bracketed_items l h.2 hu.2 h2
    have hline := bracketed_break hu.1.2 br
    obtain ⟨d, t, hd, ht⟩ := params_start params val
    rw [bracketOf_prop h.1.1 hd (by rw [List.append_assoc, List.append_assoc, ht]; exact List.prefix_refl _) (.inr (break_start br))] at hline
    have := bracketed_append (bracketed_append hline (bracketed_blank hb)) ih
    rw [itemsComps]
    simpa only [Item.text, List.append_assoc, List.nil_append, Option.toList_none] using this
  | .comp b e name items :: l, h, hu, s, hs => by
    simp only [SpacedAll, Spaced] at hs
    obtain ⟨s1, s2, ⟨bl, body, bl', hb, hb', hbody, rfl⟩, h2, rfl⟩ := hs
    simp only [ItemsOk, Item.Ok] at h
    simp only [ItemsUnbroken, Item.Unbroken] at hu
    have i1 := bracketed_items items h.1.2.2.2 hu.1 hbody
    have i2 := bracketed_items l h.2 hu.2 h2
    have := bracketed_append (bracketed_append (bracketed_append (bracketed_append (bracketed_append
      (bracketed_begin h.1.1 h.1.2.2.1 br) (bracketed_blank hb)) i1) (bracketed_end h.1.2.1 h.1.2.2.1 br)) (bracketed_blank hb')) i2
    rw [itemsComps_comp, toOthers, bracketsWithinAll, toOther_readAs, bracketsWithin]
    simpa only [List.append_assoc, List.nil_append, List.append_nil, List.cons_append] using this

omit [Uni] in
theorem toOthers_eq_map (l : List PComp) : (l.map PComp.toCalComp).map CalComp.toOther = toOthers l := by
  induction l with
  | nil => rfl
  | cons c l ih => rw [List.map_cons, List.map_cons, ih, toOther_toCalComp, toOthers]

/-- **C145.** The lines of an unfolded file that start with `BEGIN:` or `END:`, in any letter case, are those of the
calendar that is read from the file and of its components, in order. -/
theorem brackets_read {br : Break} {b e : Str} {l : List Item} (h : (Item.comp b e c!"VCALENDAR" l).Ok br)
    (hu : (Item.comp b e c!"VCALENDAR" l).Unbroken) {file : Str} (hp : Presents br (.comp b e c!"VCALENDAR" l) file) :
    ∃ c, Calendar.fromStr file = some c ∧ brackets (unfold file) = calendarBrackets c := by
  refine ⟨_, calendar_presented h hp, ?_⟩
  simp only [Item.Ok] at h
  simp only [Item.Unbroken] at hu
  simp only [Presents] at hp
  obtain ⟨lead, bl, body, tail, hl, hb, ht, hbody, -, hfold⟩ := hp
  have i1 := bracketed_items l h.2.2.2 hu hbody
  have hlast : brackets (e ++ (c!"VCALENDAR" ++ tail)) = [(false, c!"VCALENDAR")] := by
    obtain ⟨bs, rfl⟩ := ht
    cases bs with
    | nil =>
      have hen : NoLf (e ++ c!"VCALENDAR") := by
        have := (keyword_unbroken h.2.1 (by decide) (by decide)).2
        simpa [NoLf] using this
      have e1 := cutLines_last hen
      rw [if_neg (by simp)] at e1
      have e2 := bracketOf_end (x := c!"VCALENDAR") h.2.1
      rw [lineContent_none (by decide)] at e2
      simp only [List.map_nil, List.flatten_nil, List.append_nil, brackets]
      rw [e1, List.filterMap_cons, e2]
      rfl
    | cons br' bs =>
      have h1 := bracketed_append (bracketed_end h.2.1 h.2.2.1 br') (bracketed_blank ⟨bs, rfl⟩) []
      simp only [List.append_assoc, List.append_nil] at h1
      rw [List.map_cons, List.flatten_cons, h1]
      rfl
  have := bracketed_append (bracketed_append (bracketed_append (bracketed_blank hl) (bracketed_begin h.1 h.2.2.1 br))
    (bracketed_blank hb)) i1 (e ++ (c!"VCALENDAR" ++ tail))
  rw [hlast] at this
  rw [foldedForm_unfold hfold]
  unfold calendarBrackets
  rw [toOthers_eq_map]
  simpa only [List.append_assoc, List.nil_append, List.append_nil, List.cons_append] using this

/-! ### written files -/

omit [Uni] in
theorem bracketed_folded (q : Str) (qs : List Str) (hl : NoLf (q :: qs).flatten) (hq : bracketOf (q ++ crlf) = none) :
    Bracketed (joinFold (q :: qs) ++ crlf) [] := by
  induction qs generalizing q with
  | nil =>
    have := bracketed_break (x := q) (by simpa [NoLf] using hl) .crlf
    have e : q ++ Break.text .crlf = q ++ crlf := rfl
    rw [e, hq] at this
    simpa [joinFold] using this
  | cons x qs ih =>
    have e : joinFold (q :: x :: qs) ++ crlf = (q ++ crlf) ++ (joinFold ((' ' :: x) :: qs) ++ crlf) := by
      cases qs <;> simp [joinFold, crlf]
    have h1 := bracketed_break (x := q) (by simp [NoLf] at hl ⊢; exact hl.1) .crlf
    have e' : q ++ Break.text .crlf = q ++ crlf := rfl
    rw [e', hq] at h1
    rw [e]
    exact bracketed_append h1 (ih (' ' :: x) (by simp [NoLf] at hl ⊢; exact hl.2) (bracketOf_blank (by decide) (by decide)))

theorem bracketed_property {p : Property} (hp : PropOk p) (hu : UnbrokenProp p) {w : World} (hw : World.Ok w) {out : Str}
    (h : p.fmtWrite w = .ok out) : Bracketed out [] := by
  obtain ⟨-, hp1, -⟩ := name_plain hp.key.name
  unfold Property.fmtWrite at h
  cases hf : foldLine (p.line w) with
  | error e => rw [hf] at h; cases h
  | ok s =>
    rw [hf] at h
    cases h
    have hpar := noLf_params (w.order [] p.params) (fun x hx => by
      have hx := (hw.order [] p.params).mem_iff.1 hx
      exact ⟨(name_plain (hp.params.name x hx)).2.1, (hu.params x hx).2⟩)
    have hn : NoLf (p.line w) := by
      have := valueText_unbroken hu
      unfold Property.line NoLf at *
      simp only [List.mem_append, not_or]
      exact ⟨⟨⟨hp1, hpar⟩, by decide⟩, this.2⟩
    have hshape : ∃ d t, (d = ':' ∨ d = ';') ∧ p.line w = p.key ++ d :: t := by
      unfold Property.line
      cases w.order [] p.params with
      | nil => exact ⟨':', p.valueText, .inl rfl, by simp [paramsText]⟩
      | cons x l =>
        obtain ⟨a, b⟩ := x
        exact ⟨';', _, .inr rfl, by simp only [paramsText, List.append_assoc, List.cons_append, List.nil_append]; rfl⟩
    obtain ⟨d, t, hd, hline⟩ := hshape
    obtain ⟨q, qs, e1, rfl, -⟩ := fold_pieces _ _ hf
    rw [e1] at hn
    refine bracketed_folded q qs hn (bracketOf_prop (t := t) hp.key hd ?_ (.inr ⟨'\r', ['\n'], rfl, .inl rfl⟩))
    rw [← hline, e1, List.flatten_cons]
    exact ⟨_, rfl⟩

theorem bracketed_props {l : List Property} (hl : ∀ p ∈ l, PropOk p ∧ UnbrokenProp p) {w : World} (hw : World.Ok w) {out : Str}
    (h : fmtProps l w = .ok out) : Bracketed out [] := by
  induction l generalizing w out with
  | nil => cases h; exact bracketed_nil
  | cons p l ih =>
    unfold fmtProps at h
    cases ha : p.fmtWrite (w.sub 0) with
    | error e => rw [ha] at h; cases h
    | ok a =>
      rw [ha] at h
      cases hb : fmtProps l (w.sub 1) with
      | error e => rw [hb] at h; cases h
      | ok b =>
        rw [hb] at h
        cases h
        exact bracketed_append (bracketed_property (hl p (by simp)).1 (hl p (by simp)).2 (worldOk_sub hw 0) ha)
          (ih (fun q hq => hl q (by simp [hq])) (worldOk_sub hw 1) hb)

theorem bracketed_component {name body : Str} {l : List (Bool × Str)} (hn : IsName name) (hb : Bracketed body l) :
    Bracketed (c!"BEGIN:" ++ name ++ crlf ++ body ++ (c!"END:" ++ name ++ crlf)) ((true, name) :: (l ++ [(false, name)])) := by
  have e1 := bracketed_begin (b := c!"BEGIN:") (by decide) hn .crlf
  have e2 := bracketed_end (e := c!"END:") (by decide) hn .crlf
  exact bracketed_append (bracketed_append e1 hb) e2

omit [Uni] in
theorem bracketed_generated {b : Bool} {x : Str} (hn : NoLf x) (h : bracketOf (x ++ crlf) = none) :
    Bracketed (if b then [] else x ++ crlf) [] := by
  split
  · exact bracketed_nil
  · have := bracketed_break hn .crlf
    have e : x ++ Break.text .crlf = x ++ crlf := rfl
    rw [e, h] at this
    exact this

mutual
theorem bracketed_other (o : Other) (ho : OtherOk o) (hu : UnbrokenOther o) {w : World} (hw : World.Ok w) {out : Str}
    (h : o.fmtWrite w = .ok out) : Bracketed out (bracketsWithin o) := by
  match o, ho, hu with
  | .mk name props multi comps, ho, hu =>
    obtain ⟨hn, hi, hc⟩ := ho
    obtain ⟨hu1, hu2, hu3⟩ := hu
    have hi := innerOk_writable hi
    unfold Other.fmtWrite at h
    cases hps : fmtProps props.values (w.sub 0) with
    | error e => simp only [hps] at h; cases h
    | ok ps =>
      cases hms : fmtProps multi.values.flatten (w.sub 1) with
      | error e => simp only [hps, hms] at h; cases h
      | ok ms =>
        cases hcs : fmtOthers comps (w.sub 2) with
        | error e => simp only [hps, hms, hcs] at h; cases h
        | ok cs =>
          simp only [hps, hms, hcs] at h
          cases h
          have b1 : Bracketed ps [] := by
            refine bracketed_props ?_ (worldOk_sub hw 0) hps
            intro p hp
            refine ⟨(values_ok hi).1 p hp, ?_⟩
            obtain ⟨x, hx, rfl⟩ := List.mem_map.1 hp
            exact hu1 x hx
          have b2 : Bracketed ms [] := by
            refine bracketed_props ?_ (worldOk_sub hw 1) hms
            intro p hp
            refine ⟨(values_ok hi).2 p hp, ?_⟩
            obtain ⟨g, hg, hpg⟩ := List.mem_flatten.1 hp
            obtain ⟨x, hx, rfl⟩ := List.mem_map.1 hg
            exact hu2 x hx p hpg
          have b3 := bracketed_others comps hc hu3 (worldOk_sub hw 2) hcs
          have b4 := bracketed_generated (b := props.containsKey c!"DTSTAMP") (x := c!"DTSTAMP:" ++ fmtUtc (w.now []))
            (by have := fmtUtc_not_mem (w.now []) (x := '\n') (by decide) (by decide)
                simpa [NoLf] using this)
            (bracketOf_blank (by decide) (by decide))
          have b5 := bracketed_generated (b := props.containsKey c!"UID") (x := c!"UID:" ++ w.uuid [])
            (by have := uuid_not_mem hw (x := '\n') (by decide) []
                simpa [NoLf] using this)
            (bracketOf_blank (by decide) (by decide))
          have := bracketed_component hn
            (bracketed_append (bracketed_append (bracketed_append (bracketed_append b4 b1) b5) b2) b3)
          rw [bracketsWithin]
          simpa only [List.append_assoc, List.nil_append, List.append_nil] using this

theorem bracketed_others (l : List Other) (hl : OthersOk l) (hu : UnbrokenOthers l) {w : World} (hw : World.Ok w) {out : Str}
    (h : fmtOthers l w = .ok out) : Bracketed out (bracketsWithinAll l) := by
  match l, hl, hu with
  | [], _, _ =>
    simp only [fmtOthers] at h
    cases h
    rw [bracketsWithinAll]
    exact bracketed_nil
  | o :: l, hl, hu =>
    obtain ⟨ho, hl⟩ := hl
    obtain ⟨hu1, hu2⟩ := hu
    unfold fmtOthers at h
    cases ha : o.fmtWrite (w.sub 0) with
    | error e => rw [ha] at h; cases h
    | ok a =>
      rw [ha] at h
      cases hb : fmtOthers l (w.sub 1) with
      | error e => rw [hb] at h; cases h
      | ok b =>
        rw [hb] at h
        cases h
        rw [bracketsWithinAll]
        exact bracketed_append (bracketed_other o ho hu1 (worldOk_sub hw 0) ha) (bracketed_others l hl hu2 (worldOk_sub hw 1) hb)
end

theorem bracketed_comps (l : List CalComp) (hl : ∀ x ∈ l, CalCompOk x) (hu : ∀ x ∈ l, UnbrokenOther x.toOther) {w : World}
    (hw : World.Ok w) {out : Str} (h : fmtComps l w = .ok out) : Bracketed out (bracketsWithinAll (l.map CalComp.toOther)) := by
  induction l generalizing w out with
  | nil =>
    cases h
    rw [List.map_nil, bracketsWithinAll]
    exact bracketed_nil
  | cons x l ih =>
    unfold fmtComps at h
    rw [calComp_fmtWrite] at h
    cases ha : x.toOther.fmtWrite (w.sub 0) with
    | error e => rw [ha] at h; cases h
    | ok a =>
      rw [ha] at h
      cases hb : fmtComps l (w.sub 1) with
      | error e => rw [hb] at h; cases h
      | ok b =>
        rw [hb] at h
        cases h
        rw [List.map_cons, bracketsWithinAll]
        exact bracketed_append (bracketed_other _ (calCompOk_other (hl x (by simp))) (hu x (by simp)) (worldOk_sub hw 0) ha)
          (ih (fun y hy => hl y (by simp [hy])) (fun y hy => hu y (by simp [hy])) (worldOk_sub hw 1) hb)

/-- **C145.** The lines of a written file, as it is, that start with `BEGIN:` or `END:`, in any letter case, are those of
the calendar and of its components, in order. -/
theorem brackets_written {c : Calendar} (hc : CalendarOk c) (hu : UnbrokenCal c) {w : World} (hw : World.Ok w) {out : Str}
    (h : c.fmtWrite w = .ok out) : brackets out = calendarBrackets c := by
  unfold Calendar.fmtWrite at h
  cases hps : fmtProps c.props (w.sub 0) with
  | error e => simp only [hps] at h; cases h
  | ok ps =>
    cases hcs : fmtComps c.comps (w.sub 1) with
    | error e => simp only [hps, hcs] at h; cases h
    | ok cs =>
      simp only [hps, hcs] at h
      cases h
      have b1 := bracketed_props (fun p hp => ⟨hc.props p hp, hu.props p hp⟩) (worldOk_sub hw 0) hps
      have b2 := bracketed_comps _ hc.comps hu.comps (worldOk_sub hw 1) hcs
      have := bracketed_component (name := c!"VCALENDAR") (by simp [IsName, NameChar, isAlnum]) (bracketed_append b1 b2) []
      unfold calendarBrackets
      have e : brackets [] = [] := rfl
      rw [e] at this
      simpa only [List.append_assoc, List.append_nil, List.cons_append, List.nil_append] using this

/-! ### counting -/

omit [Uni] in
mutual
theorem count_within (b : Bool) (n : Str) (o : Other) : (bracketsWithin o).count (b, n) = namedWithin n o := by
  match o with
  | .mk name props multi comps =>
    have ih := count_withinAll b n comps
    rw [bracketsWithin, namedWithin, List.count_cons, List.count_append, ih, List.count_singleton]
    cases b <;> simp <;> omega
theorem count_withinAll (b : Bool) (n : Str) (l : List Other) : (bracketsWithinAll l).count (b, n) = namedWithinAll n l := by
  match l with
  | [] => rw [bracketsWithinAll, namedWithinAll]; rfl
  | o :: l => rw [bracketsWithinAll, namedWithinAll, List.count_append, count_within b n o, count_withinAll b n l]
end

omit [Uni] in
/-- **C145.** Beginnings, and ends, of a name occur as often as there are components of this name. -/
theorem brackets_count (b : Bool) (n : Str) (c : Calendar) :
    (calendarBrackets c).count (b, n) = (if c!"VCALENDAR" = n then 1 else 0) + namedWithinAll n (c.comps.map CalComp.toOther) := by
  unfold calendarBrackets
  rw [List.count_cons, List.count_append, count_withinAll, List.count_singleton]
  cases b <;> simp <;> omega

/-- **C145.** So the number of lines `BEGIN:` or `END:` of a name in a written file is the number of components of this
name. -/
theorem count_written {c : Calendar} (hc : CalendarOk c) (hu : UnbrokenCal c) {w : World} (hw : World.Ok w) {out : Str}
    (h : c.fmtWrite w = .ok out) (b : Bool) (n : Str) :
    (brackets out).count (b, n) = (if c!"VCALENDAR" = n then 1 else 0) + namedWithinAll n (c.comps.map CalComp.toOther) := by
  rw [brackets_written hc hu hw h, brackets_count]

end Ical
