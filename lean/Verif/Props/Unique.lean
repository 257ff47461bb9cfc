import Verif.Props.Foreign
import Verif.Props.OwnLine
import Verif.Proofs.Strict
import Verif.Proofs.Aligned

/-!
A text can be taken for lines and components in one way only: two well-formed sequences of elements with the same
text are the same.
-/

namespace Ical

open Nom Spec

variable [Uni]

/-! ### one parameter -/

/-- what follows the parameters of a line, or one of them -/
theorem Ended.stops_dname {r : Str} (h : Ended r) : Stops NameChar r := by
  obtain ⟨c, s, rfl, h⟩ := h
  intro d hd
  simp at hd
  subst hd
  exact nameChar_stops (by rcases h with rfl | rfl <;> simp)

omit [Uni] in
theorem Ended.stops_value {r : Str} (h : Ended r) : Stops (fun c => c ≠ ':' ∧ c ≠ ';') r := by
  obtain ⟨c, s, rfl, h⟩ := h
  intro d hd
  simp at hd
  subst hd
  rintro ⟨h1, h2⟩
  rcases h with h | h
  · exact h2 h
  · exact h1 h

/-- the text of a parameter after its name -/
def valText : Option (Bool × Str) → Str
  | none => []
  | some (true, v) => '=' :: '"' :: (v ++ ['"'])
  | some (false, v) => '=' :: v

omit [Uni] in
theorem param_text (p : DParam) : p.text = ';' :: (p.key ++ valText p.val) := by
  obtain ⟨k, v⟩ := p
  rcases v with _ | ⟨_ | _, v⟩ <;> simp [DParam.text, valText]

theorem valText_stops {v : Option (Bool × Str)} {r : Str} (hr : Ended r) : Stops NameChar (valText v ++ r) := by
  rcases v with _ | ⟨_ | _, v⟩
  · simpa [valText] using hr.stops_dname
  · intro d hd
    simp [valText] at hd
    subst hd
    exact nameChar_stops (by simp)
  · intro d hd
    simp [valText] at hd
    subst hd
    exact nameChar_stops (by simp)

omit [Uni] in
theorem plain_not_quoted {v u r s : Str} (hv : ¬ ['"'] <+: v) (hr : Ended r) : v ++ r ≠ '"' :: (u ++ s) := by
  intro h
  cases v with
  | nil =>
    obtain ⟨c, t, rfl, hc⟩ := hr
    simp at h
    obtain ⟨rfl, -⟩ := h
    revert hc; decide
  | cons c v =>
    simp at h
    obtain ⟨rfl, -⟩ := h
    exact hv ⟨v, rfl⟩

theorem dparam_unique {p q : DParam} {r s : Str} (hp : p.Ok) (hq : q.Ok) (hr : Ended r) (hs : Ended s)
    (h : p.text ++ r = q.text ++ s) : p = q ∧ r = s := by
  obtain ⟨k, v⟩ := p
  obtain ⟨l, u⟩ := q
  obtain ⟨hk, hv⟩ := hp
  obtain ⟨hl, hu⟩ := hq
  rw [param_text, param_text] at h
  simp only [List.cons_append, List.append_assoc, List.cons.injEq, true_and] at h
  obtain ⟨h1, h2⟩ := cut_unique hk hl (valText_stops hr) (valText_stops hs) h
  simp only at h1 hv hu h2
  subst h1
  rcases v with _ | ⟨_ | _, v⟩ <;> rcases u with _ | ⟨_ | _, u⟩ <;>
    simp only [valText, List.nil_append, List.cons_append, List.cons.injEq, true_and, List.append_assoc] at h2
  · exact ⟨rfl, h2⟩
  · obtain ⟨c, t, rfl, hc⟩ := hr
    simp at h2; obtain ⟨rfl, -⟩ := h2; exact absurd hc (by decide)
  · obtain ⟨c, t, rfl, hc⟩ := hr
    simp at h2; obtain ⟨rfl, -⟩ := h2; exact absurd hc (by decide)
  · obtain ⟨c, t, rfl, hc⟩ := hs
    simp at h2; obtain ⟨rfl, -⟩ := h2; exact absurd hc (by decide)
  · obtain ⟨h3, h4⟩ := cut_unique (P := fun c => c ≠ ':' ∧ c ≠ ';')
      (fun c hc => ⟨fun h => hv.1 (h ▸ hc), fun h => hv.2.1 (h ▸ hc)⟩)
      (fun c hc => ⟨fun h => hu.1 (h ▸ hc), fun h => hu.2.1 (h ▸ hc)⟩) hr.stops_value hs.stops_value h2
    exact ⟨by rw [h3], h4⟩
  · exact absurd h2 (plain_not_quoted hv.2.2 hr)
  · obtain ⟨c, t, rfl, hc⟩ := hs
    simp at h2; obtain ⟨rfl, -⟩ := h2; exact absurd hc (by decide)
  · exact absurd h2.symm (plain_not_quoted hu.2.2 hs)
  · obtain ⟨h3, h4⟩ := cut_unique (P := fun c => c ≠ '"') (fun c hc h => hv.2 (h ▸ hc)) (fun c hc h => hu.2 (h ▸ hc))
      (by simp [Stops]) (by simp [Stops]) h2
    exact ⟨by rw [h3], by simpa using h4⟩

/-! ### the parameters of a line -/

omit [Uni] in
theorem dparams_ended (l : List DParam) (r : Str) : Ended ((l.map DParam.text).flatten ++ ':' :: r) := by
  cases l with
  | nil => exact ⟨_, _, rfl, .inr rfl⟩
  | cons p l =>
    refine ⟨';', p.key ++ (valText p.val ++ ((l.map DParam.text).flatten ++ ':' :: r)), ?_, .inl rfl⟩
    simp only [List.map_cons, List.flatten_cons, List.append_assoc, param_text, List.cons_append]

theorem dparams_unique {l m : List DParam} {r s : Str} (hl : ∀ p ∈ l, p.Ok) (hm : ∀ p ∈ m, p.Ok)
    (h : (l.map DParam.text).flatten ++ ':' :: r = (m.map DParam.text).flatten ++ ':' :: s) : l = m ∧ r = s := by
  induction l generalizing m with
  | nil =>
    cases m with
    | nil => simpa using h
    | cons q m => simp [param_text] at h
  | cons p l ih =>
    cases m with
    | nil => simp [param_text] at h
    | cons q m =>
      simp only [List.map_cons, List.flatten_cons, List.append_assoc] at h
      obtain ⟨h1, h2⟩ := dparam_unique (hl p (by simp)) (hm q (by simp)) (dparams_ended _ _) (dparams_ended _ _) h
      obtain ⟨h3, h4⟩ := ih (fun x hx => hl x (by simp [hx])) (fun x hx => hm x (by simp [hx])) h2
      exact ⟨by rw [h1, h3], h4⟩

/-! ### elements -/

omit [Uni] in
theorem val_unique {br : Break} {v u r s : Str} (hv : ValOk br v) (hu : ValOk br u)
    (h : v ++ (br.text ++ r) = u ++ (br.text ++ s)) : v = u ∧ r = s := by
  cases br with
  | crlf => exact crlf_unique h hv hu
  | lf =>
    obtain ⟨h1, h2⟩ := cut_unique (P := fun c => c ≠ '\n') (fun c hc h => hv (h ▸ hc)) (fun c hc h => hu (h ▸ hc))
      (by simp [Stops, Break.text]) (by simp [Stops, Break.text]) h
    exact ⟨h1, by simpa [Break.text] using h2⟩

/-- the keyword of a line, in any letter case, before its colon -/
theorem keyword_split {k w : Str} (hk : ∀ c ∈ k, 97 ≤ c.toNat ∧ c.toNat ≤ 122) (h : w.map lowerAscii = k ++ [':']) :
    ∃ a, w = a ++ [':'] ∧ a.map lowerAscii = k ∧ ∀ c ∈ a, NameChar c := by
  obtain ⟨a, rfl, h1⟩ := lower_cut h
  refine ⟨a, rfl, h1, fun c hc => ?_⟩
  exact letter_nameChar (hk (lowerAscii c) (h1 ▸ List.mem_map_of_mem hc)) rfl

/-- the `BEGIN:` of a component -/
theorem begin_split {b : Str} (h : b.map lowerAscii = c!"begin:") :
    ∃ a, b = a ++ [':'] ∧ a.map lowerAscii = c!"begin" ∧ ∀ c ∈ a, NameChar c :=
  keyword_split (k := c!"begin") (by decide) h

/-- the `END:` of a component -/
theorem end_split {b : Str} (h : b.map lowerAscii = c!"end:") :
    ∃ a, b = a ++ [':'] ∧ a.map lowerAscii = c!"end" ∧ ∀ c ∈ a, NameChar c :=
  keyword_split (k := c!"end") (by decide) h

/-- what follows the elements of a component, or of the text -/
def Closes (r : Str) : Prop := r = [] ∨ ∃ e s, e.map lowerAscii = c!"end:" ∧ r = e ++ s

/-- the first word of a text: `true` for a property -/
structure Word (a x r : Str) : Prop where
  eq : r = a ++ x
  name : ∀ c ∈ a, NameChar c
  ended : Ended x

theorem Word.same {a x r b y : Str} (h : Word a x r) (h' : Word b y r) : a = b ∧ x = y :=
  cut_unique h.name h'.name h.ended.stops_dname h'.ended.stops_dname (h.eq.symm.trans h'.eq)

theorem prop_word {br : Break} {k : Str} {ps : List DParam} {v : Str} (h : (Item.prop k ps v).Ok br) (r : Str) :
    Word k ((ps.map DParam.text).flatten ++ ':' :: (v ++ (br.text ++ r))) ((Item.prop k ps v).text br ++ r) := by
  rw [Item.Ok] at h
  refine ⟨by simp [Item.text], h.1.name, dparams_ended _ _⟩

theorem comp_word {br : Break} {b e n : Str} {l : List Item} (h : (Item.comp b e n l).Ok br) (r : Str) :
    ∃ a, b = a ++ [':'] ∧ a.map lowerAscii = c!"begin" ∧
      Word a (':' :: (n ++ (br.text ++ (itemsText br l ++ (e ++ (n ++ (br.text ++ r)))))))
        ((Item.comp b e n l).text br ++ r) := by
  rw [Item.Ok] at h
  obtain ⟨a, rfl, ha, hn⟩ := begin_split h.1
  exact ⟨a, rfl, ha, by simp [Item.text], hn, ⟨_, _, rfl, .inr rfl⟩⟩

theorem end_word {e : Str} (h : e.map lowerAscii = c!"end:") (r : Str) :
    ∃ a, e = a ++ [':'] ∧ a.map lowerAscii = c!"end" ∧ Word a (':' :: r) (e ++ r) := by
  obtain ⟨a, rfl, ha, hn⟩ := end_split h
  exact ⟨a, rfl, ha, by simp, hn, ⟨_, _, rfl, .inr rfl⟩⟩

theorem prop_not_closes {br : Break} {k : Str} {ps : List DParam} {v : Str} (h : (Item.prop k ps v).Ok br) (r : Str) :
    ¬ Closes ((Item.prop k ps v).text br ++ r) := by
  rintro (hr | ⟨e, s, he, hr⟩)
  · simp [Item.text] at hr
  · obtain ⟨a, -, ha, hw⟩ := end_word he s
    have := ((prop_word h r).same (hr ▸ hw)).1
    rw [Item.Ok] at h
    exact h.1.notEndAnyCase (this ▸ ha)

theorem comp_not_closes {br : Break} {b e n : Str} {l : List Item} (h : (Item.comp b e n l).Ok br) (r : Str) :
    ¬ Closes ((Item.comp b e n l).text br ++ r) := by
  obtain ⟨a, hb, ha, hw⟩ := comp_word h r
  rintro (hr | ⟨e', s, he, hr⟩)
  · rw [hb] at hr
    simp [Item.text] at hr
  · obtain ⟨a', -, ha', hw'⟩ := end_word he s
    have := (hw.same (hr ▸ hw')).1
    rw [← this, ha] at ha'
    exact absurd ha' (by decide)

theorem prop_not_comp {br : Break} {k : Str} {ps : List DParam} {v b e n : Str} {l : List Item} {r s : Str}
    (h : (Item.prop k ps v).Ok br) (h' : (Item.comp b e n l).Ok br) :
    (Item.prop k ps v).text br ++ r ≠ (Item.comp b e n l).text br ++ s := by
  intro hr
  obtain ⟨a, -, ha, hw⟩ := comp_word h' s
  have := ((prop_word h r).same (hr ▸ hw)).1
  rw [Item.Ok] at h
  exact h.1.notBeginAnyCase (this ▸ ha)

theorem dname_unique {br : Break} {n m r s : Str} (hn : IsName n) (hm : IsName m)
    (h : n ++ (br.text ++ r) = m ++ (br.text ++ s)) : n = m ∧ r = s := by
  have hst : ∀ x : Str, Stops NameChar (br.text ++ x) := by
    intro x c hc
    cases br <;> simp [Break.text] at hc <;> subst hc <;> exact nameChar_stops (by simp)
  obtain ⟨h1, h2⟩ := cut_unique hn hm (hst r) (hst s) h
  exact ⟨h1, List.append_cancel_left h2⟩

omit [Uni] in
theorem closes_end {e : Str} (h : e.map lowerAscii = c!"end:") (s : Str) : Closes (e ++ s) := .inr ⟨e, s, h, rfl⟩

mutual
theorem item_unique {br : Break} : ∀ {x y : Item} {r s : Str}, x.Ok br → y.Ok br →
    x.text br ++ r = y.text br ++ s → x = y ∧ r = s
  | .prop k ps v, .prop k' ps' v', r, s, hx, hy, h => by
    obtain ⟨h1, h2⟩ := (prop_word hx r).same (h ▸ prop_word hy s)
    rw [Item.Ok] at hx hy
    obtain ⟨h3, h4⟩ := dparams_unique hx.2.1 hy.2.1 h2
    obtain ⟨h5, h6⟩ := val_unique hx.2.2 hy.2.2 h4
    exact ⟨by rw [h1, h3, h5], h6⟩
  | .prop _ _ _, .comp _ _ _ _, _, _, hx, hy, h => absurd h (prop_not_comp hx hy)
  | .comp _ _ _ _, .prop _ _ _, _, _, hx, hy, h => absurd h.symm (prop_not_comp hy hx)
  | .comp b e n l, .comp b' e' n' l', r, s, hx, hy, h => by
    obtain ⟨a, hb, -, hw⟩ := comp_word hx r
    obtain ⟨a', hb', -, hw'⟩ := comp_word hy s
    obtain ⟨h1, h2⟩ := hw.same (h ▸ hw')
    rw [Item.Ok] at hx hy
    simp only [List.cons.injEq, true_and] at h2
    obtain ⟨h3, h4⟩ := dname_unique hx.2.2.1 hy.2.2.1 h2
    obtain ⟨h5, h6⟩ := items_unique_tail hx.2.2.2 hy.2.2.2 (closes_end hx.2.1 _) (closes_end hy.2.1 _) h4
    have hl : e.length = e'.length := by
      have h7 := congrArg List.length hx.2.1
      have h8 := congrArg List.length hy.2.1
      simp only [List.length_map] at h7 h8
      rw [h7, h8]
    obtain ⟨h7, h8⟩ := List.append_inj h6 hl
    obtain ⟨-, h9⟩ := dname_unique hx.2.2.1 hy.2.2.1 h8
    exact ⟨by rw [hb, hb', h1, h3, h5, h7], h9⟩
theorem items_unique_tail {br : Break} : ∀ {xs ys : List Item} {r s : Str}, ItemsOk br xs → ItemsOk br ys →
    Closes r → Closes s → itemsText br xs ++ r = itemsText br ys ++ s → xs = ys ∧ r = s
  | [], [], r, s, _, _, _, _, h => by simpa [itemsText] using h
  | [], y :: ys, r, s, _, hy, hr, _, h => by
    rw [ItemsOk] at hy
    simp only [itemsText, List.nil_append, List.append_assoc] at h
    rw [h] at hr
    cases y with
    | prop => exact absurd hr (prop_not_closes hy.1 _)
    | comp => exact absurd hr (comp_not_closes hy.1 _)
  | x :: xs, [], r, s, hx, _, _, hs, h => by
    rw [ItemsOk] at hx
    simp only [itemsText, List.nil_append, List.append_assoc] at h
    rw [← h] at hs
    cases x with
    | prop => exact absurd hs (prop_not_closes hx.1 _)
    | comp => exact absurd hs (comp_not_closes hx.1 _)
  | x :: xs, y :: ys, r, s, hx, hy, hr, hs, h => by
    rw [ItemsOk] at hx hy
    simp only [itemsText, List.append_assoc] at h
    obtain ⟨h1, h2⟩ := item_unique hx.1 hy.1 h
    obtain ⟨h3, h4⟩ := items_unique_tail hx.2 hy.2 hr hs h2
    exact ⟨by rw [h1, h3], h4⟩
end

/-- **C130**. A text is a sequence of lines and components in at most one way. -/
theorem items_unique (br : Break) (xs ys : List Item) (hx : ItemsOk br xs) (hy : ItemsOk br ys)
    (h : itemsText br xs = itemsText br ys) : xs = ys :=
  (items_unique_tail hx hy (.inl rfl) (.inl rfl) (by simpa using h)).1

/-- a component has one kind of line break -/
theorem breaks_apart {b e n b' e' n' : Str} {l l' : List Item} {r s : Str} (h : (Item.comp b e n l).Ok .crlf)
    (h' : (Item.comp b' e' n' l').Ok .lf) :
    (Item.comp b e n l).text .crlf ++ r ≠ (Item.comp b' e' n' l').text .lf ++ s := by
  intro hr
  obtain ⟨a, -, -, hw⟩ := comp_word h r
  obtain ⟨a', -, -, hw'⟩ := comp_word h' s
  obtain ⟨-, h2⟩ := hw.same (hr ▸ hw')
  rw [Item.Ok] at h h'
  simp only [List.cons.injEq, true_and] at h2
  have h3 := (cut_unique h.2.2.1 h'.2.2.1 (r := Break.crlf.text ++ _) (s := Break.lf.text ++ _)
    (by intro c hc; simp [Break.text] at hc; subst hc; exact nameChar_stops (by simp))
    (by intro c hc; simp [Break.text] at hc; subst hc; exact nameChar_stops (by simp)) h2).2
  simp [Break.text] at h3

omit [Uni] in
theorem foldedForm_unfold {t file : Str} (h : FoldedForm t file) : unfold file = t := by
  obtain ⟨p, rest, rfl, rfl, h1, h2, h3⟩ := h
  exact unfold_any_folding p rest h1 h2 h3

/-- **C130**. A file is the folded form of at most one component, and that has one kind of line break. -/
theorem file_one_component {br br' : Break} {b e n b' e' n' : Str} {l l' : List Item} (file : Str)
    (h : (Item.comp b e n l).Ok br) (h' : (Item.comp b' e' n' l').Ok br')
    (hf : FoldedForm ((Item.comp b e n l).text br) file) (hf' : FoldedForm ((Item.comp b' e' n' l').text br') file) :
    br = br' ∧ Item.comp b e n l = Item.comp b' e' n' l' := by
  have ht := (foldedForm_unfold hf).symm.trans (foldedForm_unfold hf')
  have ht' : (Item.comp b e n l).text br ++ [] = (Item.comp b' e' n' l').text br' ++ [] := by rw [ht]
  cases br <;> cases br'
  · exact ⟨rfl, (item_unique h h' ht').1⟩
  · exact absurd ht' (breaks_apart h h')
  · exact absurd ht'.symm (breaks_apart h' h)
  · exact ⟨rfl, (item_unique h h' ht').1⟩

/-- **C130**. What `from_str` returns for a calendar is what every way to take the file for a calendar says. -/
theorem one_reading {br : Break} {b e : Str} {items : List Item} (h : (Item.comp b e c!"VCALENDAR" items).Ok br)
    (hq : br = .lf → '\r' ∉ (Item.comp b e c!"VCALENDAR" items).text br) (file : Str)
    (hf : FoldedForm ((Item.comp b e c!"VCALENDAR" items).text br) file) :
    ∃ c, Calendar.fromStr file = some c ∧
      ∀ br' b' e' n' items', (Item.comp b' e' n' items').Ok br' →
        FoldedForm ((Item.comp b' e' n' items').text br') file →
        n' = c!"VCALENDAR" ∧ LinesMean (ownLines items') c.props ∧ CompsContain items' c.comps := by
  obtain ⟨c, hc, h1, h2⟩ := foreign_document h hq file hf
  refine ⟨c, hc, fun br' b' e' n' items' h' hf' => ?_⟩
  have h3 := (file_one_component file h h' hf hf').2
  rw [Item.comp.injEq] at h3
  obtain ⟨-, -, h3, h4⟩ := h3
  rw [← h4]
  exact ⟨h3.symm, h1, h2⟩

end Ical

namespace Ical.Unique

open Ical Spec

-- the document of C66
example := @item_unique Uni.ascii _ _ _ [] [] foreignSample.1 foreignSample.1 rfl
example := @file_one_component Uni.ascii _ _ _ _ _ _ _ _ _ _ _ foreignSample.1 foreignSample.1 foreignSample.2 foreignSample.2
example := @one_reading Uni.ascii _ _ _ _ foreignSample.1 (by intro h; cases h) _ foreignSample.2

/-- its elements -/
theorem foreignItems_ok : @ItemsOk Uni.ascii .crlf foreignItems := by
  have := foreignSample.1
  simp only [Item.Ok] at this
  exact this.2.2.2

example := @items_unique Uni.ascii .crlf _ _ foreignItems_ok foreignItems_ok rfl

-- line breaks tell apart what lines alone do not: `A:b` and CRLF, or `A:b` with a CR at the end and LF
example : itemsText .crlf [.prop c!"A" [] c!"b"] = itemsText .lf [.prop c!"A" [] c!"b\r"] := rfl
-- a name that could be a keyword is what makes two readings
example : itemsText .lf [.prop c!"BEGIN" [] c!"a", .prop c!"END" [] c!"a"] =
    itemsText .lf [.comp c!"BEGIN:" c!"END:" c!"a" []] := rfl

end Ical.Unique
