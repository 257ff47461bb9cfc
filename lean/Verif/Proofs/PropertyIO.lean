import Verif.Spec.Writable
import Verif.Proofs.Map
import Verif.Proofs.UnfoldDoc
import Verif.Props.Escaping
import Verif.Model.Calendar

/-!
Writing a property and reading it back.
-/

namespace Ical

open Nom Spec

/-! ### Fold markers -/

theorem infix_append_cons {x y d : Char} {a b : Str} (hy : y ≠ d) (h : [x, y] <:+: a ++ d :: b) :
    [x, y] <:+: a ∨ [x, y] <:+: d :: b := by
  induction a with
  | nil => exact .inr h
  | cons c a ih =>
    rw [List.cons_append, List.infix_cons_iff] at h
    rcases h with h | h
    · left
      cases a with
      | nil =>
        exfalso
        rw [List.nil_append, List.cons_prefix_cons, List.cons_prefix_cons] at h
        exact hy h.2.1
      | cons e a =>
        rw [List.cons_append, List.cons_prefix_cons, List.cons_prefix_cons] at h
        obtain ⟨rfl, rfl, -⟩ := h
        exact ⟨[], a, rfl⟩
    · rcases ih h with h | h
      · exact .inl (h.trans (List.suffix_cons c a).isInfix)
      · exact .inr h

/-- markers do not arise where a piece follows that does not start with a space or tab -/
theorem markerFree_append_cons {d : Char} {a b : Str} (h1 : d ≠ ' ') (h2 : d ≠ '\t')
    (ha : MarkerFree a) (hb : MarkerFree (d :: b)) : MarkerFree (a ++ d :: b) := by
  constructor <;> intro h
  · rcases infix_append_cons (Ne.symm h1) h with h | h
    · exact ha.1 h
    · exact hb.1 h
  · rcases infix_append_cons (Ne.symm h2) h with h | h
    · exact ha.2 h
    · exact hb.2 h

theorem markerFree_cons {d : Char} {b : Str} (h : d ≠ '\n') (hb : MarkerFree b) : MarkerFree (d :: b) := by
  constructor <;> intro hc
  · rw [List.infix_cons_iff, List.cons_prefix_cons] at hc
    rcases hc with hc | hc
    · exact h hc.1.symm
    · exact hb.1 hc
  · rw [List.infix_cons_iff, List.cons_prefix_cons] at hc
    rcases hc with hc | hc
    · exact h hc.1.symm
    · exact hb.2 hc

theorem markerFree_nil : MarkerFree [] := ⟨by simp, by simp⟩

/-- a piece without line feed in front changes nothing -/
theorem markerFree_noLf_append {a b : Str} (ha : '\n' ∉ a) (hb : MarkerFree b) : MarkerFree (a ++ b) := by
  induction a with
  | nil => exact hb
  | cons c a ih =>
    simp at ha
    exact markerFree_cons (Ne.symm ha.1) (ih (by simpa using ha.2))

/-! ### Parameters -/

/-- how a parameter is written -/
def dparam (x : Str × Str) : DParam := ⟨x.1, some (x.2.contains ':' || x.2.contains ';', x.2)⟩

theorem dparam_text (x : Str × Str) : (dparam x).text = [';'] ++ x.1 ++ ['='] ++ quoteIfContainsColon x.2 := by
  unfold dparam DParam.text quoteIfContainsColon
  simp only
  cases x.2.contains ':' || x.2.contains ';' <;> simp

theorem paramsText_eq (l : List (Str × Str)) : paramsText l = ((l.map dparam).map DParam.text).flatten := by
  induction l with
  | nil => rfl
  | cons x l ih =>
    rw [List.map_cons, List.map_cons, List.flatten_cons, dparam_text, ← ih]
    rfl

theorem dparam_pair (x : Str × Str) : (dparam x).meaning.toPair = x := by
  obtain ⟨k, v⟩ := x
  unfold dparam DParam.meaning PParam.toPair
  simp only
  by_cases h : v = []
  · simp [h]
  · simp [h]

variable [Uni]

theorem dparam_ok {x : Str × Str} (h1 : IsName x.1) (h2 : Quotable x.2) : (dparam x).Ok := by
  obtain ⟨k, v⟩ := x
  simp only at h1 h2
  refine ⟨h1, ?_⟩
  unfold dparam
  simp only
  unfold Quotable at h2
  by_cases hc : ':' ∈ v ∨ ';' ∈ v
  · have hb : (v.contains ':' || v.contains ';') = true := by simpa using hc
    rw [hb]
    rw [if_pos hc] at h2
    refine ⟨?_, h2⟩
    rintro rfl
    simp at hc
  · have hb : (v.contains ':' || v.contains ';') = false := by
      simp at hc ⊢
      exact hc
    rw [hb]
    rw [if_neg hc] at h2
    rw [not_or] at hc
    exact ⟨hc.1, hc.2, h2⟩

theorem dparams_ok {params : List (Str × Str)} (h : ParamsOk params) {l : List (Str × Str)}
    (hp : l.Perm params) : ∀ p ∈ l.map dparam, p.Ok := by
  intro p hm
  obtain ⟨x, hx, rfl⟩ := List.mem_map.1 hm
  have := hp.mem_iff.1 hx
  exact dparam_ok (h.name x this) (h.value x this).1

omit [Uni] in
theorem lookup_get (k : Str) (m : BMap Str) : List.lookup k m = m.get k := by
  induction m with
  | nil => rfl
  | cons x m ih =>
    obtain ⟨k', v⟩ := x
    simp only [List.lookup, BMap.get]
    by_cases h : k = k'
    · simp [h]
    · have : (k == k') = false := by simpa using h
      simp [h, this, ih]

theorem valueType_eq (p : Property) :
    p.valueType = ((p.params.lookup c!"VALUE").bind ValueType.fromStr).or (ValueType.byName p.key) := by
  rw [lookup_get]
  unfold Property.valueType
  cases (p.params.get c!"VALUE").bind ValueType.fromStr <;> rfl

theorem isText_iff (p : Property) : IsText p ↔ p.valueType = some .text := by
  rw [valueType_eq]
  exact isTextFor_iff _ _

omit [Uni] in
theorem fromStr_nil : ValueType.fromStr [] = none := by decide

omit [Uni] in
theorem find_dparam (l : List (Str × Str)) (k : Str) :
    (((l.map dparam).map DParam.meaning).find? (fun p => p.key == k)).bind
      (fun p => p.val.bind ValueType.fromStr) =
    ((l.find? (fun x => x.1 == k)).map Prod.snd).bind ValueType.fromStr := by
  induction l with
  | nil => rfl
  | cons x l ih =>
    obtain ⟨k', v⟩ := x
    simp only [List.map_cons, List.find?_cons]
    have hk : (dparam (k', v)).meaning.key = k' := rfl
    rw [hk]
    by_cases h : k' = k
    · have : (k' == k) = true := by simpa using h
      simp only [this, Option.bind_some, Option.map_some]
      unfold dparam DParam.meaning
      simp only
      by_cases hv : v = []
      · simp [hv, fromStr_nil]
      · simp [hv]
    · have : (k' == k) = false := by simpa using h
      simp only [this]
      exact ih

/-- the value type does not depend on the order in which parameters are written -/
theorem valueTypeOf_dparams (p : Property) (hs : BMap.Sorted p.params) {l : List (Str × Str)}
    (hp : l.Perm p.params) : valueTypeOf p.key (l.map dparam) = p.valueType := by
  rw [valueType_eq, lookup_get]
  unfold valueTypeOf
  rw [find_dparam, BMap.find_perm hs hp]

/-! ### The content line -/

theorem line_item (p : Property) (w : World) :
    p.line w ++ crlf = (Item.prop p.key ((w.order [] p.params).map dparam) p.valueText).text .crlf := by
  unfold Property.line
  rw [paramsText_eq]
  rfl

/-- what is read back for the value -/
def Property.readBack (p : Property) : Property :=
  { p with val := if p.valueType = some .text then unescapeText (escapeText p.val) else p.val }

theorem valueText_of_text {p : Property} (h : p.valueType = some .text) : p.valueText = escapeText p.val := by
  unfold Property.valueText
  rw [h]

theorem valueText_of_not {p : Property} (h : p.valueType ≠ some .text) : p.valueText = p.val := by
  unfold Property.valueText
  split
  · rename_i hc; exact absurd hc h
  · rfl

theorem meaning_dparams (p : Property) (hs : BMap.Sorted p.params) {l : List (Str × Str)}
    (hp : l.Perm p.params) :
    (meaningProp p.key (l.map dparam) p.valueText).toProperty = p.readBack := by
  rw [meaningProp_eq]
  unfold PProp.toProperty Property.readBack
  simp only [valueTypeOf_dparams p hs hp]
  have e : ((l.map dparam).map DParam.meaning).map PParam.toPair = l := by
    rw [List.map_map, List.map_map]
    have : (PParam.toPair ∘ DParam.meaning) ∘ dparam = id := by
      funext x; exact dparam_pair x
    rw [this, List.map_id]
  rw [e, BMap.ofList_perm hs hp]
  by_cases h : p.valueType = some .text
  · simp [h, valueText_of_text h]
  · simp [h, valueText_of_not h]

theorem readBack_eq {p : Property} (h : ValueSafe p) : p.readBack = p := by
  unfold Property.readBack
  by_cases ht : p.valueType = some .text
  · rw [if_pos ht, (text_roundtrip_partial p.val).2 (h ((isText_iff p).2 ht))]
  · rw [if_neg ht]

theorem valueText_ok {p : Property} (h : ValueOk p) :
    ¬ ['\r', '\n'] <:+: p.valueText ∧ MarkerFree p.valueText := by
  by_cases ht : p.valueType = some .text
  · rw [valueText_of_text ht]
    have hn := (escape_inert p.val).2
    exact ⟨fun hc => hn (hc.mem (by simp)), markerFree_of_noLf hn⟩
  · rw [valueText_of_not ht]
    rcases h with h | h
    · exact absurd ((isText_iff p).1 h) ht
    · exact h

theorem dparam_markerFree {x : Str × Str} (h1 : IsName x.1) (h2 : MarkerFree x.2) {d : Char} {s : Str}
    (hd1 : d ≠ ' ') (hd2 : d ≠ '\t') (hs : MarkerFree (d :: s)) :
    MarkerFree ((dparam x).text ++ d :: s) := by
  rw [dparam_text]
  have hn := name_not_mem h1 isKeyChar_lf
  rw [List.append_assoc, List.append_assoc, List.append_assoc]
  refine markerFree_noLf_append (by simp) (markerFree_noLf_append hn (markerFree_noLf_append (by simp) ?_))
  unfold quoteIfContainsColon
  split
  · rw [List.append_assoc, List.append_assoc]
    refine markerFree_noLf_append (by simp) ?_
    exact markerFree_append_cons (by decide) (by decide) h2
      (markerFree_cons (by decide) (by simpa using hs))
  · exact markerFree_append_cons hd1 hd2 h2 hs

theorem params_markerFree {l : List (Str × Str)} (h1 : ∀ x ∈ l, IsName x.1) (h2 : ∀ x ∈ l, MarkerFree x.2)
    {s : Str} (hs : MarkerFree s) : MarkerFree (((l.map dparam).map DParam.text).flatten ++ ':' :: s) := by
  induction l with
  | nil => exact markerFree_cons (by decide) hs
  | cons x l ih =>
    have ih := ih (fun y hy => h1 y (by simp [hy])) (fun y hy => h2 y (by simp [hy]))
    rw [List.map_cons, List.map_cons, List.flatten_cons, List.append_assoc]
    cases l with
    | nil => exact dparam_markerFree (h1 x (by simp)) (h2 x (by simp)) (by decide) (by decide) ih
    | cons y l =>
      have hh : ∃ t, ((y :: l).map dparam |>.map DParam.text).flatten ++ ':' :: s = ';' :: t := by
        rw [List.map_cons, List.map_cons, List.flatten_cons, dparam_text]
        exact ⟨_, rfl⟩
      obtain ⟨t, ht⟩ := hh
      rw [ht] at ih ⊢
      exact dparam_markerFree (h1 x (by simp)) (h2 x (by simp)) (by decide) (by decide) ih

theorem line_markerFree {p : Property} {w : World} (hw : World.Ok w) (hk : IsName p.key)
    (hp : ParamsOk p.params) (hv : MarkerFree p.valueText) : MarkerFree (p.line w) := by
  unfold Property.line
  rw [paramsText_eq, List.append_assoc, List.append_assoc]
  refine markerFree_noLf_append (name_not_mem hk isKeyChar_lf) ?_
  have hperm := hw.order [] p.params
  exact params_markerFree (fun x hx => hp.name x (hperm.mem_iff.1 hx))
    (fun x hx => (hp.value x (hperm.mem_iff.1 hx)).2) hv

theorem item_of_prop_ok {p : Property} {w : World} (hw : World.Ok w) (hk : KeyOk p.key)
    (hp : ParamsOk p.params) (hv : ValueOk p) :
    (Item.prop p.key ((w.order [] p.params).map dparam) p.valueText).Ok .crlf := by
  simp only [Item.Ok]
  exact ⟨hk, dparams_ok hp (hw.order [] p.params), (valueText_ok hv).1⟩

/-- unfolding what is written for a property in front of other text -/
theorem unfold_property {p : Property} {w : World} (hw : World.Ok w) (hk : IsName p.key)
    (hp : ParamsOk p.params) (hv : ValueOk p) {out : Str} (h : p.fmtWrite w = .ok out) {t : Str}
    (ht : NoIndent t) :
    unfoldSpec (out ++ t) =
      (Item.prop p.key ((w.order [] p.params).map dparam) p.valueText).text .crlf ++ unfoldSpec t := by
  unfold Property.fmtWrite at h
  cases hf : foldLine (p.line w) with
  | error e => rw [hf] at h; cases h
  | ok s =>
    rw [hf] at h
    cases h
    rw [List.append_assoc, unfold_line (line_markerFree hw hk hp (valueText_ok hv).2) hf ht,
      ← List.append_assoc, line_item]

/-- reading what is written for a property, in front of other text -/
theorem property_write {p : Property} {w : World} (hw : World.Ok w) (hk : IsName p.key)
    (h1 : ¬ c!"END" <+: p.key) (h2 : ¬ c!"BEGIN" <+: p.key)
    (hp : ParamsOk p.params) (hv : ValueOk p) {out : Str} (h : p.fmtWrite w = .ok out) :
    ∃ q, property (unfold out) = .ok [] q ∧ q.toProperty = p.readBack := by
  have hu := unfold_property hw hk hp hv h (t := []) noIndent_nil
  rw [List.append_nil, ← unfold_eq_spec] at hu
  have := property_ok (br := .crlf) (r := []) hk h1 h2 (dparams_ok hp (hw.order [] p.params))
    (valueText_ok hv).1 (by simp)
  refine ⟨_, ?_, meaning_dparams p hp.sorted (hw.order [] p.params)⟩
  rw [hu, ← this]
  rfl

end Ical
