import Verif.Props.PropertyRoundtrip

/-!
The parameters of a property behave like a map, on the value and in the text; the VALUE parameter decides the
value type.
-/

namespace Ical

open Nom Spec

variable [Uni]

omit [Uni] in
theorem adds_get (adds : List (Str × Str)) (p : Property) (k : Str) :
    (adds.foldl (fun q x => q.addParameter x.1 x.2) p).params.get k =
      ((adds.reverse.find? (fun x => x.1 == k)).map Prod.snd).or (p.params.get k) := by
  have h : ∀ (adds : List (Str × Str)) (p : Property), (adds.foldl (fun q x => q.addParameter x.1 x.2) p).params =
      adds.foldl (fun m kv => BMap.insert kv.1 kv.2 m) p.params := by
    intro adds
    induction adds with
    | nil => intro p; rfl
    | cons x l ih => intro p; exact ih _
  rw [h, BMap.get_foldl]

omit [Uni] in
theorem adds_key_val (adds : List (Str × Str)) (p : Property) :
    (adds.foldl (fun q x => q.addParameter x.1 x.2) p).key = p.key ∧
    (adds.foldl (fun q x => q.addParameter x.1 x.2) p).val = p.val := by
  induction adds generalizing p with
  | nil => exact ⟨rfl, rfl⟩
  | cons x l ih => exact ih _

omit [Uni] in
theorem adds_sorted (adds : List (Str × Str)) (p : Property) (h : BMap.Sorted p.params) :
    BMap.Sorted (adds.foldl (fun q x => q.addParameter x.1 x.2) p).params := by
  induction adds generalizing p with
  | nil => exact h
  | cons x l ih => exact ih _ (BMap.sorted_insert h)

omit [Uni] in
/-- **C64.** After any sequence of `add_parameter` calls on a new property, key and value are unchanged, and
`get_param_as` sees for each parameter name the value added last, if any. -/
theorem parameters_map (key val : Str) (adds : List (Str × Str)) :
    (adds.foldl (fun q x => q.addParameter x.1 x.2) (Property.new key val)).key = key ∧
    (adds.foldl (fun q x => q.addParameter x.1 x.2) (Property.new key val)).getValueAs some = some val ∧
    ∀ (α : Type) (k : Str) (f : Str → Option α),
      (adds.foldl (fun q x => q.addParameter x.1 x.2) (Property.new key val)).getParamAs k f =
        ((adds.reverse.find? (fun x => x.1 == k)).map Prod.snd).bind f := by
  refine ⟨(adds_key_val _ _).1, congrArg some (adds_key_val _ _).2, ?_⟩
  intro α k f
  unfold Property.getParamAs
  rw [adds_get]
  simp [Property.new, BMap.get]

/-- **C64.** In the text every parameter name occurs once, with the value added last, whatever the order in which
the hash map is iterated. -/
theorem parameters_written_once (key val : Str) (adds : List (Str × Str)) (w : World) (hw : World.Ok w)
    (hk : IsName key) (ha : ∀ x ∈ adds, IsName x.1 ∧ Quotable x.2 ∧ MarkerFree x.2)
    (hv : ValueOk (adds.foldl (fun q x => q.addParameter x.1 x.2) (Property.new key val))) (out : Str)
    (ho : (adds.foldl (fun q x => q.addParameter x.1 x.2) (Property.new key val)).fmtWrite w = .ok out) :
    ∃ (params : List DParam) (raw : Str), unfold out = (Item.prop key params raw).text .crlf ∧
      (params.map DParam.key).Nodup ∧
      ∀ k v, (∃ d ∈ params, d.meaning.key = k ∧ d.meaning.val.getD [] = v) ↔
        (adds.reverse.find? (fun x => x.1 == k)).map Prod.snd = some v := by
  generalize hq : adds.foldl (fun q x => q.addParameter x.1 x.2) (Property.new key val) = q at *
  have hkey : q.key = key := by rw [← hq]; exact (adds_key_val _ _).1
  have hsort : BMap.Sorted q.params := by rw [← hq]; exact adds_sorted _ _ List.Pairwise.nil
  have hget : ∀ k, q.params.get k = (adds.reverse.find? (fun x => x.1 == k)).map Prod.snd := by
    intro k
    rw [← hq, adds_get]
    simp [Property.new, BMap.get]
  have hmem : ∀ x ∈ q.params, x ∈ adds := by
    intro x hx
    have h1 := BMap.get_of_mem (k := x.1) (v := x.2) hsort hx
    rw [hget, Option.map_eq_some_iff] at h1
    obtain ⟨y, hy, he⟩ := h1
    have h2 := List.find?_some hy
    have h3 := List.mem_of_find?_eq_some hy
    rw [beq_iff_eq] at h2
    rw [List.mem_reverse, show y = x from Prod.ext h2 he] at h3
    exact h3
  have hpo : ParamsOk q.params :=
    ⟨hsort, fun x hx => (ha x (hmem x hx)).1, fun x hx => (ha x (hmem x hx)).2⟩
  have hperm := hw.order [] q.params
  have hu := unfold_property hw (hkey ▸ hk) hpo hv ho (t := []) noIndent_nil
  have hnil : unfoldSpec [] = [] := rfl
  rw [List.append_nil, ← unfold_eq_spec, hnil, List.append_nil] at hu
  refine ⟨(w.order [] q.params).map dparam, q.valueText, by rw [hu, hkey], ?_, ?_⟩
  · rw [List.map_map]
    have : (DParam.key ∘ dparam) = Prod.fst := by funext x; rfl
    rw [this]
    exact (hperm.map Prod.fst).symm.nodup (BMap.nodup_keys hsort)
  · intro k v
    rw [← hget]
    constructor
    · rintro ⟨d, hd, h1, h2⟩
      obtain ⟨x, hx, rfl⟩ := List.mem_map.1 hd
      have := dparam_pair x
      unfold PParam.toPair at this
      rw [h1, h2] at this
      rw [← this] at hx
      exact BMap.get_of_mem hsort (hperm.mem_iff.1 hx)
    · intro hg
      refine ⟨dparam (k, v), List.mem_map.2 ⟨(k, v), hperm.mem_iff.2 (BMap.get_mem hg), rfl⟩, ?_⟩
      have := dparam_pair (k, v)
      unfold PParam.toPair at this
      exact Prod.mk.inj this

omit [Uni] in
theorem valueType_texts (v : ValueType) : ValueType.fromStr v.toStr = some v := by cases v <;> decide

/-- **C64.** Adding a value type as parameter makes it the value type of the property, whatever was there before;
converting the parameter back gives the type; and a VALUE parameter that names no type leaves the default. -/
theorem value_type_parameter (p : Property) (v : ValueType) (s : Str) :
    (p.addParameter c!"VALUE" v.toStr).valueType = some v ∧
    ValueType.tryFromParam c!"VALUE" v.toStr = some v ∧
    (∀ k, k ≠ c!"VALUE" → ValueType.tryFromParam k v.toStr = none ∧ (p.addParameter k s).valueType = p.valueType) ∧
    (ValueType.fromStr s = none →
      (p.addParameter c!"VALUE" s).valueType = (Property.new p.key p.val).valueType) := by
  refine ⟨?_, ?_, ?_, ?_⟩
  · unfold Property.valueType Property.addParameter
    simp only [BMap.get_insert_self, Option.bind_some, valueType_texts]
  · unfold ValueType.tryFromParam
    rw [if_neg (by simp), valueType_texts]
  · intro k hk
    refine ⟨by unfold ValueType.tryFromParam; rw [if_pos hk], ?_⟩
    unfold Property.valueType Property.addParameter
    simp only [BMap.get_insert_ne _ _ _ (Ne.symm hk)]
  · intro hs
    unfold Property.valueType Property.addParameter Property.new
    simp only [BMap.get_insert_self, Option.bind_some, hs, BMap.get, Option.bind_none]

end Ical

namespace Ical

open Nom Spec

/-- a parameter given twice, next to another one -/
example : @Property.fmtWrite Uni.ascii (([(c!"CN", c!"A"), (c!"ROLE", c!"CHAIR"), (c!"CN", c!"B: C")] :
      List (Str × Str)).foldl (fun q x => q.addParameter x.1 x.2) (Property.new c!"ATTENDEE" c!"mailto:b"))
    ⟨fun _ => ⟨⟨⟨2026, 1, 1⟩, 0, 0, 0, 0⟩⟩, fun _ => [], fun _ l => l.reverse⟩ =
      .ok c!"ATTENDEE;ROLE=CHAIR;CN=\"B: C\":mailto:b\r\n" ∧
    (∀ x ∈ ([(c!"CN", c!"A"), (c!"ROLE", c!"CHAIR"), (c!"CN", c!"B: C")] : List (Str × Str)),
      @IsName Uni.ascii x.1 ∧ Quotable x.2 ∧ MarkerFree x.2) ∧
    ValueOk (([(c!"CN", c!"A"), (c!"ROLE", c!"CHAIR"), (c!"CN", c!"B: C")] :
      List (Str × Str)).foldl (fun q x => q.addParameter x.1 x.2) (Property.new c!"ATTENDEE" c!"mailto:b")) := by
  refine ⟨?_, ?_, ?_⟩ <;> decide +kernel

end Ical
