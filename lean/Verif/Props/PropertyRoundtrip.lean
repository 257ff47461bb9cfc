import Verif.Proofs.PropertyIO
import Verif.Props.Folding
import Verif.Props.Escaping

/-!
C11–C15: a property written by the crate and read back by it.
-/

namespace Ical

open Nom Spec

variable [Uni]

/-! ### C11 -/

/-- **C11.** Whatever order the parameters are written in, the reader derives from them the value type by
which the writer decided about escaping. Empty values are read as absent. -/
theorem value_type_agreement (p : Property) (hs : p.params.Pairwise (fun a b => strCmp a.1 b.1 = .lt))
    (l : List (Str × Str)) (hl : l.Perm p.params) :
    determineValueType p.key (l.map fun x => ⟨x.1, if x.2 = [] then none else some x.2⟩) = p.valueType := by
  have h := valueTypeOf_dparams p hs hl
  rw [← h]
  have e : (l.map fun x => (⟨x.1, if x.2 = [] then none else some x.2⟩ : PParam)) =
      (l.map dparam).map DParam.meaning := by
    rw [List.map_map]
    rfl
  rw [e]
  unfold determineValueType valueTypeOf
  cases ((l.map dparam).map DParam.meaning).find? (fun p => p.key == c!"VALUE") with
  | none => rfl
  | some q =>
    simp only [Option.bind_some]
    cases q.val.bind ValueType.fromStr <;> rfl

/-- **C11.** The same from the written text: the parsed property is TEXT for the reader exactly if it was
TEXT for the writer. -/
theorem value_type_agreement_written (p : Property) (w : World) (hw : World.Ok w) (hk : IsName p.key)
    (h1 : ¬ c!"END" <+: p.key) (h2 : ¬ c!"BEGIN" <+: p.key) (hp : ParamsOk p.params) (hv : ValueOk p)
    (out : Str) (h : p.fmtWrite w = .ok out) :
    ∃ q, readProperty (unfold out) = some q ∧ determineValueType q.name q.params = p.valueType := by
  have hu := unfold_property hw hk hp hv h (t := []) noIndent_nil
  rw [List.append_nil, ← unfold_eq_spec] at hu
  have := property_ok (br := .crlf) (r := []) hk h1 h2 (dparams_ok hp (hw.order [] p.params))
    (valueText_ok hv).1 (by simp)
  refine ⟨meaningProp p.key ((w.order [] p.params).map dparam) p.valueText, ?_, ?_⟩
  · unfold readProperty
    have hnil : unfoldSpec [] = [] := rfl
    rw [hu, hnil, this]
    rfl
  · have := value_type_agreement p hp.sorted _ (hw.order [] p.params)
    rw [← this]
    unfold meaningProp
    simp only [List.map_map]
    rfl

/-- both readings of a date property whose VALUE parameter is written last -/
example : ({ key := c!"DTSTART", val := c!"20260101", params := [(c!"A", c!""), (c!"VALUE", c!"TEXT")] } :
    Property).valueType = some .text := by
  rfl

/-! ### C12 -/

/-- **C12.** A property is read back from its written text: same key, value and parameters. -/
theorem property_roundtrip (p : Property) (w : World) (hw : World.Ok w) (hk : IsName p.key)
    (h1 : ¬ c!"END" <+: p.key) (h2 : ¬ c!"BEGIN" <+: p.key) (hp : ParamsOk p.params) (hv : ValueOk p)
    (hs : ValueSafe p) (out : Str) (h : p.fmtWrite w = .ok out) :
    (readProperty (unfold out)).map PProp.toProperty = some p := by
  obtain ⟨q, hq, he⟩ := property_write hw hk h1 h2 hp hv h
  unfold readProperty
  rw [hq]
  simp only [finish, Option.map_some, he, readBack_eq hs]

/-- **C12.** `Property::from_str`, which does not unfold, reads back every property written on one line. -/
theorem property_from_str (p : Property) (w : World) (hw : World.Ok w) (hk : IsName p.key)
    (h1 : ¬ c!"END" <+: p.key) (h2 : ¬ c!"BEGIN" <+: p.key) (hp : ParamsOk p.params) (hv : ValueOk p)
    (hs : ValueSafe p) (hshort : blen (p.line w) ≤ 75) :
    ∃ out, p.fmtWrite w = .ok out ∧ Property.fromStr out = some p := by
  have hw' : p.fmtWrite w = .ok (p.line w ++ crlf) := by
    unfold Property.fmtWrite
    rw [fold_short _ hshort]
  refine ⟨_, hw', ?_⟩
  have hr := property_roundtrip p w hw hk h1 h2 hp hv hs _ hw'
  have hu := unfold_property hw hk hp hv hw' (t := []) noIndent_nil
  rw [List.append_nil, ← unfold_eq_spec] at hu
  have hnil : unfoldSpec [] = [] := rfl
  rw [hnil, List.append_nil, ← line_item] at hu
  rw [hu] at hr
  exact hr

omit [Uni] in
/-- a world, and a property with quoted parameters and an escaped value that satisfies the hypotheses -/
example : let w : World := ⟨fun _ => ⟨⟨⟨2026, 1, 1⟩, 0, 0, 0, 0⟩⟩, fun _ => c!"0-f", fun _ l => l.reverse⟩
    let p : Property := ⟨c!"SUMMARY", c!"a,b;c\nd\\e", [(c!"ALTREP", c!"http://x;y"), (c!"B", c!""), (c!"C", c!"x\"y")]⟩
    World.Ok w ∧ @IsName Uni.ascii p.key ∧ ¬ c!"END" <+: p.key ∧ ¬ c!"BEGIN" <+: p.key ∧
    @ParamsOk Uni.ascii p.params ∧ ValueOk p ∧ ValueSafe p ∧
    @Property.fmtWrite Uni.ascii p w =
      .ok c!"SUMMARY;C=x\"y;B=;ALTREP=\"http://x;y\":a\\,b\\;c\\Nd\\\\e\r\n" := by
  refine ⟨⟨fun _ l => List.reverse_perm l, ?_, ?_⟩, ?_⟩
  · intro _; dsimp only; decide
  · intro _; dsimp only; decide
  · decide +kernel

/-! ### C13 -/

/-- **C13.** Two runs that iterate the parameter map in different orders write texts that are read as the
same property (also when its value does not survive). -/
theorem parameter_order (p : Property) (w w' : World) (hw : World.Ok w) (hw' : World.Ok w')
    (hk : IsName p.key) (h1 : ¬ c!"END" <+: p.key) (h2 : ¬ c!"BEGIN" <+: p.key) (hp : ParamsOk p.params)
    (hv : ValueOk p) (out out' : Str) (h : p.fmtWrite w = .ok out) (h' : p.fmtWrite w' = .ok out') :
    (readProperty (unfold out)).map PProp.toProperty = (readProperty (unfold out')).map PProp.toProperty ∧
    (readProperty (unfold out)).isSome = true := by
  obtain ⟨q, hq, he⟩ := property_write hw hk h1 h2 hp hv h
  obtain ⟨q', hq', he'⟩ := property_write hw' hk h1 h2 hp hv h'
  unfold readProperty
  rw [hq, hq']
  simp [finish, he, he']

omit [Uni] in
/-- two orders give different texts -/
example : let p : Property := ⟨c!"X", c!"v", [(c!"A", c!"1"), (c!"B", c!"2")]⟩
    let n : List Nat → UtcDateTime := fun _ => ⟨⟨⟨2026, 1, 1⟩, 0, 0, 0, 0⟩⟩
    @Property.fmtWrite Uni.ascii p ⟨n, fun _ => [], fun _ l => l⟩ = .ok c!"X;A=1;B=2:v\r\n" ∧
    @Property.fmtWrite Uni.ascii p ⟨n, fun _ => [], fun _ l => l.reverse⟩ = .ok c!"X;B=2;A=1:v\r\n" := by
  decide +kernel

/-! ### C14 -/

omit [Uni] in
/-- A parameter value that is recovered whatever follows. -/
def Survives (v : Str) : Prop :=
  if ':' ∈ v ∨ ';' ∈ v then '"' ∉ v else ¬ ['"'] <+: v ∨ ['"', '"'] <+: v

/-- a parameter with an equals sign, in terms of the value -/
theorem parameter_eq {k : Str} (hk : IsName k) (s : Str) :
    pairParameter ([';'] ++ k ++ (['='] ++ s)) =
      match paramValue s with
      | .ok r v => .ok r ⟨k, removeEmpty (some v)⟩
      | .error => .ok s ⟨k, none⟩
      | .failure => .failure := by
  have h1 : pair (tag [';']) space0 ([';'] ++ k ++ (['='] ++ s)) = .ok (k ++ (['='] ++ s)) ([';'], []) := by
    unfold pair
    rw [List.append_assoc, tag_ok]
    simp only
    rw [space0_ok (stops_space hk (by intro c hc; simp at hc; subst hc; rfl))]
  have h2 : validKeySequence (k ++ (['='] ++ s)) = .ok (['='] ++ s) k := validKeySequence_ok hk stopsAt_eq
  unfold pairParameter map preceded map
  unfold pair at h1 ⊢
  simp only [h1, separatedPair, map]
  unfold pair
  simp only [h2]
  rw [tag_ok]
  simp only [opt]
  cases paramValue s <;> simp [removeEmpty]

omit [Uni] in
theorem takeTill1_none {f : Char → Bool} {i r v : Str} (h : takeTill1 f i = .ok r v) : ∀ c ∈ v, f c = false := by
  unfold takeTill1 at h
  split at h
  · cases h
  · cases h
    intro c hc
    have := List.all_takeWhile (p := fun c => !f c) (l := i)
    rw [List.all_eq_true] at this
    simpa using this c hc

omit [Uni] in
theorem first_split {c : Char} : ∀ {v : Str}, c ∈ v → ∃ u t, v = u ++ c :: t ∧ c ∉ u
  | [], h => by simp at h
  | x :: v, h => by
    by_cases hc : x = c
    · exact ⟨[], v, by simp [hc], by simp⟩
    · obtain ⟨u, t, h1, h2⟩ := first_split (v := v) (by simpa [Ne.symm hc] using h)
      exact ⟨x :: u, t, by simp [h1], by simp [h2, Ne.symm hc]⟩

omit [Uni] in
theorem removeEmpty_some {w v : Str} (h : removeEmpty (some w) = some v) : w = v := by
  unfold removeEmpty at h
  simp only at h
  split at h
  · cases h
  · cases h; rfl

/-- **C14** (partial: exactly the values that survive). What is written for a non-empty parameter value is
read back as that value, whatever follows, if and only if the value has no double quote when it has a
colon or semicolon, and otherwise does not start with a single double quote. -/
theorem param_value_partial (k v : Str) (hk : IsName k) (hv : v ≠ []) :
    (∀ b, b.head? = some ';' ∨ b.head? = some ':' →
      parameter ([';'] ++ k ++ ['='] ++ quoteIfContainsColon v ++ b) = .ok b ⟨k, some v⟩) ↔ Survives v := by
  have eq : ∀ b, parameter ([';'] ++ k ++ ['='] ++ quoteIfContainsColon v ++ b) =
      match paramValue (quoteIfContainsColon v ++ b) with
      | .ok r v => .ok r ⟨k, removeEmpty (some v)⟩
      | .error => .ok (quoteIfContainsColon v ++ b) ⟨k, none⟩
      | .failure => .failure := by
    intro b
    unfold parameter alt
    have := parameter_eq hk (quoteIfContainsColon v ++ b)
    rw [List.append_assoc, List.append_assoc, this]
    cases paramValue (quoteIfContainsColon v ++ b) <;> rfl
  have hcontains : (v.contains ':' || v.contains ';') = true ↔ (':' ∈ v ∨ ';' ∈ v) := by simp
  constructor
  · intro h
    unfold Survives
    by_cases hc : ':' ∈ v ∨ ';' ∈ v
    · rw [if_pos hc]
      intro hq
      have h := h c!":" (.inr rfl)
      rw [eq] at h
      unfold quoteIfContainsColon at h
      rw [if_pos (hcontains.2 hc)] at h
      obtain ⟨u, t, rfl, hu⟩ := first_split hq
      by_cases hn : u = []
      · subst hn
        have he : ∀ s : Str, paramValue ('"' :: '"' :: s) =
            takeTill1 (fun x => x == ';' || x == ':') ('"' :: '"' :: s) := by
          intro s
          have h1 : isNot '"' ('"' :: s) = .error := takeTill1_error (by rfl)
          have h2 : tag ['"'] ('"' :: '"' :: s) = .ok ('"' :: s) ['"'] := by simp [tag]
          simp [paramValue, alt, eof, delimited, map, pair, h1, h2]
        simp only [List.nil_append, List.cons_append, he] at h
        cases ht : takeTill1 (fun x => x == ';' || x == ':') ('"' :: '"' :: (t ++ '"' :: c!":")) with
        | error => simp [ht] at h
        | failure => simp [ht] at h
        | ok r w =>
          simp only [List.append_assoc, List.cons_append, List.nil_append, ht, Res.ok.injEq,
            PParam.mk.injEq, true_and] at h
          have hw := removeEmpty_some h.2
          have hnone := takeTill1_none ht
          rw [hw] at hnone
          rcases hc with hc | hc
          · have := hnone _ hc; simp at this
          · have := hnone _ hc; simp at this
      · have h3 := paramValue_quoted (b := t ++ '"' :: c!":") hn hu
        have e : ['"'] ++ (u ++ '"' :: t) ++ ['"'] ++ c!":" = ['"'] ++ u ++ ['"'] ++ (t ++ '"' :: c!":") := by simp
        rw [e, h3] at h
        simp only [Res.ok.injEq, PParam.mk.injEq, true_and] at h
        have := congrArg List.length h.1
        simp at this
    · rw [if_neg hc]
      have hnq : quoteIfContainsColon v = v := by
        unfold quoteIfContainsColon
        rw [if_neg (fun h => hc (hcontains.1 h))]
      by_cases hq : ['"'] <+: v
      · right
        obtain ⟨u, rfl⟩ := hq
        apply Classical.byContradiction
        intro hu
        have h := h c!":\"" (.inr rfl)
        rw [eq, hnq] at h
        -- the quoted branch succeeds with a value without quotes
        have hs : ∃ r w, isNot '"' (u ++ c!":\"") = .ok r w ∧ ∃ r', r = '"' :: r' := by
          have hmem : '"' ∈ u ++ c!":\"" := by simp
          have hd : ∀ s : Str, '"' ∈ s → ∃ r', s.dropWhile (fun c => !(c == '"')) = '"' :: r' := by
            intro s
            induction s with
            | nil => simp
            | cons c s ih =>
              intro hm
              by_cases hc : c = '"'
              · exact ⟨s, by simp [hc]⟩
              · obtain ⟨r', hr⟩ := ih (by simpa [Ne.symm hc] using hm)
                exact ⟨r', by simp [hc, hr]⟩
          obtain ⟨r', hr'⟩ := hd _ hmem
          cases htk : (u ++ c!":\"").takeWhile (fun c => !(c == '"')) with
          | nil =>
            exfalso
            cases u with
            | nil => simp at htk
            | cons c u =>
              by_cases hcq : c = '"'
              · subst hcq
                exact hu ⟨u, rfl⟩
              · simp [hcq] at htk
          | cons x w =>
            exact ⟨_, x :: w, by simp only [isNot, takeTill1, htk], r', hr'⟩
        obtain ⟨r, w, h1, r', rfl⟩ := hs
        have h2 : tag ['"'] (['"'] ++ u ++ c!":\"") = .ok (u ++ c!":\"") ['"'] := by
          rw [List.append_assoc, tag_ok]
        have h3 : tag ['"'] ('"' :: r') = .ok r' ['"'] := by simp [tag]
        have he : eof (['"'] ++ u ++ c!":\"") = .error := by simp [eof]
        have hpv : paramValue (['"'] ++ u ++ c!":\"") = .ok r' w := by
          unfold paramValue alt
          rw [he]
          simp only [delimited, map, pair, h2, h1, h3]
        rw [hpv] at h
        simp only [Res.ok.injEq, PParam.mk.injEq, true_and] at h
        have hw := removeEmpty_some h.2
        have := takeTill1_none h1 '"' (by rw [hw]; simp)
        simp at this
      · exact .inl hq
  · intro h b hb
    rw [eq]
    unfold Survives at h
    by_cases hc : ':' ∈ v ∨ ';' ∈ v
    · rw [if_pos hc] at h
      have : quoteIfContainsColon v = ['"'] ++ v ++ ['"'] := by
        unfold quoteIfContainsColon
        rw [if_pos (hcontains.2 hc)]
      rw [this, paramValue_quoted hv h]
      simp [removeEmpty, hv]
    · rw [if_neg hc] at h
      have hnq : quoteIfContainsColon v = v := by
        unfold quoteIfContainsColon
        rw [if_neg (fun h => hc (hcontains.1 h))]
      rw [hnq]
      rw [not_or] at hc
      rcases h with h | h
      · rw [paramValue_plain hb hv hc.1 hc.2 h]
        simp [removeEmpty, hv]
      · obtain ⟨u, rfl⟩ := h
        have hpv : paramValue ('"' :: '"' :: (u ++ b)) = .ok b ('"' :: '"' :: u) := by
          have h1 : isNot '"' ('"' :: (u ++ b)) = .error := takeTill1_error (by rfl)
          have h2 : tag ['"'] ('"' :: '"' :: (u ++ b)) = .ok ('"' :: (u ++ b)) ['"'] := by simp [tag]
          have h3 : takeTill1 (fun x => x == ';' || x == ':') (('"' :: '"' :: u) ++ b) = .ok b ('"' :: '"' :: u) := by
            apply takeTill1_ok (by simp)
            · intro c hc'
              simp only [Bool.or_eq_false_iff, beq_eq_false_iff_ne]
              exact ⟨fun h => hc.2 (h ▸ hc'), fun h => hc.1 (h ▸ hc')⟩
            · intro c hc'
              rcases hb with hb | hb <;> rw [hb] at hc' <;> cases hc' <;> rfl
          simp only [List.cons_append] at h3
          simp [paramValue, alt, eof, delimited, map, pair, h1, h2, h3]
        simp only [List.cons_append, List.nil_append, hpv]
        simp [removeEmpty]

/-- **C14.** The empty value: it is written as `;KEY=` and read back as absent, which the conversion to a
`Property` turns into the empty value again. -/
theorem param_value_empty (k : Str) (hk : IsName k) (b : Str) (hb : b.head? = some ';' ∨ b.head? = some ':') :
    parameter ([';'] ++ k ++ ['='] ++ quoteIfContainsColon [] ++ b) = .ok b ⟨k, none⟩ ∧
    PParam.toPair ⟨k, none⟩ = (k, []) := by
  constructor
  · unfold parameter alt
    have := parameter_eq hk b
    have e : [';'] ++ k ++ ['='] ++ quoteIfContainsColon [] ++ b = [';'] ++ k ++ (['='] ++ b) := by
      simp [quoteIfContainsColon]
    rw [e, this, paramValue_empty hb]
  · rfl

omit [Uni] in
/-- **C14 (violated).** A value with a double quote and a colon is cut off at the quote, and the rest of
the line is lost. -/
theorem param_value_violated :
    let p : Property := ⟨c!"ATTENDEE", c!"mailto:x", [(c!"CN", c!"the \"one\": x")]⟩
    let w : World := ⟨fun _ => ⟨⟨⟨2026, 1, 1⟩, 0, 0, 0, 0⟩⟩, fun _ => c!"0-f", fun _ l => l⟩
    ∃ out, @Property.fmtWrite Uni.ascii p w = .ok out ∧
      (@readProperty Uni.ascii (unfold out)).map PProp.toProperty =
        some ⟨c!"ATTENDEE", [], []⟩ := by
  refine ⟨c!"ATTENDEE;CN=\"the \"one\": x\":mailto:x\r\n", by decide +kernel, by decide +kernel⟩

/-! ### C15 -/

/-- **C15.** Whatever the value of a TEXT property is, what is written for the property unfolds to one
content line that starts with the key, without line feed, followed by CRLF. -/
theorem text_one_line (p : Property) (w : World) (hw : World.Ok w) (hk : IsName p.key)
    (hn : ∀ x ∈ p.params, IsName x.1 ∧ '\n' ∉ x.2) (ht : IsText p)
    (out : Str) (h : p.fmtWrite w = .ok out) :
    ∃ rest, unfold out = p.key ++ rest ++ crlf ∧ '\n' ∉ p.key ++ rest := by
  have hline : '\n' ∉ p.line w := by
    have hperm := hw.order [] p.params
    have hpar : ∀ l : List (Str × Str), (∀ x ∈ l, IsName x.1 ∧ '\n' ∉ x.2) → '\n' ∉ paramsText l := by
      intro l
      induction l with
      | nil => intro _; simp [paramsText]
      | cons x l ih =>
        intro hx
        obtain ⟨k, v⟩ := x
        have h1 := hx (k, v) (by simp)
        have h2 := ih (fun y hy => hx y (by simp [hy]))
        simp only [paramsText, List.mem_append, not_or]
        refine ⟨⟨⟨⟨by decide, name_not_mem h1.1 isKeyChar_lf⟩, by decide⟩, ?_⟩, h2⟩
        unfold quoteIfContainsColon
        split
        · simp only [List.mem_append, not_or]
          exact ⟨⟨by decide, h1.2⟩, by decide⟩
        · exact h1.2
    unfold Property.line
    rw [valueText_of_text ((isText_iff p).1 ht)]
    simp only [List.mem_append, not_or]
    exact ⟨⟨⟨name_not_mem hk isKeyChar_lf, hpar _ (fun x hx => hn x (hperm.mem_iff.1 hx))⟩, by decide⟩,
      (escape_inert p.val).2⟩
  unfold Property.fmtWrite at h
  cases hf : foldLine (p.line w) with
  | error e => rw [hf] at h; cases h
  | ok s =>
    rw [hf] at h
    cases h
    have hu := unfold_line (markerFree_of_noLf hline) hf (t := []) noIndent_nil
    rw [List.append_nil] at hu
    refine ⟨paramsText (w.order [] p.params) ++ [':'] ++ p.valueText, ?_, ?_⟩
    · rw [unfold_eq_spec, hu]
      simp [Property.line, unfoldSpec]
    · unfold Property.line at hline
      simpa using hline

/-- **C15.** In a document, a TEXT property stands for exactly one property, whatever its value is: what
precedes it and what follows it is read as if it were alone. -/
theorem text_isolated (p : Property) (w : World) (hw : World.Ok w) (hk : KeyOk p.key)
    (hp : ParamsOk p.params) (ht : IsText p) (out : Str) (h : p.fmtWrite w = .ok out)
    (b e name : Str) (pre post : List Item) (hdoc : (Item.comp b e name (pre ++ post)).Ok .crlf) :
    ∃ q, q.name = p.key ∧ q.toProperty = { p with val := rereadText p.val } ∧
      readComponent (b ++ name ++ crlf ++ itemsText .crlf pre ++ unfold out ++ itemsText .crlf post ++
          (e ++ name ++ crlf)) =
        some (.mk name (itemsProps pre ++ [q] ++ itemsProps post) (itemsComps pre ++ itemsComps post)) := by
  have hv : ValueOk p := .inl ht
  have hu := unfold_property hw hk.name hp hv h (t := []) noIndent_nil
  have hnil : unfoldSpec [] = [] := rfl
  rw [List.append_nil, ← unfold_eq_spec, hnil, List.append_nil] at hu
  let it := Item.prop p.key ((w.order [] p.params).map dparam) p.valueText
  have hio : it.Ok .crlf := item_of_prop_ok hw hk hp hv
  refine ⟨meaningProp p.key ((w.order [] p.params).map dparam) p.valueText, rfl, ?_, ?_⟩
  · rw [meaning_dparams p hp.sorted (hw.order [] p.params)]
    unfold Property.readBack
    rw [if_pos ((isText_iff p).1 ht), text_reread]
  · have okApp : ∀ l l' : List Item, ItemsOk .crlf (l ++ l') ↔ ItemsOk .crlf l ∧ ItemsOk .crlf l' := by
      intro l l'
      induction l with
      | nil => simp [ItemsOk]
      | cons i l ih => simp [ItemsOk, ih, and_assoc]
    have textApp : ∀ l l' : List Item, itemsText .crlf (l ++ l') = itemsText .crlf l ++ itemsText .crlf l' := by
      intro l l'
      induction l with
      | nil => simp [itemsText]
      | cons i l ih => simp [itemsText, ih]
    have propsApp : ∀ l l' : List Item, itemsProps (l ++ l') = itemsProps l ++ itemsProps l' := by
      intro l l'
      induction l with
      | nil => simp [itemsProps]
      | cons i l ih => cases i <;> simp [itemsProps, ih]
    have compsApp : ∀ l l' : List Item, itemsComps (l ++ l') = itemsComps l ++ itemsComps l' := by
      intro l l'
      induction l with
      | nil => simp [itemsComps]
      | cons i l ih => cases i <;> simp [itemsComps, ih]
    simp only [Item.Ok, okApp] at hdoc
    have hok : (Item.comp b e name (pre ++ (it :: post))).Ok .crlf := by
      simp only [Item.Ok, okApp, ItemsOk]
      exact ⟨hdoc.1, hdoc.2.1, hdoc.2.2.1, hdoc.2.2.2.1, hio, hdoc.2.2.2.2⟩
    have hc := component_ok hok (r := []) rfl (by simp)
    have et : b ++ name ++ crlf ++ itemsText .crlf pre ++ unfold out ++ itemsText .crlf post ++
        (e ++ name ++ crlf) = (Item.comp b e name (pre ++ (it :: post))).text .crlf ++ [] := by
      rw [hu]
      simp only [Item.text, textApp, itemsText]
      simp [it, Item.text, Break.text]
    unfold readComponent
    rw [et, hc, propsApp, compsApp]
    simp [it, finish, itemsProps, itemsComps]

omit [Uni] in
/-- a hostile description -/
example : let p : Property := ⟨c!"DESCRIPTION", c!"x\r\nEND:VEVENT\r\nBEGIN:VEVENT\nUID:1\n ", []⟩
    let w : World := ⟨fun _ => ⟨⟨⟨2026, 1, 1⟩, 0, 0, 0, 0⟩⟩, fun _ => c!"0-f", fun _ l => l⟩
    IsText p ∧ @KeyOk Uni.ascii p.key ∧ @ParamsOk Uni.ascii p.params ∧
    @Property.fmtWrite Uni.ascii p w =
      .ok c!"DESCRIPTION:x\r\\NEND:VEVENT\r\\NBEGIN:VEVENT\\NUID:1\\N \r\n" := by
  decide +kernel

end Ical
