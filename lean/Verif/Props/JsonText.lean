import Verif.Proofs.JsonText
import Verif.Props.Json
import Verif.Model.Calendar

/-!
C127: a calendar survives its JSON text.
-/

namespace Ical

open Spec

/-! ### What is written is a JSON text -/

theorem hexDigit_hexChar : ∀ v < 16, HexDigit (hexChar v) v := by
  unfold HexDigit
  decide +kernel

theorem speltChar_escape (c : Char) : SpeltChar c (jsonEscape c) := by
  have hc : ∀ n, c.toNat = n → c = Char.ofNat n := fun n h => by rw [← h, char_ofNat_toNat]
  unfold jsonEscape
  split
  · next h => subst h; exact .quote
  split
  · next h => subst h; exact .backslash
  split
  · next h => rw [hc _ h]; exact .backspace
  split
  · next h => rw [hc _ h]; exact .tab
  split
  · next h => rw [hc _ h]; exact .lineFeed
  split
  · next h => rw [hc _ h]; exact .formFeed
  split
  · next h => rw [hc _ h]; exact .return
  split
  · next h =>
    refine .code c ['0', '0', hexChar (c.toNat / 16), hexChar (c.toNat % 16)]
      ⟨_, _, _, _, 0, 0, c.toNat / 16, c.toNat % 16, rfl, hexDigit_hexChar 0 (by omega), hexDigit_hexChar 0 (by omega),
        hexDigit_hexChar _ (by omega), hexDigit_hexChar _ (by omega), by omega⟩
  · next h1 h2 _ _ _ _ _ h => exact .plain c (by omega) h1 h2

theorem spelt_escape (s : Str) : Spelt s (s.flatMap jsonEscape) := by
  induction s with
  | nil => exact .nil
  | cons c s ih => exact .cons c _ s _ (speltChar_escape c) ih

mutual
/-- A value without numbers. -/
def Json.plain : Json → Prop
  | .number _ => False
  | .array l => plainItems l
  | .object l => plainEntries l
  | _ => True
/-- elements without numbers -/
def plainItems : List Json → Prop
  | [] => True
  | j :: l => j.plain ∧ plainItems l
/-- entries without numbers -/
def plainEntries : List (Str × Json) → Prop
  | [] => True
  | (_, j) :: l => j.plain ∧ plainEntries l
end

theorem jsonSpace_nil : JsonSpace [] := by simp [JsonSpace]

mutual
theorem compact_text : (j : Json) → j.plain → TextOf j j.compact
  | .null, _ => .null
  | .bool true, _ => .true
  | .bool false, _ => .false
  | .number _, h => by simp [Json.plain] at h
  | .string s, _ => .string s _ (spelt_escape s)
  | .array [], _ => .emptyArray [] jsonSpace_nil
  | .array (j :: l), h => .array _ _ (compactItems_text j l (by simpa [Json.plain] using h))
  | .object [], _ => .emptyObject [] jsonSpace_nil
  | .object ((k, j) :: l), h => .object _ _ (compactEntries_text k j l (by simpa [Json.plain] using h))
termination_by j => sizeOf j
decreasing_by all_goals (simp_wf; try omega)
theorem compactItems_text : (j : Json) → (l : List Json) → plainItems (j :: l) → ItemsOf (j :: l) (compactItems (j :: l))
  | j, [], h => by
    have := ItemsOf.one j [] j.compact [] jsonSpace_nil (compact_text j (by simp [plainItems] at h; exact h)) jsonSpace_nil
    simpa [compactItems] using this
  | j, j' :: l, h => by
    have h' : j.plain ∧ plainItems (j' :: l) := by rw [plainItems] at h; exact h
    have := ItemsOf.cons j (j' :: l) [] j.compact [] _ jsonSpace_nil (compact_text j h'.1) jsonSpace_nil
      (compactItems_text j' l h'.2)
    simpa [compactItems] using this
termination_by j l => sizeOf j + sizeOf l + 1
decreasing_by all_goals (simp_wf; try omega)
theorem compactEntries_text : (k : Str) → (j : Json) → (l : List (Str × Json)) → plainEntries ((k, j) :: l) →
    EntriesOf ((k, j) :: l) (compactEntries ((k, j) :: l))
  | k, j, [], h => by
    have := EntriesOf.one k j [] _ [] [] j.compact [] jsonSpace_nil (spelt_escape k) jsonSpace_nil jsonSpace_nil
      (compact_text j (by simp [plainEntries] at h; exact h)) jsonSpace_nil
    simpa [compactEntries, jsonStr] using this
  | k, j, (k', j') :: l, h => by
    have h' : j.plain ∧ plainEntries ((k', j') :: l) := by rw [plainEntries] at h; exact h
    have := EntriesOf.cons k j ((k', j') :: l) [] _ [] [] j.compact [] _ jsonSpace_nil (spelt_escape k) jsonSpace_nil jsonSpace_nil
      (compact_text j h'.1) jsonSpace_nil (compactEntries_text k' j' l h'.2)
    simpa [compactEntries, jsonStr] using this
termination_by _ j l => sizeOf j + sizeOf l + 1
decreasing_by all_goals (simp_wf; try omega)
end

theorem jsonSpace_indent (n : Nat) : JsonSpace (indent n) := by
  intro c hc
  simp only [indent, List.mem_append, List.mem_singleton, List.mem_replicate] at hc
  rcases hc with h | h
  · exact .inr (.inl h)
  · exact .inl h.2

theorem jsonSpace_space : JsonSpace [' '] := by simp [JsonSpace]

mutual
theorem pretty_text (n : Nat) : (j : Json) → j.plain → TextOf j (j.pretty n)
  | .null, _ => .null
  | .bool true, _ => .true
  | .bool false, _ => .false
  | .number _, h => by simp [Json.plain] at h
  | .string s, _ => .string s _ (spelt_escape s)
  | .array [], _ => .emptyArray [] jsonSpace_nil
  | .array (j :: l), h => by
    rw [Json.pretty, List.append_assoc (['['])]
    exact .array _ _ (prettyItems_text (n + 1) j l _ (jsonSpace_indent n) (by simpa [Json.plain] using h))
  | .object [], _ => .emptyObject [] jsonSpace_nil
  | .object ((k, j) :: l), h => by
    rw [Json.pretty, List.append_assoc (['{'])]
    exact .object _ _ (prettyEntries_text (n + 1) k j l _ (jsonSpace_indent n) (by simpa [Json.plain] using h))
termination_by j => sizeOf j
decreasing_by all_goals (simp_wf; try omega)
theorem prettyItems_text (n : Nat) : (j : Json) → (l : List Json) → (w : Str) → JsonSpace w → plainItems (j :: l) →
    ItemsOf (j :: l) (prettyItems n (j :: l) ++ w)
  | j, [], w, hw, h => by
    have := ItemsOf.one j (indent n) (j.pretty n) w (jsonSpace_indent n)
      (pretty_text n j (by simp [plainItems] at h; exact h)) hw
    simpa [prettyItems] using this
  | j, j' :: l, w, hw, h => by
    have h' : j.plain ∧ plainItems (j' :: l) := by rw [plainItems] at h; exact h
    have := ItemsOf.cons j (j' :: l) (indent n) (j.pretty n) [] _ (jsonSpace_indent n) (pretty_text n j h'.1) jsonSpace_nil
      (prettyItems_text n j' l w hw h'.2)
    simpa [prettyItems] using this
termination_by j l => sizeOf j + sizeOf l + 1
decreasing_by all_goals (simp_wf; try omega)
theorem prettyEntries_text (n : Nat) : (k : Str) → (j : Json) → (l : List (Str × Json)) → (w : Str) → JsonSpace w →
    plainEntries ((k, j) :: l) → EntriesOf ((k, j) :: l) (prettyEntries n ((k, j) :: l) ++ w)
  | k, j, [], w, hw, h => by
    have := EntriesOf.one k j (indent n) _ [] [' '] (j.pretty n) w (jsonSpace_indent n) (spelt_escape k) jsonSpace_nil jsonSpace_space
      (pretty_text n j (by simp [plainEntries] at h; exact h)) hw
    simpa [prettyEntries, jsonStr] using this
  | k, j, (k', j') :: l, w, hw, h => by
    have h' : j.plain ∧ plainEntries ((k', j') :: l) := by rw [plainEntries] at h; exact h
    have := EntriesOf.cons k j ((k', j') :: l) (indent n) _ [] [' '] (j.pretty n) [] _ (jsonSpace_indent n) (spelt_escape k)
      jsonSpace_nil jsonSpace_space (pretty_text n j h'.1) jsonSpace_nil (prettyEntries_text n k' j' l w hw h'.2)
    simpa [prettyEntries, jsonStr] using this
termination_by _ j l => sizeOf j + sizeOf l + 1
decreasing_by all_goals (simp_wf; try omega)
end

/-! ### The values calendars are written as -/

theorem plainItems_map {α : Type} (f : α → Json) (h : ∀ a, (f a).plain) (l : List α) : plainItems (l.map f) := by
  induction l with
  | nil => simp [plainItems]
  | cons a l ih => simp only [List.map_cons, plainItems]; exact ⟨h a, ih⟩

theorem plain_param (p : PParam) : p.toJson.plain := by
  obtain ⟨k, v⟩ := p
  cases v <;> simp [PParam.toJson, Json.plain, plainEntries, strToJson]

theorem plain_prop (p : PProp) : p.toJson.plain := by
  simp only [PProp.toJson, Json.plain, plainEntries, strToJson, and_true, true_and]
  exact plainItems_map _ plain_param _

mutual
theorem plain_comp : (c : PComp) → c.toJson.plain
  | .mk name props comps => by
    simp only [PComp.toJson, Json.plain, plainEntries, strToJson, and_true, true_and]
    exact ⟨plainItems_map _ plain_prop _, plain_comps comps⟩
theorem plain_comps : (l : List PComp) → plainItems (compsToJson l)
  | [] => by simp [compsToJson, plainItems]
  | c :: l => by
    simp only [compsToJson, plainItems]
    exact ⟨plain_comp c, plain_comps l⟩
end

theorem plain_cal (c : PCal) : c.toJson.plain := by
  simp only [PCal.toJson, Json.plain, plainEntries, and_true]
  exact ⟨plainItems_map _ plain_prop _, plain_comps _⟩

/-! ### How deep they are -/

theorem depthItems_map {α : Type} (f : α → Json) (m : Nat) (l : List α) :
    depthItems (l.map f) ≤ m ↔ ∀ a ∈ l, (f a).depth ≤ m := by
  induction l with
  | nil => simp [depthItems]
  | cons a l ih =>
    simp only [List.map_cons, depthItems, List.mem_cons, forall_eq_or_imp, ← ih]
    omega

theorem depth_param (p : PParam) : p.toJson.depth = 1 := by
  obtain ⟨k, v⟩ := p
  cases v <;> simp [PParam.toJson, Json.depth, depthEntries, strToJson]

theorem depth_prop (p : PProp) : 2 ≤ p.toJson.depth ∧ p.toJson.depth ≤ 3 := by
  have h : depthItems (p.params.map PParam.toJson) ≤ 1 :=
    (depthItems_map _ _ _).2 (fun a _ => by rw [depth_param]; exact Nat.le_refl 1)
  simp only [PProp.toJson, Json.depth, depthEntries, strToJson]
  omega

/-- How deep the properties of a component are. -/
theorem depth_props (props : List PProp) :
    depthItems (props.map PProp.toJson) ≤ 3 ∧
      (props = [] ∧ depthItems (props.map PProp.toJson) = 0 ∨ props ≠ [] ∧ 2 ≤ depthItems (props.map PProp.toJson)) := by
  refine ⟨(depthItems_map _ _ _).2 (fun a _ => (depth_prop a).2), ?_⟩
  cases props with
  | nil => exact .inl ⟨rfl, rfl⟩
  | cons p l =>
    refine .inr ⟨by simp, ?_⟩
    have := (depth_prop p).1
    simp only [List.map_cons, depthItems]
    omega

theorem depth_comp (c : PComp) :
    c.toJson.depth = max (depthItems (c.props.map PProp.toJson)) (depthItems (compsToJson c.comps)) + 2 := by
  obtain ⟨n, ps, cs⟩ := c
  simp only [PComp.toJson, Json.depth, depthEntries, strToJson, PComp.props, PComp.comps]
  omega

theorem depthItems_comps (m : Nat) (l : List PComp) :
    depthItems (compsToJson l) ≤ m ↔ ∀ x ∈ l, x.toJson.depth ≤ m := by
  induction l with
  | nil => simp [compsToJson, depthItems]
  | cons a l ih =>
    simp only [compsToJson, depthItems, List.mem_cons, forall_eq_or_imp, ← ih]
    omega

theorem atLevel_pos {l : List PComp} {d : Nat} {x : PComp} (h : AtLevel l d x) : 1 ≤ d := by
  cases h <;> omega

/-- How deep components are, component by component. -/
theorem depthItems_levels (m : Nat) : ∀ l : List PComp,
    depthItems (compsToJson l) ≤ m ↔
      ∀ d x, AtLevel l d x → depthItems (x.props.map PProp.toJson) + 2 * d ≤ m := by
  induction m using Nat.strongRecOn with
  | ind m ih =>
    intro l
    rw [depthItems_comps]
    constructor
    · intro h d x hx
      cases hx with
      | here _ _ hm =>
        have := h x hm
        rw [depth_comp] at this
        omega
      | deeper _ y d _ hm hy =>
        have := h y hm
        rw [depth_comp] at this
        have := (ih (m - 2) (by omega) y.comps).1 (by omega) d x hy
        omega
    · intro h x hx
      have h1 := h 1 x (.here l x hx)
      rw [depth_comp]
      have h2 := (ih (m - 2) (by omega) x.comps).2 (fun d y hy => by
        have := h (d + 1) y (.deeper l x d y hx hy)
        omega)
      omega

theorem depth_cal (c : PCal) : c.toJson.depth < jsonRecursionLimit ↔ Shallow c := by
  have hd : c.toJson.depth = max (depthItems (c.props.map PProp.toJson)) (depthItems (compsToJson c.comps)) + 2 := by
    simp only [PCal.toJson, Json.depth, depthEntries]
    omega
  have hp := depth_props c.props
  have hl := depthItems_levels 125 c.comps
  rw [hd, jsonRecursionLimit]
  constructor
  · intro h d x hx
    have := hl.1 (by omega) d x hx
    rcases (depth_props x.props).2 with ⟨h1, _⟩ | ⟨_, h2⟩
    · by_cases hd : d ≤ 61
      · exact .inl hd
      · exact .inr ⟨by omega, h1⟩
    · exact .inl (by omega)
  · intro h
    have := hl.2 (fun d x hx => by
      have h3 := (depth_props x.props).1
      rcases h d x hx with h1 | ⟨h1, h2⟩
      · omega
      · rw [h2]; simp only [List.map_nil, depthItems]; omega)
    omega

/-! ### C127 -/

/-- C127, exactly which calendars come back from JSON text, whoever wrote it: whatever the white space between the
tokens, the spelling of the strings and the order of the fields. -/
theorem json_text_read (j : Json) (s : Str) (h : JsonTextOf j s) (c : PCal) :
    PCal.ofJsonText s = some c ↔ CalJson j c ∧ Shallow c := by
  rw [← json_read, ← depth_cal]
  simp only [PCal.ofJsonText, jsonOfText_text h, Option.bind_some]
  cases hc : PCal.ofJson j with
  | none => simp
  | some c' =>
    simp only [Option.some.injEq]
    split
    · next hs =>
      simp only [Option.some.injEq]
      constructor
      · rintro rfl; exact ⟨rfl, hs⟩
      · exact fun h => h.1
    · next hs =>
      constructor
      · intro h; simp at h
      · rintro ⟨rfl, h⟩; exact absurd h hs

/-- C127: exactly which texts are read, and as what. -/
theorem json_text_exact (s : Str) (c : PCal) :
    PCal.ofJsonText s = some c ↔ ∃ j, JsonTextOf j s ∧ CalJson j c ∧ Shallow c := by
  constructor
  · intro h
    cases hj : jsonOfText s with
    | none => simp [PCal.ofJsonText, hj] at h
    | some j =>
      have ht := (jsonOfText_iff j s).1 hj
      exact ⟨j, ht, (json_text_read j s ht c).1 h⟩
  · rintro ⟨j, ht, h⟩
    exact (json_text_read j s ht c).2 h

/-- C127: what `serde_json::to_string` writes is a JSON text of the calendar. -/
theorem json_text_compact (c : PCal) : JsonTextOf c.toJson c.toJson.compact :=
  ⟨[], _, [], by simp, jsonSpace_nil, compact_text _ (plain_cal c), jsonSpace_nil⟩

/-- C127: what `serde_json::to_string_pretty` writes, with a line feed after it as printed, is a JSON text of the
calendar. -/
theorem json_text_pretty (c : PCal) : JsonTextOf c.toJson (c.toJson.pretty 0 ++ ['\n']) :=
  ⟨[], _, ['\n'], by simp, jsonSpace_nil, pretty_text 0 _ (plain_cal c), by simp [JsonSpace]⟩

/-- C127: a calendar survives its JSON text if it is not nested too deep. -/
theorem json_text_partial (c : PCal) (h : Shallow c) :
    PCal.ofJsonText c.toJson.compact = some c ∧ PCal.ofJsonText (c.toJson.pretty 0 ++ ['\n']) = some c :=
  ⟨(json_text_read _ _ (json_text_compact c) c).2 ⟨calJson_toJson c, h⟩,
   (json_text_read _ _ (json_text_pretty c) c).2 ⟨calJson_toJson c, h⟩⟩

/-- C127: and only if. -/
theorem json_text_deep_partial (c : PCal) (h : ¬ Shallow c) (s : Str) (hs : JsonTextOf c.toJson s) :
    PCal.ofJsonText s = none := by
  cases hc : PCal.ofJsonText s with
  | none => rfl
  | some c' =>
    have := (json_text_read _ _ hs c').1 hc
    have e : c' = c := by
      have h1 := (json_read _ _).2 this.1
      rw [json_roundtrip] at h1
      exact (Option.some.inj h1).symm
    rw [e] at this
    exact absurd this.2 h

/-- C127: different calendars have different JSON texts. -/
theorem json_text_injective (c c' : PCal) (s : Str) (h : JsonTextOf c.toJson s) (h' : JsonTextOf c'.toJson s) :
    c = c' := by
  have e := jsonOfText_text h
  rw [jsonOfText_text h'] at e
  exact json_injective c c' (Option.some.inj e).symm

theorem escape_visible (c x : Char) (h : x ∈ jsonEscape c) : 0x20 ≤ x.toNat := by
  have hx : ∀ v < 16, 0x20 ≤ (hexChar v).toNat := by decide
  unfold jsonEscape at h
  repeat' split at h
  all_goals simp only [List.mem_cons, List.not_mem_nil, or_false] at h
  all_goals first
    | (rcases h with rfl | rfl <;> decide)
    | (subst h; omega)
    | (rcases h with rfl | rfl | rfl | rfl | rfl | rfl
       · decide
       · decide
       · decide
       · decide
       · exact hx _ (by omega)
       · exact hx _ (by omega))

theorem str_visible (s : Str) : ∀ x ∈ jsonStr s, 0x20 ≤ x.toNat := by
  intro x hx
  simp only [jsonStr, List.mem_append, List.mem_singleton, List.mem_flatMap] at hx
  rcases hx with (rfl | ⟨c, _, hc⟩) | rfl
  · decide
  · exact escape_visible c x hc
  · decide

/-- Nothing but characters that show. -/
def Visible (s : Str) : Prop := ∀ x ∈ s, 0x20 ≤ x.toNat

theorem visible_append {s t : Str} (hs : Visible s) (ht : Visible t) : Visible (s ++ t) := by
  intro x hx
  rcases List.mem_append.1 hx with h | h
  · exact hs x h
  · exact ht x h

instance (s : Str) : Decidable (Visible s) := by unfold Visible; infer_instance

mutual
theorem compact_visible : (j : Json) → j.plain → Visible j.compact
  | .null, _ => by decide
  | .bool true, _ => by decide
  | .bool false, _ => by decide
  | .number _, h => by simp [Json.plain] at h
  | .string s, _ => str_visible s
  | .array l, h => visible_append (visible_append (by decide) (compactItems_visible l (by simpa [Json.plain] using h))) (by decide)
  | .object l, h => visible_append (visible_append (by decide) (compactEntries_visible l (by simpa [Json.plain] using h))) (by decide)
theorem compactItems_visible : (l : List Json) → plainItems l → Visible (compactItems l)
  | [], _ => by decide
  | [j], h => by
    rw [compactItems]
    exact compact_visible j (by simpa [plainItems] using h)
  | j :: j' :: l, h => by
    have h' : j.plain ∧ plainItems (j' :: l) := by rw [plainItems] at h; exact h
    rw [compactItems]
    exact visible_append (visible_append (compact_visible j h'.1) (by decide)) (compactItems_visible (j' :: l) h'.2)
theorem compactEntries_visible : (l : List (Str × Json)) → plainEntries l → Visible (compactEntries l)
  | [], _ => by decide
  | [(k, j)], h => by
    rw [compactEntries]
    exact visible_append (visible_append (str_visible k) (by decide))
      (compact_visible j (by simpa [plainEntries] using h))
  | (k, j) :: e :: l, h => by
    have h' : j.plain ∧ plainEntries (e :: l) := by rw [plainEntries] at h; exact h
    rw [compactEntries]
    exact visible_append (visible_append (visible_append (visible_append (str_visible k) (by decide))
      (compact_visible j h'.1)) (by decide)) (compactEntries_visible (e :: l) h'.2)
end

/-- C127: the compact JSON text of a calendar is one line without control characters, whatever the values contain. -/
theorem json_text_one_line (c : PCal) : ∀ x ∈ c.toJson.compact, 0x20 ≤ x.toNat := compact_visible _ (plain_cal c)

/-- A calendar of `n` components inside one another. -/
def nestedText (n : Nat) : Str :=
  c!"BEGIN:VCALENDAR\n" ++ (List.replicate n c!"BEGIN:A\n").flatten ++ (List.replicate n c!"END:A\n").flatten ++
    c!"END:VCALENDAR\n"

set_option maxRecDepth 100000 in
theorem nestedText_depth :
    (match @readCalendar Uni.ascii (nestedText 63) with
      | some c => c.toJson.depth == 128
      | none => false) = true := by
  decide +kernel

/-- C127 is violated by the code together with the limit of serde_json: 63 components inside one another are read, but
their JSON text is not. -/
theorem json_text_violated :
    ∃ c : PCal, @readCalendar Uni.ascii (nestedText 63) = some c ∧ PCal.ofJsonText c.toJson.compact = none ∧
      PCal.ofJsonText (c.toJson.pretty 0 ++ ['\n']) = none := by
  have h := nestedText_depth
  split at h
  · next c hc =>
    have hd : c.toJson.depth = 128 := by simpa using h
    have hs : ¬ Shallow c := by rw [← depth_cal, hd]; decide
    exact ⟨c, hc, json_text_deep_partial c hs _ (json_text_compact c), json_text_deep_partial c hs _ (json_text_pretty c)⟩
  · simp at h

/-- A calendar with every kind of field, and characters JSON has to escape. -/
def jsonSample : PCal :=
  ⟨[⟨c!"VERSION", c!"2.0", []⟩],
   [.mk c!"VEVENT" [⟨c!"SUMMARY", c!"a \"b\" \\ \t ä", [⟨c!"X", some c!"1"⟩, ⟨c!"Y", none⟩]⟩] [.mk c!"VALARM" [] []]]⟩

example : PCal.ofJsonText jsonSample.toJson.compact = some jsonSample :=
  (json_text_partial jsonSample ((depth_cal _).1 (by decide))).1

example (c : PCal) : PCal.ofJsonText (jsonSample.toJson.pretty 0 ++ ['\n']) = some c ↔ CalJson jsonSample.toJson c ∧ Shallow c :=
  json_text_read _ _ (json_text_pretty jsonSample) c

example (c : PCal) (h : JsonTextOf c.toJson jsonSample.toJson.compact) : c = jsonSample :=
  json_text_injective _ _ _ h (json_text_compact jsonSample)

example (c : PCal) (hc : c.toJson.depth = 128) : PCal.ofJsonText c.toJson.compact = none :=
  json_text_deep_partial c (by rw [← depth_cal, hc]; decide) _ (json_text_compact c)

example : ¬ ∃ j, JsonTextOf j (jsonSample.toJson.compact ++ c!"x") ∧ CalJson j jsonSample ∧ Shallow jsonSample := by
  have : (PCal.ofJsonText (jsonSample.toJson.compact ++ c!"x")).isNone = true := by decide +kernel
  rw [← json_text_exact, Option.isNone_iff_eq_none.1 this]
  simp

/-- Fields in another order, other white space, other spellings of characters and an unknown field. -/
example : ∃ c, PCal.ofJsonText c!" {\"components\" : [ ] ,\"more\":[true,-1.5e3],\"properties\":[{\"params\":[],\"val\":\"\\u0041\\ud83d\\ude00\\/\",\"name\":\"N\"}]}\r\n" = some c ∧
    c.props = [⟨c!"N", c!"A😀/", []⟩] ∧ c.comps = [] := ⟨_, rfl, rfl, rfl⟩

end Ical
