import Verif.Spec.ParamLists
import Verif.Props.Parsing

/-!
C81: parameters that list several values.
-/

namespace Ical

open Nom Spec

/-- the same parameter as one text -/
def ListParam.single (p : ListParam) : DParam :=
  match p.vals with
  | [v] => ⟨p.key, some (v.quoted, v.val)⟩
  | vs => ⟨p.key, some (false, listText vs)⟩

theorem single_text (p : ListParam) : (ListParam.single p).text = p.text := by
  obtain ⟨k, vs⟩ := p
  match vs with
  | [] => simp [ListParam.single, ListParam.text, DParam.text]
  | [⟨true, v⟩] => simp [ListParam.single, ListParam.text, DParam.text, listText, ListValue.text]
  | [⟨false, v⟩] => simp [ListParam.single, ListParam.text, DParam.text, listText, ListValue.text]
  | v :: w :: l => simp [ListParam.single, ListParam.text, DParam.text]

theorem single_meaning (p : ListParam) : (ListParam.single p).meaning = p.meaning := by
  obtain ⟨k, vs⟩ := p
  match vs with
  | [] => simp [ListParam.single, ListParam.meaning, DParam.meaning]
  | [v] => simp [ListParam.single, ListParam.meaning, DParam.meaning]
  | v :: w :: l => simp [ListParam.single, ListParam.meaning, DParam.meaning]

theorem mem_listText {c : Char} {vs : List ListValue} (h : c ∈ listText vs) : c = ',' ∨ ∃ v ∈ vs, c ∈ v.text := by
  unfold listText at h
  induction vs with
  | nil => simp at h
  | cons v vs ih =>
    cases vs with
    | nil => simp at h; exact .inr ⟨v, by simp, h⟩
    | cons w vs =>
      rw [List.map_cons, List.map_cons, List.intercalate_cons_cons] at h
      rw [List.map_cons] at ih
      rw [List.mem_append, List.mem_append] at h
      rcases h with (h | h) | h
      · exact .inr ⟨v, by simp, h⟩
      · exact .inl (by simpa using h)
      · rcases ih h with h | ⟨x, hx, h⟩
        · exact .inl h
        · exact .inr ⟨x, by simp at hx ⊢; exact .inr hx, h⟩

theorem prefixNoCase_semi {t key s : Str} (ht : ';' ∉ t) (hk : ':' ∉ key) :
    prefixNoCase (t ++ [':']) (key ++ ';' :: s) = false := by
  induction t generalizing key with
  | nil =>
    cases key with
    | nil => simp [prefixNoCase, lowerAscii]
    | cons c k =>
      simp at hk
      simp only [List.nil_append, List.cons_append, prefixNoCase, Bool.and_true, beq_eq_false_iff_ne]
      intro he
      exact hk.1 (lowerAscii_eq (by decide) he.symm).symm
  | cons x t ih =>
    simp at ht
    cases key with
    | nil =>
      simp only [List.nil_append, List.cons_append, prefixNoCase, Bool.and_eq_false_iff, beq_eq_false_iff_ne]
      left
      intro he
      exact ht.1 (lowerAscii_eq (by decide) he).symm
    | cons c k =>
      simp at hk
      simp only [List.cons_append, prefixNoCase]
      rw [ih ht.2 hk.2, Bool.and_false]

variable [Uni]

theorem single_ok {p : ListParam} (hn : IsName p.key) (hr : ∀ v ∈ p.vals, v.Rfc) (hp : p.Plain) :
    (ListParam.single p).Ok := by
  obtain ⟨k, vs⟩ := p
  simp only at hn hr
  have hj : (∀ v ∈ vs, v.quoted = false) → ':' ∉ listText vs ∧ ';' ∉ listText vs ∧ '"' ∉ listText vs := by
    intro h
    refine ⟨?_, ?_, ?_⟩ <;>
    · intro hc
      rcases mem_listText hc with hc | ⟨v, hv, hc⟩
      · cases hc
      · have h1 := h v hv
        have h2 := hr v hv
        simp only [ListValue.text, h1] at hc
        simp at hc
        have h3 := h2.2 h1
        first | exact h3.1 hc | exact h3.2.1 hc | exact h2.1 hc
  have hs : ∀ t : Str, '"' ∉ t → ¬ ['"'] <+: t := by
    rintro t ht ⟨s, rfl⟩
    simp at ht
  match vs with
  | [] => exact ⟨hn, by simp [ListParam.single, listText]⟩
  | [⟨true, v⟩] =>
    refine ⟨hn, ?_⟩
    have := hr ⟨true, v⟩ (by simp)
    rcases hp with ⟨w, hw, hne⟩ | h
    · simp only [List.cons.injEq, and_true] at hw
      subst hw
      exact ⟨hne, this.1⟩
    · have := h ⟨true, v⟩ (by simp)
      cases this
  | [⟨false, v⟩] =>
    have := hr ⟨false, v⟩ (by simp)
    have h2 := this.2 rfl
    exact ⟨hn, h2.2.1, h2.1, hs _ this.1⟩
  | v :: w :: l =>
    rcases hp with ⟨x, hx, -⟩ | h
    · simp at hx
    · have := hj h
      exact ⟨hn, this.1, this.2.1, hs _ this.2.2⟩

/-- **C81 (partial).** Parameters without quoted values, and parameters with one value, quoted or not, are all read,
each with its values as written, and so is the value of the property. -/
theorem param_lists_partial {br : Break} {key : Str} {params : List ListParam} {val : Str} (hk : KeyOk key)
    (hn : ∀ p ∈ params, IsName p.key) (hr : ∀ p ∈ params, ∀ v ∈ p.vals, v.Rfc) (hp : ∀ p ∈ params, p.Plain)
    (hv : ValOk br val) (hq : br = .lf → '\r' ∉ val) :
    readProperty (key ++ (params.map ListParam.text).flatten ++ [':'] ++ val ++ br.text) =
      some { name := key,
             val := if IsTextFor key ((params.map ListParam.meaning).find? (·.key == c!"VALUE") |>.bind (·.val))
               then unescaped val else val,
             params := params.map ListParam.meaning } := by
  have h := property_ok (br := br) (r := []) hk.name hk.notEnd hk.notBegin (params := params.map ListParam.single)
    (by
      intro p hp'
      simp only [List.mem_map] at hp'
      obtain ⟨q, hq', rfl⟩ := hp'
      exact single_ok (hn q hq') (hr q hq') (hp q hq')) hv (by simpa using hq)
  have e1 : (params.map ListParam.single).map DParam.text = params.map ListParam.text := by
    rw [List.map_map]
    exact List.map_congr_left (fun p _ => single_text p)
  have e2 : (params.map ListParam.single).map DParam.meaning = params.map ListParam.meaning := by
    rw [List.map_map]
    exact List.map_congr_left (fun p _ => single_meaning p)
  rw [List.append_nil, Item.text, e1] at h
  unfold readProperty
  rw [h]
  simp only [finish, meaningProp, e2]

/-! ### Quoted values in a list -/

/-- parameters of which the last has a value in quotes, and a character other than `;` -/
theorem parameters_quoted {ps : List DParam} (h : ∀ p ∈ ps, p.Ok) {k v : Str} (hk : IsName k) (hne : v ≠ [])
    (hv : '"' ∉ v) {c : Char} (hc : c ≠ ';') (s : Str) :
    parameters ((ps.map DParam.text).flatten ++ (DParam.text ⟨k, some (true, v)⟩ ++ c :: s)) =
      .ok (c :: s) (ps.map DParam.meaning ++ [⟨k, some v⟩]) := by
  induction ps with
  | nil =>
    have h1 : parameter (DParam.text ⟨k, some (true, v)⟩ ++ c :: s) = .ok (c :: s) ⟨k, some v⟩ := by
      have hpair : pair (tag [';']) space0 ([';'] ++ k ++ (['='] ++ (['"'] ++ v ++ ['"'] ++ c :: s))) =
          .ok (k ++ (['='] ++ (['"'] ++ v ++ ['"'] ++ c :: s))) ([';'], []) := by
        unfold pair
        rw [List.append_assoc, tag_ok]
        simp only
        rw [space0_ok (stops_space hk (by intro c hc; simp at hc; subst hc; rfl))]
      have hkey : validKeySequence (k ++ (['='] ++ (['"'] ++ v ++ ['"'] ++ c :: s))) =
          .ok (['='] ++ (['"'] ++ v ++ ['"'] ++ c :: s)) k := validKeySequence_ok hk stopsAt_eq
      have e : DParam.text ⟨k, some (true, v)⟩ ++ c :: s =
          [';'] ++ k ++ (['='] ++ (['"'] ++ v ++ ['"'] ++ c :: s)) := by simp [DParam.text]
      rw [e]
      have : pairParameter ([';'] ++ k ++ (['='] ++ (['"'] ++ v ++ ['"'] ++ c :: s))) = .ok (c :: s) ⟨k, some v⟩ := by
        unfold pairParameter map preceded map
        unfold pair at hpair ⊢
        simp only [hpair, separatedPair, map]
        unfold pair
        simp only [hkey]
        rw [tag_ok]
        simp only [opt]
        rw [paramValue_quoted hne hv]
        simp [removeEmpty, hne]
      unfold parameter alt
      rw [this]
    simp only [List.map_nil, List.flatten_nil, List.nil_append]
    refine many0_ok shrinks_parameter h1 (by simp [DParam.text]; omega) (many0_error ?_)
    have htag : tag [';'] (c :: s) = .error := tag_error (Ne.symm hc)
    simp only [parameter, alt, pairParameter, baseParameter, map, preceded, pair, htag]
  | cons p ps ih =>
    have hs : ParamStop ((ps.map DParam.text).flatten ++ (DParam.text ⟨k, some (true, v)⟩ ++ c :: s)) := by
      left
      cases ps with
      | nil => simp [DParam.text]
      | cons q qs =>
        have := paramText_head q
        cases hq : q.text with
        | nil => simp [hq] at this
        | cons c s => simp [hq] at this ⊢; exact this
    have h1 := parameter_ok (h p (by simp)) hs
    simp only [List.map_cons, List.flatten_cons, List.append_assoc, List.cons_append]
    refine many0_ok shrinks_parameter h1 ?_ (ih (fun q hq => h q (by simp [hq])))
    have := paramText_pos p
    simp; omega

/-- the parameters of a line up to and including a quoted value after which the list goes on -/
def stuckText (ps : List DParam) (k v : Str) (s : Str) : Str :=
  (ps.map DParam.text).flatten ++ (';' :: k ++ '=' :: '"' :: v ++ ['"', ',']) ++ s

omit [Uni] in
theorem stuck_head (ps : List DParam) (k v s : Str) : ∃ r, stuckText ps k v s = ';' :: r := by
  unfold stuckText
  cases ps with
  | nil => exact ⟨_, by simp; rfl⟩
  | cons p ps =>
    have := paramText_head p
    cases hp : p.text with
    | nil => simp [hp] at this
    | cons d t =>
      simp [hp] at this
      subst this
      exact ⟨_, by simp [hp]; rfl⟩

/-- such a property is read as its name -/
theorem property_stuck {key : Str} (hk : IsName key) (h1 : ¬ c!"END" <+: key) (h2 : ¬ c!"BEGIN" <+: key)
    {ps : List DParam} (hp : ∀ p ∈ ps, p.Ok) {k v : Str} (hkn : IsName k) (hne : v ≠ []) (hv : '"' ∉ v) (s : Str) :
    property (key ++ stuckText ps k v s) = .ok (stuckText ps k v s) ⟨key, [], []⟩ := by
  obtain ⟨r, hr⟩ := stuck_head ps k v s
  have hstop : StopsAt isKeyChar (stuckText ps k v s) := by rw [hr]; exact stopsAt_semi
  have hl : LineHead (key ++ stuckText ps k v s) := by
    rw [hr]
    cases key with
    | nil => exact ⟨';', r, rfl, by simp⟩
    | cons c k => exact ⟨c, _, rfl, .inl (name_keyChar hk c (by simp))⟩
  have hparts : propertyParts (key ++ stuckText ps k v s) = .ok (stuckText ps k v s) ((key, []), []) := by
    have hpair : pair (cut (preceded multispace0 propertyKey)) parameters (key ++ stuckText ps k v s) =
        .ok (',' :: s) (key, ps.map DParam.meaning ++ [⟨k, some v⟩]) := by
      unfold pair cut preceded map pair
      rw [hl.multispace]
      simp only
      rw [propertyKey_ok hk h1 h2 hstop]
      simp only
      have e : stuckText ps k v s =
          (ps.map DParam.text).flatten ++ (DParam.text ⟨k, some (true, v)⟩ ++ ',' :: s) := by
        simp [stuckText, DParam.text]
      rw [e, parameters_quoted hp hkn hne hv (by decide)]
    have htag : tag [':'] (',' :: s) = .error := tag_error (by decide)
    unfold propertyParts alt separatedPair map
    unfold pair at hpair ⊢
    simp only [hpair, htag]
    rw [validKeySequence_ok hk hstop]
  have hle : lineEnding (stuckText ps k v s) = .error := by
    rw [hr]; exact lineEnding_cons_error (by decide) (by decide)
  unfold property cut map pair
  rw [hparts]
  simp only [opt, hle, mkProperty]
  cases determineValueType key [] with
  | none => rfl
  | some vt => cases vt <;> rfl

/-- in a component, reading stops there with an error -/
theorem body_stuck {key : Str} (hk : KeyOk key) {ps : List DParam} (hp : ∀ p ∈ ps, p.Ok) {k v : Str}
    (hkn : IsName k) (hne : v ≠ []) (hv : '"' ∉ v) (n s : Str) :
    manyTill (componentChild component) (componentEnd n) (key ++ stuckText ps k v s) = .error := by
  obtain ⟨r, hr⟩ := stuck_head ps k v s
  have step : ∀ x, KeyOk x → componentEnd n (x ++ stuckText ps k v s) = .error ∧
      ∃ ch, componentChild component (x ++ stuckText ps k v s) = .ok (stuckText ps k v s) ch := by
    intro x hx
    have hcolon : ':' ∉ x := by
      intro hc
      have := name_keyChar hx.name _ hc
      simp [isKeyChar_colon] at this
    have hle : lineEnding (x ++ stuckText ps k v s) = .error := by
      rw [hr]
      cases x with
      | nil => exact lineEnding_cons_error (by decide) (by decide)
      | cons c x =>
        have := name_keyChar hx.name c (by simp)
        apply lineEnding_cons_error <;> (intro he; subst he; simp [isKeyChar_lf, isKeyChar_cr] at this)
    refine ⟨line_error hle (by rw [hr]; exact prefixNoCase_semi (t := c!"END") (by decide) hcolon), ?_⟩
    refine ⟨.prop ⟨x, [], []⟩, ?_⟩
    · have hb : component (x ++ stuckText ps k v s) = .error :=
        component_error hle (by rw [hr]; exact prefixNoCase_semi (t := c!"BEGIN") (by decide) hcolon)
      have hrest : lineEnding (stuckText ps k v s) = .error := by
        rw [hr]; exact lineEnding_cons_error (by decide) (by decide)
      unfold componentChild cut alt map
      rw [lineSeparated_error hle hb, lineSeparated_ok hle (property_stuck hx.name hx.notEnd hx.notBegin hp hkn hne hv s)
        (many0_lineEnding_none hrest)]
  have hnil : manyTill (componentChild component) (componentEnd n) (stuckText ps k v s) = .error := by
    obtain ⟨h1, ch, h2⟩ := step [] ⟨by simp [IsName], by decide, by decide, by decide, by decide⟩
    rw [List.nil_append] at h1 h2
    rw [manyTill_eq (shrinks_componentChild shrinks_component), h1, h2]
    simp
  obtain ⟨h1, ch, h2⟩ := step key hk
  rw [manyTill_eq (shrinks_componentChild shrinks_component), h1, h2]
  simp only [hnil]
  split <;> rfl

/-- **C81 (violated, for every text).** A line on which a quoted value is followed by a comma is read as its bare name:
all parameters and the value are dropped. -/
theorem quoted_list_dropped {key : Str} (hk : KeyOk key) {ps : List DParam} (hp : ∀ p ∈ ps, p.Ok) {k v : Str}
    (hkn : IsName k) (hne : v ≠ []) (hv : '"' ∉ v) (s : Str) :
    readProperty (key ++ (ps.map DParam.text).flatten ++ (';' :: k ++ '=' :: '"' :: v ++ ['"', ',']) ++ s) =
      some ⟨key, [], []⟩ := by
  have := property_stuck hk.name hk.notEnd hk.notBegin hp hkn hne hv s
  unfold readProperty
  rw [show key ++ (ps.map DParam.text).flatten ++ (';' :: k ++ '=' :: '"' :: v ++ ['"', ',']) ++ s =
    key ++ stuckText ps k v s from by simp [stuckText], this]
  rfl

/-- **C81 (violated, for every text).** With such a line in a component inside a calendar the whole file is rejected. -/
theorem quoted_list_rejected {br : Break} {fs : List Frame} (h : FramesOk br fs) (hne : fs ≠ [])
    {n : Str} {items : List Item} (hf : FramesOk br [(c!"BEGIN:", n, items)])
    {key : Str} (hk : KeyOk key) {ps : List DParam} (hp : ∀ p ∈ ps, p.Ok) {k v : Str}
    (hkn : IsName k) (hnev : v ≠ []) (hv : '"' ∉ v) (s : Str)
    (hq : br = .lf → '\r' ∉ openText br (fs ++ [(c!"BEGIN:", n, items)]) ++
      (key ++ (ps.map DParam.text).flatten ++ (';' :: k ++ '=' :: '"' :: v ++ ['"', ',']) ++ s)) :
    readCalendar (openText br (fs ++ [(c!"BEGIN:", n, items)]) ++
      (key ++ (ps.map DParam.text).flatten ++ (';' :: k ++ '=' :: '"' :: v ++ ['"', ',']) ++ s)) = none := by
  have e : key ++ (ps.map DParam.text).flatten ++ (';' :: k ++ '=' :: '"' :: v ++ ['"', ',']) ++ s =
    key ++ stuckText ps k v s := by simp [stuckText]
  rw [e] at hq ⊢
  have hl : LineHead (key ++ stuckText ps k v s) := by
    obtain ⟨r, hr⟩ := stuck_head ps k v s
    rw [hr]
    cases key with
    | nil => exact ⟨';', r, rfl, by simp⟩
    | cons c k => exact ⟨c, _, rfl, .inl (name_keyChar hk.name c (by simp))⟩
  have hc := open_unclosed h hne hf hl.lineEnding hq (body_stuck hk hp hkn hnev hv n s)
  unfold readCalendar
  rw [components_failure hc]
  rfl

/-- **C81 (violated, for every text).** With such a line among the properties of the calendar itself, the file is
accepted and read as an empty calendar. -/
theorem quoted_list_emptied {br : Break} {b n : Str} {items : List Item} (hf : FramesOk br [(b, n, items)])
    {key : Str} (hk : KeyOk key) {ps : List DParam} (hp : ∀ p ∈ ps, p.Ok) {k v : Str}
    (hkn : IsName k) (hnev : v ≠ []) (hv : '"' ∉ v) (s : Str)
    (hq : br = .lf → '\r' ∉ openText br [(b, n, items)] ++
      (key ++ (ps.map DParam.text).flatten ++ (';' :: k ++ '=' :: '"' :: v ++ ['"', ',']) ++ s)) :
    readCalendar (openText br [(b, n, items)] ++
      (key ++ (ps.map DParam.text).flatten ++ (';' :: k ++ '=' :: '"' :: v ++ ['"', ',']) ++ s)) = some ⟨[], []⟩ := by
  have e : key ++ (ps.map DParam.text).flatten ++ (';' :: k ++ '=' :: '"' :: v ++ ['"', ',']) ++ s =
    key ++ stuckText ps k v s := by simp [stuckText]
  rw [e] at hq ⊢
  have hl : LineHead (key ++ stuckText ps k v s) := by
    obtain ⟨r, hr⟩ := stuck_head ps k v s
    rw [hr]
    cases key with
    | nil => exact ⟨';', r, rfl, by simp⟩
    | cons c k => exact ⟨c, _, rfl, .inl (name_keyChar hk.name c (by simp))⟩
  simp only [FramesOk] at hf
  have hc : component (openText br [(b, n, items)] ++ (key ++ stuckText ps k v s)) = .error := by
    have := component_frame hf.1 hf.2.1 hf.2.2.1 hl.lineEnding (by
      intro hbr; have := hq hbr; simp [openText] at this ⊢; simp [this])
    rw [body_stuck hk hp hkn hnev hv] at this
    simpa [openText] using this
  unfold readCalendar
  rw [components_none (.inl hc)]
  rfl

end Ical

namespace Ical

open Nom Spec

/-- `;DELEGATED-TO="mailto:a@x";CATEGORIES=red,green` is read with both parameters -/
example : @readProperty Uni.ascii c!"ATTENDEE;DELEGATED-TO=\"mailto:a@x\";X-L=red,green:mailto:b@x\r\n" =
    some ⟨c!"ATTENDEE", c!"mailto:b@x", [⟨c!"DELEGATED-TO", some c!"mailto:a@x"⟩, ⟨c!"X-L", some c!"red,green"⟩]⟩ := by
  have := @param_lists_partial Uni.ascii .crlf c!"ATTENDEE"
    [⟨c!"DELEGATED-TO", [⟨true, c!"mailto:a@x"⟩]⟩, ⟨c!"X-L", [⟨false, c!"red"⟩, ⟨false, c!"green"⟩]⟩] c!"mailto:b@x"
    (by decide) (by decide) (by decide)
    (by
      intro p hp
      simp only [List.mem_cons, List.not_mem_nil, or_false] at hp
      rcases hp with rfl | rfl
      · exact .inl ⟨_, rfl, by decide⟩
      · right; decide) (by unfold ValOk; decide) (by decide)
  exact this

/-- the example of RFC 5545, section 3.2.11: nothing is left of the line but its name -/
example : @readProperty Uni.ascii
    c!"ATTENDEE;MEMBER=\"mailto:projectA@example.com\",\"mailto:projectB@example.com\":mailto:janedoe@example.com" =
    some ⟨c!"ATTENDEE", [], []⟩ :=
  @quoted_list_dropped Uni.ascii c!"ATTENDEE" (by decide) [] (by simp) c!"MEMBER" c!"mailto:projectA@example.com"
    (by decide) (by decide) (by decide) c!"\"mailto:projectB@example.com\":mailto:janedoe@example.com"

example : @readCalendar Uni.ascii
    c!"BEGIN:VCALENDAR\nBEGIN:VEVENT\nUID:1\nATTENDEE;MEMBER=\"a\",\"b\":c\nEND:VEVENT\nEND:VCALENDAR\n" = none :=
  @quoted_list_rejected Uni.ascii .lf [(c!"BEGIN:", c!"VCALENDAR", [])]
    (by simp only [FramesOk, ItemsOk]; decide) (by simp) c!"VEVENT"
    [.prop c!"UID" [] c!"1"] (by
      simp only [FramesOk, ItemsOk, Item.Ok, ValOk]
      exact ⟨by decide, by decide, ⟨⟨by decide, by simp, by decide⟩, trivial⟩, trivial⟩) c!"ATTENDEE" (by decide) [] (by simp)
    c!"MEMBER" c!"a" (by decide) (by decide) (by decide) c!"\"b\":c\nEND:VEVENT\nEND:VCALENDAR\n" (by decide)

example : @readCalendar Uni.ascii
    c!"BEGIN:VCALENDAR\nX-A;M=\"a\",\"b\":c\nBEGIN:VEVENT\nUID:1\nEND:VEVENT\nEND:VCALENDAR\n" = some ⟨[], []⟩ :=
  @quoted_list_emptied Uni.ascii .lf c!"BEGIN:" c!"VCALENDAR" []
    (by simp only [FramesOk, ItemsOk]; decide) c!"X-A" (by decide) [] (by simp)
    c!"M" c!"a" (by decide) (by decide) (by decide) c!"\"b\":c\nBEGIN:VEVENT\nUID:1\nEND:VEVENT\nEND:VCALENDAR\n" (by decide)

end Ical
