import Verif.Spec.Document
import Verif.Proofs.ValueTypes
import Verif.Proofs.Parser

/-!
The parser reads well-formed documents as their meaning.
-/

namespace Ical

open Nom Spec

/-- the next character, if any, does not satisfy `f` -/
def StopsAt (f : Char → Bool) (s : Str) : Prop := ∀ c, s.head? = some c → f c = false

theorem takeWhile_stop {f : Char → Bool} {a b : Str} (ha : ∀ c ∈ a, f c = true) (hb : StopsAt f b) :
    (a ++ b).takeWhile f = a ∧ (a ++ b).dropWhile f = b := by
  induction a with
  | nil =>
    cases b with
    | nil => simp
    | cons c s =>
      have := hb c rfl
      simp [this]
  | cons c s ih =>
    have h1 := ha c (by simp)
    have := ih (fun x hx => ha x (by simp [hx]))
    simp [h1, this]

theorem takeWhile_ok {f : Char → Bool} {a b : Str} (ha : ∀ c ∈ a, f c = true) (hb : StopsAt f b) :
    Nom.takeWhile f (a ++ b) = .ok b a := by
  obtain ⟨h1, h2⟩ := takeWhile_stop ha hb
  simp [Nom.takeWhile, h1, h2]

theorem takeTill1_ok {f : Char → Bool} {a b : Str} (hne : a ≠ []) (ha : ∀ c ∈ a, f c = false)
    (hb : ∀ c, b.head? = some c → f c = true) : takeTill1 f (a ++ b) = .ok b a := by
  obtain ⟨h1, h2⟩ := takeWhile_stop (f := fun c => !f c) (a := a) (b := b) (by simpa using ha)
    (by intro c hc; simp [hb c hc])
  unfold takeTill1
  rw [h1, h2]
  cases a with
  | nil => simp at hne
  | cons c s => rfl

theorem takeTill1_error {f : Char → Bool} {c : Char} {b : Str} (h : f c = true) :
    takeTill1 f (c :: b) = .error := by
  simp [takeTill1, h]

/-! ### Line endings -/

theorem many0_lineEnding_none {i : Str} (h : lineEnding i = .error) : many0 lineEnding i = .ok i [] :=
  many0_error h

theorem lineEnding_break (br : Break) (r : Str) : lineEnding (br.text ++ r) = .ok r br.text := by
  cases br <;> rfl

theorem break_length_pos (br : Break) : 0 < br.text.length := by cases br <;> simp [Break.text]

theorem many0_lineEnding_one (br : Break) {r : Str} (h : lineEnding r = .error) :
    many0 lineEnding (br.text ++ r) = .ok r [br.text] :=
  many0_ok shrinks_lineEnding (lineEnding_break br r)
    (by have := break_length_pos br; simp; omega) (many0_lineEnding_none h)

theorem lineSeparated_ok {α : Type} {p : P α} {i r r' : Str} {a : α} {l : List Str}
    (hi : lineEnding i = .error) (hp : p i = .ok r a) (hr : many0 lineEnding r = .ok r' l) :
    lineSeparated p i = .ok r' a := by
  unfold lineSeparated delimited map pair
  rw [many0_lineEnding_none hi]
  simp only [hp, hr]

theorem lineSeparated_error {α : Type} {p : P α} {i : Str}
    (hi : lineEnding i = .error) (hp : p i = .error) : lineSeparated p i = .error := by
  unfold lineSeparated delimited map pair
  rw [many0_lineEnding_none hi]
  simp only [hp]

theorem lineSeparated_failure {α : Type} {p : P α} {i : Str}
    (hi : lineEnding i = .error) (hp : p i = .failure) : lineSeparated p i = .failure := by
  unfold lineSeparated delimited map pair
  rw [many0_lineEnding_none hi]
  simp only [hp]

theorem lineEnding_cons_error {c : Char} {s : Str} (h1 : c ≠ '\n') (h2 : c ≠ '\r') :
    lineEnding (c :: s) = .error := by
  unfold lineEnding
  split <;> simp_all

theorem many0_lf_none {r : Str} (h : lineEnding r = .error) : many0 (tag ['\n']) r = .ok r [] := by
  apply many0_error
  unfold tag
  cases r with
  | nil => rfl
  | cons c s =>
    rw [if_neg]
    intro hc
    simp [List.isPrefixOf] at hc
    subst hc
    simp [lineEnding] at h

/-! ### Keywords -/

theorem char_toNat_ofNat {n : Nat} (h : n.isValidChar) : (Char.ofNat n).toNat = n := by
  simp [Char.ofNat, h, Char.toNat, Char.ofNatAux]

theorem lowerAscii_eq {c y : Char} (hy : ¬ (97 ≤ y.toNat ∧ y.toNat ≤ 122)) (h : lowerAscii c = y) :
    c = y := by
  unfold lowerAscii at h
  split at h
  · rename_i h1
    simp at h1
    exfalso
    have h3 := congrArg Char.toNat h
    rw [char_toNat_ofNat (by unfold Nat.isValidChar; omega)] at h3
    omega
  · exact h

theorem prefixNoCase_iff (t i : Str) :
    prefixNoCase t i = true ↔ t.map lowerAscii = (i.take t.length).map lowerAscii ∧ t.length ≤ i.length := by
  induction t generalizing i with
  | nil => simp [prefixNoCase]
  | cons x t ih =>
    cases i with
    | nil => simp [prefixNoCase]
    | cons c s => simp [prefixNoCase, ih, and_assoc]

theorem tagNoCase_ok {t b s : Str} (h : b.map lowerAscii = t.map lowerAscii) :
    tagNoCase t (b ++ s) = .ok s b := by
  have hl : b.length = t.length := by simpa using congrArg List.length h
  unfold tagNoCase
  rw [if_pos]
  · simp [← hl]
  · rw [prefixNoCase_iff, ← hl]
    simp [h]

/-! ### Names -/

variable [Uni]

theorem isKeyChar_iff (c : Char) : isKeyChar c = true ↔ NameChar c := by
  simp only [isKeyChar, NameChar, Bool.or_eq_true, beq_iff_eq, List.mem_cons, List.not_mem_nil]
  constructor <;> (intro h; rcases h with h | h <;> simp_all)
  · rcases h with (((h | h) | h) | h) | h <;> simp_all
  · rcases h with h | h | h | h | h <;> simp_all

theorem isAlnum_ascii {c : Char} (h : c.toNat < 128) : isAlnum c =
    ((0x30 ≤ c.toNat && c.toNat ≤ 0x39) || (0x41 ≤ c.toNat && c.toNat ≤ 0x5A) ||
    (0x61 ≤ c.toNat && c.toNat ≤ 0x7A)) := by simp [isAlnum, h]

theorem isKeyChar_cr : isKeyChar '\r' = false := by simp [isKeyChar, isAlnum_ascii]
theorem isKeyChar_lf : isKeyChar '\n' = false := by simp [isKeyChar, isAlnum_ascii]
theorem isKeyChar_sp : isKeyChar ' ' = false := by simp [isKeyChar, isAlnum_ascii]
theorem isKeyChar_tab : isKeyChar '\t' = false := by simp [isKeyChar, isAlnum_ascii]
theorem isKeyChar_colon : isKeyChar ':' = false := by simp [isKeyChar, isAlnum_ascii]
theorem isKeyChar_semi : isKeyChar ';' = false := by simp [isKeyChar, isAlnum_ascii]
theorem isKeyChar_eq : isKeyChar '=' = false := by simp [isKeyChar, isAlnum_ascii]
theorem isKeyChar_quote : isKeyChar '"' = false := by simp [isKeyChar, isAlnum_ascii]

theorem name_keyChar {k : Str} (h : IsName k) : ∀ c ∈ k, isKeyChar c = true :=
  fun c hc => (isKeyChar_iff c).2 (h c hc)

theorem name_not_mem {k : Str} (h : IsName k) {c : Char} (hc : isKeyChar c = false) : c ∉ k := by
  intro hm
  have := name_keyChar h c hm
  simp [hc] at this

theorem validKeySequence_ok {k b : Str} (h : IsName k) (hb : StopsAt isKeyChar b) :
    validKeySequence (k ++ b) = .ok b k := takeWhile_ok (name_keyChar h) hb

theorem stopsAt_colon {s : Str} : StopsAt isKeyChar (':' :: s) := by
  intro c hc; simp at hc; subst hc; exact isKeyChar_colon
theorem stopsAt_semi {s : Str} : StopsAt isKeyChar (';' :: s) := by
  intro c hc; simp at hc; subst hc; exact isKeyChar_semi
theorem stopsAt_eq {s : Str} : StopsAt isKeyChar ('=' :: s) := by
  intro c hc; simp at hc; subst hc; exact isKeyChar_eq
theorem stopsAt_break {s : Str} (br : Break) : StopsAt isKeyChar (br.text ++ s) := by
  intro c hc
  cases br <;> simp [Break.text] at hc <;> subst hc
  · exact isKeyChar_cr
  · exact isKeyChar_lf

/-- a name prefix of `k ++ b` lies in `k` when `b` does not start with a name character -/
theorem prefix_of_name {t k b : Str} (ht : ∀ c ∈ t, isKeyChar c = true) (hb : StopsAt isKeyChar b)
    (h : t <+: k ++ b) : t <+: k := by
  induction t generalizing k with
  | nil => exact List.nil_prefix
  | cons c t ih =>
    cases k with
    | nil =>
      obtain ⟨s, hs⟩ := h
      simp at hs
      have := hb c (by rw [← hs]; rfl)
      have h2 := ht c (by simp)
      simp [this] at h2
    | cons d k =>
      rw [List.cons_append, List.cons_prefix_cons] at h
      rw [List.cons_prefix_cons]
      exact ⟨h.1, ih (fun x hx => ht x (by simp [hx])) h.2⟩

theorem END_keyChar : ∀ c ∈ c!"END", isKeyChar c = true := by
  intro c hc
  simp at hc
  rcases hc with h | h | h <;> subst h <;> simp [isKeyChar, isAlnum_ascii]

theorem BEGIN_keyChar : ∀ c ∈ c!"BEGIN", isKeyChar c = true := by
  intro c hc
  simp at hc
  rcases hc with h | h | h | h | h <;> subst h <;> simp [isKeyChar, isAlnum_ascii]

theorem propertyKey_ok {k b : Str} (h : IsName k) (h1 : ¬ c!"END" <+: k) (h2 : ¬ c!"BEGIN" <+: k)
    (hb : StopsAt isKeyChar b) : propertyKey (k ++ b) = .ok b k := by
  unfold propertyKey
  rw [if_neg]
  · exact validKeySequence_ok h hb
  · rw [Bool.or_eq_true, List.isPrefixOf_iff_prefix, List.isPrefixOf_iff_prefix]
    intro hc
    rcases hc with hc | hc
    · exact h1 (prefix_of_name END_keyChar hb hc)
    · exact h2 (prefix_of_name BEGIN_keyChar hb hc)

/-! ### Parameters -/

omit [Uni] in
theorem tag_ok (t s : Str) : tag t (t ++ s) = .ok s t := by
  simp [tag, List.isPrefixOf_iff_prefix]

omit [Uni] in
theorem tag_error {c : Char} {d : Char} {s : Str} (h : c ≠ d) : tag [c] (d :: s) = .error := by
  simp [tag, h]

/-- what may follow a parameter: another one or the colon -/
def ParamStop (b : Str) : Prop := b.head? = some ';' ∨ b.head? = some ':'

theorem ParamStop.stopsAt {b : Str} (h : ParamStop b) : StopsAt isKeyChar b := by
  intro c hc
  rcases h with h | h <;> rw [h] at hc <;> cases hc
  · exact isKeyChar_semi
  · exact isKeyChar_colon

omit [Uni] in
theorem space0_ok {b : Str} (h : StopsAt (fun c => c == ' ' || c == '\t') b) : space0 b = .ok b [] :=
  takeWhile_ok (a := []) (by simp) h

theorem stops_space {k b : Str} (h : IsName k) (hb : StopsAt (fun c => c == ' ' || c == '\t') b) :
    StopsAt (fun c => c == ' ' || c == '\t') (k ++ b) := by
  cases k with
  | nil => simpa using hb
  | cons d k =>
    intro c hc
    simp at hc
    subst hc
    have := h d (by simp)
    rw [← isKeyChar_iff] at this
    simp only [Bool.or_eq_false_iff, beq_eq_false_iff_ne]
    constructor <;> (intro he; subst he; simp [isKeyChar_sp, isKeyChar_tab] at this)

omit [Uni] in
theorem paramValue_plain {v b : Str} (hb : ParamStop b) (hne : v ≠ []) (h1 : ':' ∉ v) (h2 : ';' ∉ v)
    (h3 : ¬ ['"'] <+: v) : paramValue (v ++ b) = .ok b v := by
  have hq : tag ['"'] (v ++ b) = .error := by
    cases v with
    | nil => simp at hne
    | cons c s => exact tag_error (by intro h; subst h; exact h3 ⟨s, rfl⟩)
  have ht : takeTill1 (fun x => x == ';' || x == ':') (v ++ b) = .ok b v := by
    apply takeTill1_ok hne
    · intro c hc
      simp only [Bool.or_eq_false_iff, beq_eq_false_iff_ne]
      exact ⟨fun h => h2 (h ▸ hc), fun h => h1 (h ▸ hc)⟩
    · intro c hc
      rcases hb with hb | hb <;> rw [hb] at hc <;> cases hc <;> rfl
  have he : eof (v ++ b) = .error := by
    cases v with
    | nil => simp at hne
    | cons c s => simp [eof]
  simp [paramValue, alt, he, delimited, map, pair, hq, ht]

omit [Uni] in
theorem paramValue_quoted {v b : Str} (hne : v ≠ []) (h : '"' ∉ v) :
    paramValue (['"'] ++ v ++ ['"'] ++ b) = .ok b v := by
  have ht : isNot '"' (v ++ (['"'] ++ b)) = .ok (['"'] ++ b) v := by
    apply takeTill1_ok hne
    · intro c hc
      simp only [beq_eq_false_iff_ne]
      exact fun he => h (he ▸ hc)
    · intro c hc
      simp at hc
      subst hc
      rfl
  have he : eof (['"'] ++ v ++ ['"'] ++ b) = .error := by simp [eof]
  unfold paramValue alt
  rw [he]
  simp only [delimited, map, pair]
  rw [List.append_assoc, List.append_assoc, tag_ok]
  simp only [ht]
  rw [tag_ok]

omit [Uni] in
theorem paramValue_empty {b : Str} (hb : ParamStop b) : paramValue b = .error := by
  cases b with
  | nil => rcases hb with h | h <;> simp at h
  | cons c s =>
    rcases hb with h | h <;> (simp at h; subst h; rfl)

omit [Uni] in
theorem stops_space_param {b : Str} (hb : ParamStop b) : StopsAt (fun c => c == ' ' || c == '\t') b := by
  intro c hc
  rcases hb with h | h <;> rw [h] at hc <;> cases hc <;> rfl

theorem parameter_ok {p : DParam} {b : Str} (h : p.Ok) (hb : ParamStop b) :
    parameter (p.text ++ b) = .ok b p.meaning := by
  obtain ⟨key, val⟩ := p
  obtain ⟨hk, hv⟩ := h
  simp only at hk hv
  -- the `;KEY` part
  have hkey : ∀ s, StopsAt isKeyChar s → StopsAt (fun c => c == ' ' || c == '\t') s →
      pair (tag [';']) space0 ([';'] ++ key ++ s) = .ok (key ++ s) ([';'], []) ∧
      validKeySequence (key ++ s) = .ok s key := by
    intro s hs hs2
    constructor
    · unfold pair
      rw [List.append_assoc, tag_ok]
      simp only
      rw [space0_ok (stops_space hk hs2)]
    · exact validKeySequence_ok hk hs
  cases val with
  | none =>
    have he := hkey b hb.stopsAt (stops_space_param hb)
    have htag : tag ['='] b = .error := by
      cases b with
      | nil => rfl
      | cons c s => rcases hb with h | h <;> (simp at h; subst h; rfl)
    have h1 : pairParameter ([';'] ++ key ++ b) = .error := by
      unfold pairParameter map preceded map
      unfold pair at he ⊢
      simp only [he.1, separatedPair, map]
      unfold pair
      simp only [he.2, htag]
    have h2 : baseParameter ([';'] ++ key ++ b) = .ok b ⟨key, none⟩ := by
      unfold baseParameter map preceded map
      unfold pair at he ⊢
      simp only [he.1, he.2, opt, htag, removeEmpty]
    simp only [DParam.text, DParam.meaning, parameter, alt, h1, h2]
  | some qv =>
    obtain ⟨q, v⟩ := qv
    have key_eq : ∀ s, pairParameter ([';'] ++ key ++ (['='] ++ s)) =
        match paramValue s with
        | .ok r v => .ok r ⟨key, removeEmpty (some v)⟩
        | .error => .ok s ⟨key, none⟩
        | .failure => .failure := by
      intro s
      have he := hkey (['='] ++ s) stopsAt_eq (by intro c hc; simp at hc; subst hc; rfl)
      unfold pairParameter map preceded map
      unfold pair at he ⊢
      simp only [he.1, separatedPair, map]
      unfold pair
      simp only [he.2]
      rw [tag_ok]
      simp only [opt]
      cases paramValue s <;> simp [removeEmpty]
    cases q with
    | true =>
      obtain ⟨hne, hq⟩ := hv
      have h1 := key_eq (['"'] ++ v ++ ['"'] ++ b)
      rw [paramValue_quoted hne hq] at h1
      have : DParam.text ⟨key, some (true, v)⟩ ++ b =
          [';'] ++ key ++ (['='] ++ (['"'] ++ v ++ ['"'] ++ b)) := by simp [DParam.text]
      rw [this]
      unfold parameter alt
      rw [h1]
      simp [DParam.meaning, hne, removeEmpty]
    | false =>
      obtain ⟨ha, hb', hc⟩ := hv
      have : DParam.text ⟨key, some (false, v)⟩ ++ b =
          [';'] ++ key ++ (['='] ++ (v ++ b)) := by simp [DParam.text]
      rw [this]
      have h1 := key_eq (v ++ b)
      by_cases hne : v = []
      · subst hne
        simp only [List.nil_append, paramValue_empty hb] at h1 ⊢
        unfold parameter alt
        rw [h1]
        simp [DParam.meaning]
      · rw [paramValue_plain hb hne ha hb' hc] at h1
        unfold parameter alt
        rw [h1]
        simp [DParam.meaning, hne, removeEmpty]

omit [Uni] in
theorem paramText_pos (p : DParam) : 0 < p.text.length := by
  obtain ⟨k, v⟩ := p
  unfold DParam.text
  split <;> simp <;> omega

omit [Uni] in
theorem paramText_head (p : DParam) : p.text.head? = some ';' := by
  obtain ⟨k, v⟩ := p
  unfold DParam.text
  split <;> simp

theorem parameters_ok {ps : List DParam} {b : Str} (h : ∀ p ∈ ps, p.Ok) :
    parameters ((ps.map DParam.text).flatten ++ (':' :: b)) = .ok (':' :: b) (ps.map DParam.meaning) := by
  induction ps with
  | nil => exact many0_error (by rfl)
  | cons p ps ih =>
    have hs : ParamStop ((ps.map DParam.text).flatten ++ (':' :: b)) := by
      cases ps with
      | nil => right; rfl
      | cons q qs =>
        left
        have := paramText_head q
        cases hq : q.text with
        | nil => simp [hq] at this
        | cons c s => simp [hq] at this ⊢; exact this
    have h1 := parameter_ok (h p (by simp)) hs
    simp only [List.map_cons, List.flatten_cons, List.append_assoc]
    refine many0_ok shrinks_parameter h1 ?_ (ih (fun q hq => h q (by simp [hq])))
    have := paramText_pos p
    simp; omega

/-! ### Content lines -/

omit [Uni] in
theorem findSub_crlf {v r : Str} (h : ¬ ['\r', '\n'] <:+: v) :
    findSub ['\r', '\n'] (v ++ '\r' :: '\n' :: r) = some (v, '\r' :: '\n' :: r) := by
  induction v with
  | nil => simp [findSub]
  | cons c v ih =>
    have hv : ¬ ['\r', '\n'] <:+: v := fun hc => h (hc.trans (List.suffix_cons c v).isInfix)
    rw [List.cons_append, findSub, if_neg, ih hv]
    rw [List.isPrefixOf_iff_prefix]
    intro hp
    rw [List.cons_prefix_cons] at hp
    obtain ⟨hc, hp⟩ := hp
    cases v with
    | nil => simp at hp
    | cons d v =>
      rw [List.cons_append, List.cons_prefix_cons] at hp
      apply h
      rw [← hc, ← hp.1]
      exact ⟨[], v, by simp⟩

omit [Uni] in
theorem findSub_lf {v r : Str} (h : '\n' ∉ v) :
    findSub ['\n'] (v ++ '\n' :: r) = some (v, '\n' :: r) := by
  induction v with
  | nil => simp [findSub]
  | cons c v ih =>
    simp at h
    rw [List.cons_append, findSub, if_neg, ih h.2]
    simp [h.1]

omit [Uni] in
theorem findSub_crlf_none {s : Str} (h : '\r' ∉ s) : findSub ['\r', '\n'] s = none := by
  induction s with
  | nil => simp [findSub]
  | cons c s ih =>
    simp at h
    rw [findSub, if_neg, ih h.2]
    simp [h.1]

omit [Uni] in
theorem propertyRest_ok {br : Break} {v r : Str} (hv : ValOk br v) (hr : br = .lf → '\r' ∉ v ++ r) :
    propertyRest (v ++ (br.text ++ r)) = .ok (br.text ++ r) v := by
  cases br with
  | crlf =>
    unfold propertyRest alt takeUntil
    rw [Break.text, List.cons_append, List.cons_append, List.nil_append, findSub_crlf hv]
  | lf =>
    unfold propertyRest alt takeUntil
    rw [Break.text, List.cons_append, List.nil_append, findSub_crlf_none, findSub_lf hv]
    have := hr rfl
    simp at this ⊢
    exact this

theorem mkProperty_meaning (key : Str) (params : List DParam) (val : Str) :
    mkProperty ((key, params.map DParam.meaning), val) = meaningProp key params val := by
  have h : determineValueType key (params.map DParam.meaning) = valueTypeOf key params := by
    unfold determineValueType valueTypeOf
    cases (params.map DParam.meaning).find? (fun p => p.key == c!"VALUE") with
    | none => simp
    | some p =>
      simp only [Option.bind_some]
      cases p.val.bind ValueType.fromStr <;> simp
  rw [meaningProp_eq]
  unfold mkProperty
  simp only [h]
  cases valueTypeOf key params with
  | none => simp
  | some vt => cases vt <;> simp [unescapeByValueType]

/-- the first character of a content line -/
def LineHead (s : Str) : Prop := ∃ c r, s = c :: r ∧ (isKeyChar c = true ∨ c = ';' ∨ c = ':')

theorem lineHead_prop {key : Str} (h : IsName key) (params : List DParam) (val : Str) (s : Str) :
    LineHead (key ++ (params.map DParam.text).flatten ++ [':'] ++ val ++ s) := by
  cases key with
  | cons c k =>
    exact ⟨c, _, by simp; rfl, .inl (name_keyChar h c (by simp))⟩
  | nil =>
    cases params with
    | nil => exact ⟨':', _, by simp; rfl, by simp⟩
    | cons p ps =>
      have := paramText_head p
      cases hp : p.text with
      | nil => simp [hp] at this
      | cons d t =>
        simp [hp] at this
        exact ⟨d, _, by simp [hp]; rfl, .inr (.inl this)⟩

theorem LineHead.lineEnding {s : Str} (h : LineHead s) : lineEnding s = .error := by
  obtain ⟨c, r, rfl, h⟩ := h
  apply lineEnding_cons_error <;> (intro he; subst he; simp [isKeyChar_lf, isKeyChar_cr] at h)

theorem LineHead.multispace {s : Str} (h : LineHead s) : multispace0 s = .ok s [] := by
  obtain ⟨c, r, rfl, h⟩ := h
  apply takeWhile_ok (a := []) (by simp)
  intro d hd
  simp only [List.head?_cons, Option.some.injEq] at hd
  subst hd
  simp only [Bool.or_eq_false_iff, beq_eq_false_iff_ne]
  refine ⟨⟨⟨?_, ?_⟩, ?_⟩, ?_⟩ <;>
    (intro he; subst he; simp [isKeyChar_lf, isKeyChar_cr, isKeyChar_sp, isKeyChar_tab] at h)

theorem params_stop (params : List DParam) (s : Str) :
    StopsAt isKeyChar ((params.map DParam.text).flatten ++ (':' :: s)) := by
  cases params with
  | nil => exact stopsAt_colon
  | cons p ps =>
    have := paramText_head p
    cases hp : p.text with
    | nil => simp [hp] at this
    | cons d t =>
      simp [hp] at this
      subst this
      simp only [List.map_cons, hp, List.flatten_cons, List.cons_append]
      exact stopsAt_semi

theorem property_ok {br : Break} {key : Str} {params : List DParam} {val r : Str}
    (hk : IsName key) (h1 : ¬ c!"END" <+: key) (h2 : ¬ c!"BEGIN" <+: key)
    (hp : ∀ p ∈ params, p.Ok) (hv : ValOk br val) (hr : br = .lf → '\r' ∉ val ++ r) :
    property ((Item.prop key params val).text br ++ r) = .ok r (meaningProp key params val) := by
  have hl := lineHead_prop hk params val (br.text ++ r)
  have e : (Item.prop key params val).text br ++ r =
      key ++ ((params.map DParam.text).flatten ++ (':' :: (val ++ (br.text ++ r)))) := by
    simp [Item.text]
  have e' : key ++ (params.map DParam.text).flatten ++ [':'] ++ val ++ (br.text ++ r) =
      key ++ ((params.map DParam.text).flatten ++ (':' :: (val ++ (br.text ++ r)))) := by simp
  rw [e'] at hl
  rw [e]
  have hparts : propertyParts (key ++ ((params.map DParam.text).flatten ++ (':' :: (val ++ (br.text ++ r)))))
      = .ok (br.text ++ r) ((key, params.map DParam.meaning), val) := by
    unfold propertyParts alt separatedPair map
    have : pair (cut (preceded multispace0 propertyKey)) parameters
        (key ++ ((params.map DParam.text).flatten ++ (':' :: (val ++ (br.text ++ r))))) =
        .ok (':' :: (val ++ (br.text ++ r))) (key, params.map DParam.meaning) := by
      unfold pair cut preceded map pair
      rw [hl.multispace]
      simp only
      rw [propertyKey_ok hk h1 h2 (params_stop params _)]
      simp only
      rw [parameters_ok hp]
    unfold pair at this ⊢
    simp only [this]
    rw [show ':' :: (val ++ (br.text ++ r)) = [':'] ++ (val ++ (br.text ++ r)) from rfl, tag_ok]
    simp only
    rw [propertyRest_ok hv hr]
  unfold property cut map pair
  rw [hparts]
  simp only [opt, lineEnding_break, mkProperty_meaning]

/-! ### Components -/

/-- the children a sequence of elements stands for -/
def itemsChildren : List Item → List Child
  | [] => []
  | .prop key params val :: l => .prop (meaningProp key params val) :: itemsChildren l
  | .comp _ _ name items :: l => .comp (.mk name (itemsProps items) (itemsComps items)) :: itemsChildren l

omit [Uni] in
theorem childProps_items (l : List Item) : childProps (itemsChildren l) = itemsProps l := by
  induction l with
  | nil => simp [itemsChildren, childProps, itemsProps]
  | cons i l ih =>
    cases i with
    | prop k p v => simp only [itemsChildren, itemsProps, ← ih]; rfl
    | comp b e n l' => simp only [itemsChildren, itemsProps, ← ih]; rfl

omit [Uni] in
theorem childComps_items (l : List Item) : childComps (itemsChildren l) = itemsComps l := by
  induction l with
  | nil => simp [itemsChildren, childComps, itemsComps]
  | cons i l ih =>
    cases i with
    | prop k p v => simp only [itemsChildren, itemsComps, ← ih]; rfl
    | comp b e n l' => simp only [itemsChildren, itemsComps, ← ih]; rfl

omit [Uni] in
/-- a text that starts with a keyword: first letter known up to case -/
theorem keyword_head {b : Str} {t : Str} {x : Char} (h : b.map lowerAscii = x :: t) :
    ∃ c r, b = c :: r ∧ lowerAscii c = x := by
  cases b with
  | nil => simp at h
  | cons c r => simp at h; exact ⟨c, r, rfl, h.1⟩

omit [Uni] in
theorem lower_ne_break {c : Char} {x : Char} (h : lowerAscii c = x) (h1 : x ≠ '\n') (h2 : x ≠ '\r') :
    c ≠ '\n' ∧ c ≠ '\r' := by
  constructor <;> (intro he; subst he; simp [lowerAscii] at h; simp_all [eq_comm])

omit [Uni] in
theorem keyword_lineEnding {b s : Str} {t : Str} {x : Char} (h : b.map lowerAscii = x :: t)
    (h1 : x ≠ '\n') (h2 : x ≠ '\r') : lineEnding (b ++ s) = .error := by
  obtain ⟨c, r, rfl, hc⟩ := keyword_head h
  have := lower_ne_break hc h1 h2
  exact lineEnding_cons_error this.1 this.2

omit [Uni] in
theorem tagNoCase_error {t : Str} {i : Str} (h : prefixNoCase t i = false) : tagNoCase t i = .error := by
  simp [tagNoCase, h]

omit [Uni] in
theorem line_error {α : Type} {t : Str} {p : P α} {i : Str} (hl : lineEnding i = .error)
    (h : prefixNoCase t i = false) : line t p i = .error := by
  apply lineSeparated_error hl
  unfold complete preceded map pair
  rw [tagNoCase_error h]

/-- a content line does not look like a keyword line -/
theorem prefixNoCase_prop {key : Str} {t : Str} {params : List DParam} {val s : Str}
    (hk : IsName key) (hne : key.map lowerAscii ≠ t.map lowerAscii)
    (ht : ∀ c ∈ t, lowerAscii c ≠ ';' ∧ lowerAscii c ≠ ':') :
    prefixNoCase (t ++ [':']) (key ++ ((params.map DParam.text).flatten ++ (':' :: (val ++ s)))) = false := by
  induction key generalizing t with
  | nil =>
    cases t with
    | nil => simp at hne
    | cons x t =>
      have hx := ht x (by simp)
      cases params with
      | nil => simp [prefixNoCase, lowerAscii] at hx ⊢; exact fun h => absurd h hx.2
      | cons p ps =>
        have := paramText_head p
        cases hp : p.text with
        | nil => simp [hp] at this
        | cons d u =>
          simp [hp] at this
          subst this
          simp [hp, prefixNoCase, lowerAscii] at hx ⊢
          exact fun h => absurd h hx.1
  | cons c k ih =>
    have hc := name_keyChar hk c (by simp)
    cases t with
    | nil =>
      simp only [List.nil_append, List.cons_append, prefixNoCase, Bool.and_true, beq_eq_false_iff_ne]
      intro he
      have : c = ':' := lowerAscii_eq (by decide) he.symm
      subst this
      simp [isKeyChar_colon] at hc
    | cons x t =>
      simp only [List.cons_append, prefixNoCase]
      by_cases hx : lowerAscii x = lowerAscii c
      · have := ih (t := t) (fun d hd => hk d (by simp [hd]))
          (by intro h; apply hne; simp [h, hx]) (fun d hd => ht d (by simp [hd]))
        rw [this]; simp
      · simp [hx]

omit [Uni] in
theorem line_ok {α : Type} {br : Break} {t b : Str} {p : P α} {i r : Str} {a : α}
    (hb : b.map lowerAscii = t.map lowerAscii) (hl : lineEnding (b ++ i) = .error)
    (hp : p i = .ok (br.text ++ r) a) (hr : lineEnding r = .error) : line t p (b ++ i) = .ok r a := by
  apply lineSeparated_ok hl (r := br.text ++ r) _ (many0_lineEnding_one br hr)
  unfold complete preceded map pair
  rw [tagNoCase_ok hb]
  simp only [hp]

theorem keyOk_line {key : Str} (hk : KeyOk key) (params : List DParam) (val s : Str) {t : Str}
    (ht : t = c!"END" ∨ t = c!"BEGIN") : prefixNoCase (t ++ [':'])
      (key ++ ((params.map DParam.text).flatten ++ (':' :: (val ++ s)))) = false := by
  rcases ht with rfl | rfl
  · exact prefixNoCase_prop hk.name hk.notEndAnyCase (by decide)
  · exact prefixNoCase_prop hk.name hk.notBeginAnyCase (by decide)

omit [Uni] in
/-- a keyword line of the other kind -/
theorem prefixNoCase_head_ne {x : Char} {t : Str} {c : Char} {s : Str}
    (h : lowerAscii x ≠ lowerAscii c) : prefixNoCase (x :: t) (c :: s) = false := by
  simp [prefixNoCase, h]

omit [Uni] in
theorem item_text_pos (br : Break) (it : Item) : 0 < (it.text br).length := by
  have := break_length_pos br
  cases it <;> simp [Item.text] <;> omega

omit [Uni] in
/-- the end of a component -/
theorem componentEnd_ok {br : Break} {e name r : Str} (he : e.map lowerAscii = c!"end:")
    (hr : lineEnding r = .error) : componentEnd name (e ++ name ++ br.text ++ r) = .ok r name := by
  rw [List.append_assoc, List.append_assoc]
  refine line_ok (br := br) (by rw [he]; decide) (keyword_lineEnding he (by decide) (by decide)) ?_ hr
  unfold cut
  rw [tag_ok]

/-- the text of an element, or of the line that closes a component, is not blank -/
theorem item_lineEnding {br : Break} {it : Item} (h : it.Ok br) (s : Str) :
    lineEnding (it.text br ++ s) = .error := by
  cases it with
  | prop key params val =>
    simp only [Item.Ok] at h
    have := (lineHead_prop h.1.name params val (br.text ++ s)).lineEnding
    simpa [Item.text] using this
  | comp b e name items =>
    simp only [Item.Ok] at h
    simp only [Item.text, List.append_assoc]
    exact keyword_lineEnding h.1 (by decide) (by decide)

theorem items_lineEnding {br : Break} {l : List Item} (h : ItemsOk br l) {s : Str}
    (hs : lineEnding s = .error) : lineEnding (itemsText br l ++ s) = .error := by
  cases l with
  | nil => simpa [itemsText] using hs
  | cons i l =>
    simp only [ItemsOk] at h
    rw [itemsText, List.append_assoc]
    exact item_lineEnding h.1 _

mutual
/-- reading one component -/
theorem component_ok {br : Break} {b e name : Str} {items : List Item} (h : (Item.comp b e name items).Ok br)
    {r : Str} (hr : lineEnding r = .error)
    (hq : br = .lf → '\r' ∉ (Item.comp b e name items).text br ++ r) :
    component ((Item.comp b e name items).text br ++ r) =
      .ok r (.mk name (itemsProps items) (itemsComps items)) := by
  simp only [Item.Ok] at h
  obtain ⟨hb, he, hn, hi⟩ := h
  have e1 : (Item.comp b e name items).text br ++ r =
      b ++ (name ++ (br.text ++ (itemsText br items ++ (e ++ name ++ br.text ++ r)))) := by
    simp [Item.text]
  rw [e1] at hq ⊢
  rw [component_eq]
  unfold componentBody
  have hend : lineEnding (e ++ name ++ br.text ++ r) = .error := by
    rw [List.append_assoc, List.append_assoc]
    exact keyword_lineEnding he (by decide) (by decide)
  have h1 : line c!"BEGIN:" validKeySequence
      (b ++ (name ++ (br.text ++ (itemsText br items ++ (e ++ name ++ br.text ++ r))))) =
      .ok (itemsText br items ++ (e ++ name ++ br.text ++ r)) name :=
    line_ok (br := br) (by rw [hb]; decide) (keyword_lineEnding hb (by decide) (by decide))
      (validKeySequence_ok hn (stopsAt_break br)) (items_lineEnding hi hend)
  rw [h1]
  simp only
  rw [body_ok hi he hr (by intro hbr; have := hq hbr; simp at this ⊢; simp [this])]
  simp only
  rw [many0_lf_none hr]
  simp only [childProps_items, childComps_items]

/-- reading the body of a component -/
theorem body_ok {br : Break} {items : List Item} (h : ItemsOk br items) {e name : Str}
    (he : e.map lowerAscii = c!"end:") {r : Str} (hr : lineEnding r = .error)
    (hq : br = .lf → '\r' ∉ itemsText br items ++ (e ++ name ++ br.text ++ r)) :
    manyTill (componentChild component) (componentEnd name)
      (itemsText br items ++ (e ++ name ++ br.text ++ r)) = .ok r (itemsChildren items, name) := by
  have hend : lineEnding (e ++ name ++ br.text ++ r) = .error := by
    rw [List.append_assoc, List.append_assoc]
    exact keyword_lineEnding he (by decide) (by decide)
  match items, h, hq with
  | [], _, _ =>
    simp only [itemsText, List.nil_append, itemsChildren]
    exact manyTill_stop (componentEnd_ok he hr)
  | .prop key params val :: l, h, hq =>
    simp only [ItemsOk, Item.Ok] at h
    obtain ⟨⟨hk, hp, hv⟩, hl⟩ := h
    rw [itemsText, List.append_assoc] at hq ⊢
    have hrest := items_lineEnding hl hend
    have hle := item_lineEnding (br := br) (it := .prop key params val) (by simp only [Item.Ok]; exact ⟨hk, hp, hv⟩)
      (itemsText br l ++ (e ++ name ++ br.text ++ r))
    have hq' : br = .lf → '\r' ∉ val ++ (itemsText br l ++ (e ++ name ++ br.text ++ r)) := by
      intro hbr; have := hq hbr; simp [Item.text] at this ⊢; simp [this]
    have e1 : (Item.prop key params val).text br ++ (itemsText br l ++ (e ++ name ++ br.text ++ r)) =
        key ++ ((params.map DParam.text).flatten ++ (':' :: (val ++ (br.text ++
          (itemsText br l ++ (e ++ name ++ br.text ++ r)))))) := by simp [Item.text]
    have hpr := property_ok hk.name hk.notEnd hk.notBegin hp hv hq'
    refine manyTill_ok (shrinks_componentChild shrinks_component)
      (r := itemsText br l ++ (e ++ name ++ br.text ++ r)) ?_ ?_ ?_
      (body_ok hl he hr (by intro hbr; have := hq hbr; simp at this ⊢; simp [this]))
    · exact line_error hle (by rw [e1]; exact keyOk_line hk params val _ (.inl rfl))
    · have hb : component ((Item.prop key params val).text br ++
          (itemsText br l ++ (e ++ name ++ br.text ++ r))) = .error := by
        rw [component_eq]
        unfold componentBody
        rw [line_error hle (by rw [e1]; exact keyOk_line hk params val _ (.inr rfl))]
      unfold componentChild cut alt map
      rw [lineSeparated_error hle hb, lineSeparated_ok hle hpr (many0_lineEnding_none hrest)]
    · have := item_text_pos br (.prop key params val)
      simp only [List.length_append] at this ⊢
      omega
  | .comp b e' name' items' :: l, h, hq =>
    simp only [ItemsOk] at h
    obtain ⟨hi, hl⟩ := h
    rw [itemsText, List.append_assoc] at hq ⊢
    have hrest := items_lineEnding hl hend
    have hle := item_lineEnding hi (itemsText br l ++ (e ++ name ++ br.text ++ r))
    refine manyTill_ok (shrinks_componentChild shrinks_component)
      (r := itemsText br l ++ (e ++ name ++ br.text ++ r)) ?_ ?_ ?_
      (body_ok hl he hr (by intro hbr; have := hq hbr; simp at this ⊢; simp [this]))
    · refine line_error hle ?_
      simp only [Item.Ok] at hi
      obtain ⟨c, s, rfl, hc⟩ := keyword_head hi.1
      simp only [Item.text, List.cons_append]
      exact prefixNoCase_head_ne (by rw [hc]; decide)
    · have hc := component_ok hi hrest hq
      unfold componentChild cut alt map
      rw [lineSeparated_ok hle hc (many0_lineEnding_none hrest)]
    · have := item_text_pos br (.comp b e' name' items')
      simp only [List.length_append] at this ⊢
      omega
end

end Ical
