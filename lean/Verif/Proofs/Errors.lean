import Verif.Spec.Errors
import Verif.Proofs.ParseOpen

/-!
What is in the payload of a failure.
-/

namespace Ical

open Spec

/-! ### parsers that do not fail -/

namespace Nom
variable {α β γ : Type}

/-- gives a result or an error that can be recovered from -/
def NoFail (p : P α) : Prop := ∀ i, p i ≠ .failure

theorem noFail_map {f : α → β} {p : P α} (h : NoFail p) : NoFail (map f p) := by
  intro i
  unfold map
  cases hp : p i with
  | failure => exact (h i hp).elim
  | ok r a => simp
  | error => simp

theorem noFail_opt {p : P α} (h : NoFail p) : NoFail (opt p) := by
  intro i
  unfold opt
  cases hp : p i with
  | failure => exact (h i hp).elim
  | ok r a => simp
  | error => simp

theorem noFail_alt {p q : P α} (hp : NoFail p) (hq : NoFail q) : NoFail (alt p q) := by
  intro i
  unfold alt
  cases h : p i with
  | failure => exact (hp i h).elim
  | ok r a => simp
  | error => exact hq i

theorem noFail_pair {p : P α} {q : P β} (hp : NoFail p) (hq : NoFail q) : NoFail (pair p q) := by
  intro i
  unfold pair
  cases h : p i with
  | failure => exact (hp i h).elim
  | error => simp
  | ok r a =>
    cases h' : q r with
    | failure => exact (hq r h').elim
    | ok r a => simp [h']
    | error => simp [h']

theorem noFail_tag (t : Str) : NoFail (tag t) := by
  intro i; unfold tag; split <;> simp
theorem noFail_takeWhile (f : Char → Bool) : NoFail (takeWhile f) := by
  intro i; simp [takeWhile]
theorem noFail_takeTill1 (f : Char → Bool) : NoFail (takeTill1 f) := by
  intro i; unfold takeTill1; split <;> simp
theorem noFail_takeUntil (t : Str) : NoFail (takeUntil t) := by
  intro i; unfold takeUntil; split <;> simp
theorem noFail_eof : NoFail eof := by
  intro i; unfold eof; split <;> simp
theorem noFail_lineEnding : NoFail lineEnding := by
  intro i; unfold lineEnding; split <;> simp

theorem noFail_many0 {p : P α} (hs : Shrinks p) (h : NoFail p) : NoFail (many0 p) := by
  have : ∀ n i, i.length < n → many0F p n i ≠ .failure := by
    intro n
    induction n with
    | zero => intro i hi; omega
    | succ n ih =>
      intro i hi
      unfold many0F
      cases hp : p i with
      | failure => exact (h i hp).elim
      | error => simp
      | ok r a =>
        simp only
        split
        · simp
        · rename_i hne
          have := (hs _ _ _ hp).length_le
          cases hr : many0F p n r with
          | failure => exact (ih r (by omega) hr).elim
          | ok r a => simp
          | error => simp
  intro i
  exact this _ i (by omega)

end Nom

open Nom

theorem noFail_paramValue : NoFail paramValue :=
  noFail_alt noFail_eof (noFail_alt (noFail_map (noFail_pair (noFail_tag _) (noFail_pair (noFail_takeTill1 _)
    (noFail_tag _)))) (noFail_takeTill1 _))

theorem noFail_propertyRest : NoFail propertyRest :=
  noFail_alt (noFail_takeUntil _) (noFail_alt (noFail_takeUntil _) (noFail_takeWhile _))

theorem noFail_parameters [Uni] : NoFail parameters :=
  noFail_many0 shrinks_parameter (noFail_alt
    (noFail_map (noFail_map (noFail_pair (noFail_pair (noFail_tag _) (noFail_takeWhile _))
      (noFail_map (noFail_pair (noFail_takeWhile _) (noFail_pair (noFail_tag _)
        (noFail_map (noFail_opt noFail_paramValue))))))))
    (noFail_map (noFail_pair (noFail_map (noFail_pair (noFail_pair (noFail_tag _) (noFail_takeWhile _))
      (noFail_takeWhile _))) (noFail_map (noFail_opt (noFail_map (noFail_pair (noFail_tag _) noFail_paramValue)))))))

/-- blank lines are skipped -/
theorem many0_lineEnding (i : Str) : ∃ blank r l, many0 lineEnding i = .ok r l ∧ i = blank ++ r ∧
    ∀ c ∈ blank, c = '\r' ∨ c = '\n' := by
  induction hn : i.length using Nat.strongRecOn generalizing i with
  | _ n ih =>
    cases h : lineEnding i with
    | failure => exact (noFail_lineEnding i h).elim
    | error => exact ⟨[], i, [], many0_error h, rfl, by simp⟩
    | ok r a =>
      have hp : ∃ b, i = b ++ r ∧ b ≠ [] ∧ ∀ c ∈ b, c = '\r' ∨ c = '\n' := by
        unfold lineEnding at h
        split at h
        · cases h; exact ⟨['\n'], rfl, by simp, by simp⟩
        · cases h; exact ⟨['\r', '\n'], rfl, by simp, by simp⟩
        · cases h
      obtain ⟨b, hb, hne, hc⟩ := hp
      have hlt : r.length < i.length := by
        rw [hb]
        have : 0 < b.length := List.length_pos_iff.2 hne
        simp; omega
      obtain ⟨blank, r', l, h1, h2, h3⟩ := ih r.length (by omega) r rfl
      refine ⟨b ++ blank, r', a :: l, many0_ok shrinks_lineEnding h (by omega) h1, by rw [hb, h2]; simp, ?_⟩
      intro c hm
      rcases List.mem_append.1 hm with hm | hm
      · exact hc c hm
      · exact h3 c hm

theorem prefixNoCase_split {t i : Str} (h : prefixNoCase t i = true) :
    ∃ kw s, i = kw ++ s ∧ kw.map lowerAscii = t.map lowerAscii ∧ kw.length = t.length := by
  induction t generalizing i with
  | nil => exact ⟨[], i, rfl, rfl, rfl⟩
  | cons x t ih =>
    cases i with
    | nil => simp [prefixNoCase] at h
    | cons c i =>
      simp only [prefixNoCase, Bool.and_eq_true, beq_iff_eq] at h
      obtain ⟨kw, s, h1, h2, h3⟩ := ih h.2
      exact ⟨c :: kw, s, by rw [h1]; rfl, by simp [h.1, h2], by simp [h3]⟩

namespace EP
variable {α β γ : Type}

/-! ### failures of combinators -/

theorem pair_err_ok {p : EP α} {q : EP β} {i r : Str} {a : α} (h : p.run i = .ok r a) :
    (pair p q).err i = q.err r := by
  simp only [pair, h]

theorem pair_err_error {p : EP α} {q : EP β} {i : Str} (h : p.run i = .error) :
    (pair p q).err i = p.err i := by
  simp only [pair, h]

theorem pair_err_failure {p : EP α} {q : EP β} {i : Str} (h : p.run i = .failure) :
    (pair p q).err i = p.err i := by
  simp only [pair, h]

theorem alt_err_failure {p q : EP α} {i : Str} (h : p.run i = .failure) : (alt p q).err i = p.err i := by
  simp only [alt, h]

theorem alt_err_congr {p p' q : EP α} {i : Str} (h : p.run i = p'.run i) (h' : p.err i = p'.err i) :
    (alt p q).err i = (alt p' q).err i := by
  simp only [alt, h, h']

theorem alt_err_error_failure {p q : EP α} {i : Str} (h : p.run i = .error) (h' : q.run i = .failure) :
    (alt p q).err i = q.err i := by
  simp only [alt, h, h']

theorem lineSeparated_fails {p : EP α} {i : Str} (h : (lineSeparated p).run i = .failure) :
    ∃ blank r, i = blank ++ r ∧ (∀ c ∈ blank, c = '\r' ∨ c = '\n') ∧ p.run r = .failure ∧
      (lineSeparated p).err i = p.err r := by
  obtain ⟨blank, r, l, h1, h2, h3⟩ := many0_lineEnding i
  refine ⟨blank, r, h2, h3, ?_⟩
  have hrun : (lineSeparated p).run i = Ical.lineSeparated p.run i := rfl
  rw [hrun] at h
  unfold Ical.lineSeparated Nom.delimited Nom.map Nom.pair at h
  simp only [h1] at h
  have herr : (lineSeparated p).err i = (pair p (many0 lineEnding)).err r := pair_err_ok (q := pair p _) h1
  rw [herr]
  cases hp : p.run r with
  | error => simp [hp] at h
  | failure =>
    exact ⟨rfl, pair_err_failure hp⟩
  | ok r' a =>
    obtain ⟨b', r'', l', h1', _, _⟩ := many0_lineEnding r'
    simp [hp, h1'] at h

/-- without blank lines before -/
theorem lineSeparated_err_here {p : EP α} {i : Str} (hl : Nom.lineEnding i = .error) (h : p.run i = .failure) :
    (lineSeparated p).err i = p.err i := by
  have hp : (lineSeparated p).err i = (pair p (many0 lineEnding)).err i :=
    pair_err_ok (q := pair p _) (many0_lineEnding_none hl)
  rw [hp, pair_err_failure h]

theorem line_fails {t : Str} {p : EP α} {i : Str} (h : (line t p).run i = .failure) :
    ∃ blank kw s, i = blank ++ kw ++ s ∧ (∀ c ∈ blank, c = '\r' ∨ c = '\n') ∧
      kw.map lowerAscii = t.map lowerAscii ∧ p.run s = .failure ∧ (line t p).err i = p.err s := by
  obtain ⟨blank, r, h1, h2, h3, h4⟩ := lineSeparated_fails h
  have h3' : Nom.preceded (Nom.tagNoCase t) p.run r = .failure := h3
  unfold Nom.preceded Nom.map Nom.pair at h3'
  unfold Nom.tagNoCase at h3'
  by_cases hp : prefixNoCase t r = true
  · simp only [hp, if_true] at h3'
    obtain ⟨kw, s, e1, e2, e3⟩ := prefixNoCase_split hp
    have hd : r.drop t.length = s := by rw [e1, ← e3]; simp
    have herr : (complete (preceded (tagNoCase t) p)).err r = p.err s := by
      refine pair_err_ok (p := tagNoCase t) (a := r.take t.length) ?_
      show Nom.tagNoCase t r = _
      unfold Nom.tagNoCase
      rw [if_pos hp, hd]
    rw [hd] at h3'
    refine ⟨blank, kw, s, by rw [h1, e1]; simp, h2, e2, ?_, by
      show (lineSeparated _).err i = _
      rw [h4, herr]⟩
    cases hs : p.run s with
    | failure => rfl
    | ok r a => simp [hs] at h3'
    | error => simp [hs] at h3'
  · simp [hp] at h3'

theorem componentEnd_fails {name i : Str} (h : (componentEnd name).run i = .failure) :
    ∃ before kw s, i = before ++ kw ++ s ∧ kw.map lowerAscii = c!"end:" ∧ ¬ name <+: s ∧
      (componentEnd name).err i = [(s, .nom c!"Tag"), (s, .context c!"mismatching end")] := by
  obtain ⟨blank, kw, s, h1, _, h3, h4, h5⟩ := line_fails h
  refine ⟨blank, kw, s, h1, h3, ?_, h5⟩
  have h4' : Nom.cut (Nom.tag name) s = .failure := h4
  intro hp
  unfold Nom.cut Nom.tag at h4'
  rw [if_pos (List.isPrefixOf_iff_prefix.2 hp)] at h4'
  cases h4'

theorem manyTill_fails {f : EP α} {g : EP β} (hs : Shrinks f.run) {i : Str}
    (h : (manyTill f g).run i = .failure) :
    ∃ before j, i = before ++ j ∧
      (g.run j = .failure ∧ (manyTill f g).err i = g.err j ∨
        f.run j = .failure ∧ (manyTill f g).err i = f.err j) := by
  have : ∀ n i, i.length < n → Nom.manyTillF f.run g.run n i = .failure →
      ∃ before j, i = before ++ j ∧
        (g.run j = .failure ∧ manyTillErr f g n i = g.err j ∨
          f.run j = .failure ∧ manyTillErr f g n i = f.err j) := by
    intro n
    induction n with
    | zero => intro i hi; omega
    | succ n ih =>
      intro i hi h
      unfold Nom.manyTillF at h
      unfold manyTillErr
      cases hg : g.run i with
      | failure => exact ⟨[], i, rfl, .inl ⟨hg, rfl⟩⟩
      | ok r b => simp [hg] at h
      | error =>
        simp only [hg] at h ⊢
        cases hf : f.run i with
        | failure => exact ⟨[], i, rfl, .inr ⟨hf, rfl⟩⟩
        | error => simp [hf] at h
        | ok r a =>
          simp only [hf] at h ⊢
          by_cases hl : r.length = i.length
          · simp [hl] at h
          · rw [if_neg hl] at h ⊢
            have hsuf := hs _ _ _ hf
            have := hsuf.length_le
            obtain ⟨b, hb⟩ := hsuf
            cases hr : Nom.manyTillF f.run g.run n r with
            | failure =>
              obtain ⟨before, j, h1, h2⟩ := ih r (by omega) hr
              exact ⟨b ++ before, j, by rw [← hb, h1]; simp, h2⟩
            | ok r a => simp [hr] at h
            | error => simp [hr] at h
  exact this _ i (by omega) h

variable [Uni]

theorem property_fails {i : Str} (h : property.run i = .failure) :
    ∃ space s, i = space ++ s ∧ (∀ c ∈ space, c ∈ [' ', '\t', '\r', '\n']) ∧ (c!"END" <+: s ∨ c!"BEGIN" <+: s) ∧
      property.err i = [(s, .nom c!"Satisfy"), (i, .context c!"property cannot be END or BEGIN"),
        (i, .context c!"property")] := by
  let f : Char → Bool := fun c => c == ' ' || c == '\t' || c == '\r' || c == '\n'
  have hm : Nom.multispace0 i = .ok (i.dropWhile f) (i.takeWhile f) := rfl
  refine ⟨i.takeWhile f, i.dropWhile f, List.takeWhile_append_dropWhile.symm, ?_, ?_⟩
  · intro c hc
    have : f c = true := by
      have := List.all_takeWhile (p := f) (l := i)
      rw [List.all_eq_true] at this
      exact this c hc
    simp only [f, Bool.or_eq_true, beq_iff_eq] at this
    simp only [List.mem_cons, List.not_mem_nil, or_false]
    rcases this with ((h | h) | h) | h <;> simp [h]
  · have hrun : property.run i = Ical.property i := rfl
    rw [hrun] at h
    by_cases hk : (c!"END").isPrefixOf (i.dropWhile f) || (c!"BEGIN").isPrefixOf (i.dropWhile f)
    · refine ⟨by simpa [List.isPrefixOf_iff_prefix] using hk, ?_⟩
      have hpk : Ical.propertyKey (i.dropWhile f) = .error := by
        unfold Ical.propertyKey
        rw [if_pos hk]
      have hnk : Nom.cut (Nom.preceded Nom.multispace0 Ical.propertyKey) i = .failure := by
        unfold Nom.cut Nom.preceded Nom.map Nom.pair
        rw [hm]
        simp only [hpk]
      have hnp : Nom.pair (Nom.cut (Nom.preceded Nom.multispace0 Ical.propertyKey)) Ical.parameters i = .failure := by
        unfold Nom.pair
        rw [hnk]
      have hsp : Nom.separatedPair (Nom.pair (Nom.cut (Nom.preceded Nom.multispace0 Ical.propertyKey)) Ical.parameters)
          (Nom.tag [':']) Ical.propertyRest i = .failure := by
        unfold Nom.separatedPair Nom.map
        rw [Nom.pair, hnp]
      have hpp : Ical.propertyParts i = .failure := by
        unfold Ical.propertyParts Nom.alt
        rw [hsp]
      have e1 : (preceded multispace0 propertyKey).err i = [(i.dropWhile f, .nom c!"Satisfy")] :=
        pair_err_ok (p := multispace0) (q := propertyKey) hm
      have e2 : (pair (cut (context c!"property cannot be END or BEGIN" (preceded multispace0 propertyKey)))
          parameters).err i = [(i.dropWhile f, .nom c!"Satisfy"),
            (i, .context c!"property cannot be END or BEGIN")] := by
        rw [pair_err_failure (p := cut (context _ (preceded multispace0 propertyKey))) hnk]
        show (preceded multispace0 propertyKey).err i ++ _ = _
        rw [e1]
        rfl
      have e3 : propertyParts.err i = [(i.dropWhile f, .nom c!"Satisfy"),
            (i, .context c!"property cannot be END or BEGIN")] := by
        refine (alt_err_failure (p := separatedPair (pair (cut (context c!"property cannot be END or BEGIN"
          (preceded multispace0 propertyKey))) parameters) (context c!"property separator" (tag [':'])) propertyRest)
          hsp).trans ?_
        refine (pair_err_failure (p := pair (cut (context c!"property cannot be END or BEGIN"
          (preceded multispace0 propertyKey))) parameters) hnp).trans e2
      have e4 : property.err i = propertyParts.err i ++ [(i, .context c!"property")] :=
        congrArg (· ++ _) (pair_err_failure (p := propertyParts) hpp)
      rw [e4, e3]
      rfl
    · exfalso
      have hpk : Ical.propertyKey (i.dropWhile f) = Ical.validKeySequence (i.dropWhile f) := by
        unfold Ical.propertyKey
        rw [if_neg hk]
      have hnk : ∃ r k, Nom.cut (Nom.preceded Nom.multispace0 Ical.propertyKey) i = .ok r k := by
        unfold Nom.cut Nom.preceded Nom.map Nom.pair
        rw [hm]
        simp only [hpk]
        exact ⟨_, _, rfl⟩
      obtain ⟨r, k, hnk⟩ := hnk
      have hsp : Nom.separatedPair (Nom.pair (Nom.cut (Nom.preceded Nom.multispace0 Ical.propertyKey)) Ical.parameters)
          (Nom.tag [':']) Ical.propertyRest i ≠ .failure := by
        have hpn : Nom.pair (Nom.cut (Nom.preceded Nom.multispace0 Ical.propertyKey)) Ical.parameters i ≠ .failure := by
          unfold Nom.pair
          rw [hnk]
          simp only
          cases hq : Ical.parameters r with
          | failure => exact (noFail_parameters r hq).elim
          | ok r a => simp
          | error => simp
        unfold Nom.separatedPair Nom.map
        rw [Nom.pair]
        cases hq : Nom.pair (Nom.cut (Nom.preceded Nom.multispace0 Ical.propertyKey)) Ical.parameters i with
        | failure => exact (hpn hq).elim
        | error => simp
        | ok r' a =>
          simp only
          cases hz : Nom.pair (Nom.tag [':']) Ical.propertyRest r' with
          | failure => exact (noFail_pair (noFail_tag _) noFail_propertyRest r' hz).elim
          | error => simp
          | ok r a => simp
      have hpp : ∃ r a, Ical.propertyParts i = .ok r a := by
        unfold Ical.propertyParts Nom.alt
        cases hq : Nom.separatedPair (Nom.pair (Nom.cut (Nom.preceded Nom.multispace0 Ical.propertyKey)) Ical.parameters)
          (Nom.tag [':']) Ical.propertyRest i with
        | failure => exact (hsp hq).elim
        | ok r a => exact ⟨r, a, rfl⟩
        | error => exact ⟨_, _, rfl⟩
      obtain ⟨r', a, hpp⟩ := hpp
      unfold Ical.property Nom.cut Nom.map Nom.pair at h
      rw [hpp] at h
      simp only at h
      cases hz : Nom.opt Nom.lineEnding r' with
      | failure => exact (noFail_opt noFail_lineEnding r' hz).elim
      | ok r a => simp [hz] at h
      | error => simp [Nom.opt] at hz; split at hz <;> cases hz

/-! ### components -/

theorem run_componentF (n : Nat) : (componentF n).run = Ical.componentF n := by
  induction n with
  | zero => rfl
  | succ n ih =>
    show Ical.componentBody (componentF n).run = _
    rw [ih]
    rfl

theorem run_componentChild (rec : EP PComp) : (componentChild rec).run = Ical.componentChild rec.run := by
  have hp : property.run = Ical.property := (rfl)
  have h : (componentChild rec).run = Nom.cut (Nom.alt (Nom.map Child.comp (Ical.lineSeparated rec.run))
    (Nom.map Child.prop (Ical.lineSeparated property.run))) := (rfl)
  rw [h, hp]
  rfl

/-- the opening line of a component -/
theorem begin_line_ok {i r name : Str} (h : Ical.line c!"BEGIN:" Ical.validKeySequence i = .ok r name) :
    ∃ before body, OpensBody i name body ∧ body = before ++ r := by
  obtain ⟨blank, t, l, h1, h2, h3⟩ := many0_lineEnding i
  unfold Ical.line Ical.lineSeparated Nom.delimited Nom.map Nom.pair at h
  simp only [h1] at h
  unfold Nom.complete Nom.preceded Nom.map Nom.pair Nom.tagNoCase at h
  by_cases hp : prefixNoCase c!"BEGIN:" t = true
  · simp only [hp, if_true] at h
    obtain ⟨kw, s, e1, e2, e3⟩ := prefixNoCase_split hp
    have hd : t.drop (c!"BEGIN:").length = s := by rw [e1, ← e3]; simp
    rw [hd] at h
    have hv : Ical.validKeySequence s = .ok (s.dropWhile isKeyChar) (s.takeWhile isKeyChar) := rfl
    simp only [hv] at h
    obtain ⟨blank', r', l', h1', h2', h3'⟩ := many0_lineEnding (s.dropWhile isKeyChar)
    simp only [h1'] at h
    cases h
    refine ⟨blank', s.dropWhile isKeyChar, ⟨blank, kw, h3, e2, ?_, ?_, ?_⟩, h2'⟩
    · intro c hc
      have := List.all_takeWhile (p := isKeyChar) (l := s)
      rw [List.all_eq_true] at this
      exact (isKeyChar_iff c).1 (this c hc)
    · intro c hc hn
      have := List.head?_dropWhile_not isKeyChar s
      rw [hc] at this
      simp only at this
      rw [(isKeyChar_iff c).2 hn] at this
      cases this
    · rw [h2, e1]
      simp [List.takeWhile_append_dropWhile]
  · simp [hp] at h

theorem begin_line_noFail : NoFail (Ical.line c!"BEGIN:" Ical.validKeySequence) := by
  refine noFail_map (noFail_pair (noFail_many0 shrinks_lineEnding noFail_lineEnding) (noFail_pair (noFail_map
    (noFail_pair ?_ (noFail_takeWhile _))) (noFail_many0 shrinks_lineEnding noFail_lineEnding)))
  intro i
  unfold Nom.tagNoCase
  split <;> simp

theorem opens_blank {i name body blank : Str} (hb : ∀ c ∈ blank, c = '\r' ∨ c = '\n') (h : OpensBody i name body) :
    OpensBody (blank ++ i) name body := by
  obtain ⟨b, kw, h1, h2, h3, h4, h5⟩ := h
  refine ⟨blank ++ b, kw, ?_, h2, h3, h4, by rw [h5]; simp⟩
  intro c hc
  rcases List.mem_append.1 hc with hc | hc
  · exact hb c hc
  · exact h1 c hc

/-- blank lines before what is blamed do not matter -/
theorem blame_blank {blank : Str} (hb : ∀ c ∈ blank, c = '\r' ∨ c = '\n') {i : Str} {l : List Entry}
    (h : Blame i l) : Blame (blank ++ i) l := by
  induction h with
  | mismatch h h1 h2 h3 => exact .mismatch (opens_blank hb h) h1 h2 h3
  | keyword h h1 h2 h3 h4 h5 => exact .keyword (opens_blank hb h) h1 h2 h3 h4 h5
  | inner h h1 h2 _ => exact .inner (opens_blank hb h) h1 h2

theorem componentChild_fails {rec : EP PComp} {i : Str} (h : (componentChild rec).run i = .failure) :
    (∃ blank r, i = blank ++ r ∧ (∀ c ∈ blank, c = '\r' ∨ c = '\n') ∧ rec.run r = .failure ∧
      (componentChild rec).err i = rec.err r ++ [(i, .context c!"component")]) ∨
    (∃ blank space s, i = blank ++ space ++ s ∧ (∀ c ∈ blank, c = '\r' ∨ c = '\n') ∧
      (∀ c ∈ space, c ∈ [' ', '\t', '\r', '\n']) ∧ (c!"END" <+: s ∨ c!"BEGIN" <+: s) ∧
      (componentChild rec).err i = [(s, .nom c!"Satisfy"),
        (space ++ s, .context c!"property cannot be END or BEGIN"), (space ++ s, .context c!"property"),
        (i, .context c!"component")]) := by
  have hc : (componentChild rec).err i = (alt (map Child.comp (lineSeparated rec))
    (map Child.prop (lineSeparated property))).err i ++ [(i, .context c!"component")] := rfl
  cases hr : (lineSeparated rec).run i with
  | ok r a =>
    exfalso
    rw [run_componentChild] at h
    unfold Ical.componentChild Nom.cut Nom.alt Nom.map at h
    have hr' : Ical.lineSeparated rec.run i = .ok r a := hr
    simp [hr'] at h
  | failure =>
    left
    obtain ⟨blank, r, h1, h2, h3, h4⟩ := lineSeparated_fails hr
    refine ⟨blank, r, h1, h2, h3, ?_⟩
    rw [hc, alt_err_failure (p := map Child.comp (lineSeparated rec))]
    · show (lineSeparated rec).err i ++ _ = _
      rw [h4]
    · show Nom.map Child.comp (lineSeparated rec).run i = _
      unfold Nom.map
      rw [hr]
  | error =>
    right
    have he : (map Child.comp (lineSeparated rec)).run i = .error := by
      show Nom.map Child.comp (lineSeparated rec).run i = _
      unfold Nom.map
      rw [hr]
    have hq : (lineSeparated property).run i = .failure := by
      cases hq : (lineSeparated property).run i with
      | failure => rfl
      | ok r a =>
        exfalso
        rw [run_componentChild] at h
        unfold Ical.componentChild Nom.cut Nom.alt Nom.map at h
        have hr' : Ical.lineSeparated rec.run i = .error := hr
        have hq' : Ical.lineSeparated Ical.property i = .ok r a := hq
        simp [hr', hq'] at h
      | error =>
        exfalso
        obtain ⟨blank, r, l, h1, h2, h3⟩ := many0_lineEnding i
        have hq' : Ical.lineSeparated Ical.property i = .error := hq
        unfold Ical.lineSeparated Nom.delimited Nom.map Nom.pair at hq'
        simp only [h1] at hq'
        cases hp : Ical.property r with
        | failure => simp [hp] at hq'
        | error =>
          unfold Ical.property Nom.cut at hp
          split at hp <;> simp_all
        | ok r' a =>
          obtain ⟨_, _, _, h1', _, _⟩ := many0_lineEnding r'
          simp [hp, h1'] at hq'
    obtain ⟨blank, r, h1, h2, h3, h4⟩ := lineSeparated_fails hq
    obtain ⟨space, s, g1, g2, g3, g4⟩ := property_fails h3
    refine ⟨blank, space, s, by rw [h1, g1]; simp, h2, g2, g3, ?_⟩
    rw [hc, alt_err_error_failure he]
    · show (lineSeparated property).err i ++ _ = _
      rw [h4, g4, g1]
      rfl
    · show Nom.map Child.prop (lineSeparated property).run i = _
      unfold Nom.map
      rw [hq]

/-- Every failure of the component parser blames something. -/
theorem blame_componentF (n : Nat) : ∀ i, i.length < n → (componentF n).run i = .failure →
    Blame i ((componentF n).err i) := by
  induction n with
  | zero => intro i hi; omega
  | succ n ih =>
    intro i hi h
    have hrun : (componentF (n + 1)).run i = Ical.componentBody (componentF n).run i := rfl
    rw [hrun] at h
    have herr : (componentF (n + 1)).err i = match Ical.line c!"BEGIN:" Ical.validKeySequence i with
      | .ok i name =>
        match (manyTill (componentChild (componentF n)) (componentEnd name)).run i with
        | .ok i _ => (many0 (tag ['\n'])).err i
        | _ => (manyTill (componentChild (componentF n)) (componentEnd name)).err i
      | _ => (line c!"BEGIN:" validKeySequence).err i := rfl
    unfold Ical.componentBody at h
    cases hb : Ical.line c!"BEGIN:" Ical.validKeySequence i with
    | failure => exact (begin_line_noFail i hb).elim
    | error => simp [hb] at h
    | ok r name =>
      obtain ⟨before, body, ho, hbody⟩ := begin_line_ok hb
      have hlen : r.length < i.length := by
        obtain ⟨_, kw, _, e, _, _, e'⟩ := ho
        have : kw.length = 6 := by simpa using congrArg List.length e
        rw [e', hbody]
        simp
        omega
      simp only [hb] at h herr
      cases hm : Nom.manyTill (Ical.componentChild (componentF n).run) (Ical.componentEnd name) r with
      | ok r' x =>
        exfalso
        obtain ⟨children, e⟩ := x
        simp only [hm] at h
        cases hz : Nom.many0 (Nom.tag ['\n']) r' with
        | failure => exact (noFail_many0 (shrinks_tag _) (noFail_tag _) r' hz).elim
        | ok r a => simp [hz] at h
        | error => simp [hz] at h
      | error => simp [hm] at h
      | failure =>
        have hm' : (manyTill (componentChild (componentF n)) (componentEnd name)).run r = .failure := hm
        simp only [hm'] at herr
        rw [herr]
        have hsh : Shrinks (componentChild (componentF n)).run := by
          rw [run_componentChild, run_componentF]
          exact shrinks_componentChild (shrinks_componentF n)
        obtain ⟨before', j, hj, hcase⟩ := manyTill_fails hsh hm'
        rcases hcase with ⟨hg, hge⟩ | ⟨hf, hfe⟩
        · obtain ⟨b, kw, s, e1, e2, e3, e4⟩ := componentEnd_fails hg
          rw [hge, e4]
          exact .mismatch ho (before := before ++ before' ++ b) (by rw [hbody, hj, e1]; simp) e2 e3
        · rw [hfe]
          rcases componentChild_fails hf with ⟨blank, t, e1, e2, e3, e4⟩ | ⟨blank, space, s, e1, e2, e3, e4, e5⟩
          · rw [e4]
            refine .inner ho (before := before ++ before') (by rw [hbody, hj]; simp) ?_
            have := ih t (by rw [hj, e1] at hlen; simp at hlen; omega) e3
            rw [e1]
            exact blame_blank e2 this
          · rw [e5]
            exact .keyword ho (before := before ++ before') (by rw [hbody, hj]; simp) e1 e2 e3 e4

/-! ### the recursion without a budget -/

omit [Uni] in
theorem lineSeparated_err_congr {p q : EP α} {i : Str} (hr : ∀ j, j.length ≤ i.length → p.run j = q.run j)
    (he : ∀ j, j.length ≤ i.length → p.err j = q.err j) : (lineSeparated p).err i = (lineSeparated q).err i := by
  obtain ⟨blank, r, l, h1, h2, h3⟩ := many0_lineEnding i
  have hl : r.length ≤ i.length := by rw [h2]; simp
  have hp : (lineSeparated p).err i = (pair p (many0 lineEnding)).err r := pair_err_ok (q := pair p _) h1
  have hq : (lineSeparated q).err i = (pair q (many0 lineEnding)).err r := pair_err_ok (q := pair q _) h1
  rw [hp, hq]
  simp only [pair, hr r hl, he r hl]

theorem componentChild_err_congr {p q : EP PComp} {i : Str} (hr : ∀ j, j.length ≤ i.length → p.run j = q.run j)
    (he : ∀ j, j.length ≤ i.length → p.err j = q.err j) : (componentChild p).err i = (componentChild q).err i := by
  have h : Ical.lineSeparated p.run i = Ical.lineSeparated q.run i := lineSeparated_congr hr
  have h' := lineSeparated_err_congr hr he
  show (alt (map Child.comp (lineSeparated p)) (map Child.prop (lineSeparated property))).err i ++ _ =
    (alt (map Child.comp (lineSeparated q)) (map Child.prop (lineSeparated property))).err i ++ _
  refine congrArg (· ++ _) (alt_err_congr ?_ h')
  show Nom.map Child.comp (Ical.lineSeparated p.run) i = Nom.map Child.comp (Ical.lineSeparated q.run) i
  unfold Nom.map
  rw [h]

omit [Uni] in
theorem manyTillErr_congr {f f' : EP α} {g : EP β} (hs : Shrinks f.run) (n : Nat) : ∀ m i, i.length < n →
    i.length < m → (∀ j, j.length ≤ i.length → f.run j = f'.run j) →
    (∀ j, j.length ≤ i.length → f.err j = f'.err j) → manyTillErr f g n i = manyTillErr f' g m i := by
  induction n with
  | zero => intro m i h; omega
  | succ n ih =>
    intro m i hn hm hr he
    cases m with
    | zero => omega
    | succ m =>
      unfold manyTillErr
      cases g.run i with
      | ok r a => rfl
      | failure => rfl
      | error =>
        simp only
        rw [← hr i (by omega), ← he i (by omega)]
        cases hf : f.run i with
        | error => rfl
        | failure => rfl
        | ok r a =>
          simp only
          have := (hs _ _ _ hf).length_le
          split
          · rfl
          · exact ih m r (by omega) (by omega) (fun j hj => hr j (by omega)) (fun j hj => he j (by omega))

omit [Uni] in
theorem manyTill_err_eq {f : EP α} {g : EP β} (hs : Shrinks f.run) (i : Str) :
    (manyTill f g).err i = match g.run i with
      | .error => match f.run i with
        | .ok r _ => if r.length = i.length then [(r, .nom c!"ManyTill")] else (manyTill f g).err r
        | .error => f.err i ++ [(i, .nom c!"ManyTill")]
        | .failure => f.err i
      | _ => g.err i := by
  show manyTillErr f g (i.length + 1) i = _
  rw [manyTillErr]
  cases g.run i with
  | ok r a => rfl
  | failure => rfl
  | error =>
    simp only
    cases hf : f.run i with
    | error => rfl
    | failure => rfl
    | ok r a =>
      simp only
      have := (hs _ _ _ hf).length_le
      split
      · rfl
      · exact manyTillErr_congr hs _ _ r (by omega) (by omega) (fun _ _ => rfl) (fun _ _ => rfl)

theorem componentBody_err_congr {f f' : EP PComp} {i : Str} (hs : Shrinks f.run)
    (hr : ∀ j, j.length < i.length → f.run j = f'.run j) (he : ∀ j, j.length < i.length → f.err j = f'.err j) :
    (componentBody f).err i = (componentBody f').err i := by
  have e : ∀ f : EP PComp, (componentBody f).err i = match Ical.line c!"BEGIN:" Ical.validKeySequence i with
    | .ok i name =>
      match Nom.manyTill (Ical.componentChild f.run) (Ical.componentEnd name) i with
      | .ok i _ => (many0 (tag ['\n'])).err i
      | _ => manyTillErr (componentChild f) (componentEnd name) (i.length + 1) i
    | _ => (line c!"BEGIN:" validKeySequence).err i := fun f => by
      rw [← run_componentChild]
      rfl
  rw [e, e]
  cases h1 : Ical.line c!"BEGIN:" Ical.validKeySequence i with
  | error => rfl
  | failure => rfl
  | ok r name =>
    have hl := line_lt shrinks_validKeySequence h1
    simp at hl
    have hs' : Shrinks (Ical.componentChild f.run) := shrinks_componentChild hs
    simp only
    rw [Nom.manyTill_congr (f' := Ical.componentChild f'.run) hs'
      (fun j hj => componentChild_congr (fun k hk => hr k (by omega)))]
    rw [manyTillErr_congr (f' := componentChild f') (by rw [run_componentChild]; exact hs') _ (r.length + 1) r
      (by omega) (by omega)
      (fun j hj => by
        rw [run_componentChild, run_componentChild]
        exact componentChild_congr (fun k hk => hr k (by omega)))
      (fun j hj => componentChild_err_congr (fun k hk => hr k (by omega)) (fun k hk => he k (by omega)))]

theorem componentF_err_budget (n : Nat) : ∀ m i, i.length < n → i.length < m →
    (componentF n).err i = (componentF m).err i := by
  induction n with
  | zero => intro m i h; omega
  | succ n ih =>
    intro m i hn hm
    cases m with
    | zero => omega
    | succ m =>
      refine componentBody_err_congr (by rw [run_componentF]; exact shrinks_componentF n) ?_
        (fun j hj => ih m j (by omega) (by omega))
      intro j hj
      rw [run_componentF, run_componentF]
      exact componentF_budget _ _ j (by omega) (by omega)

theorem component_err_eq (i : Str) : component.err i = (componentBody component).err i := by
  refine componentBody_err_congr (by rw [run_componentF]; exact shrinks_componentF _) ?_
    (fun j hj => componentF_err_budget _ (j.length + 1) j hj (by omega))
  intro j hj
  rw [run_componentF]
  exact componentF_budget _ _ j hj (by omega)

theorem component_blame {i : Str} (h : component.run i = .failure) : Blame i (component.err i) := by
  refine blame_componentF (i.length + 1) i (by omega) ?_
  rw [run_componentF]
  exact h

/-! ### open components -/

theorem shrinks_child : Shrinks (componentChild component).run := by
  rw [run_componentChild]
  exact shrinks_componentChild shrinks_component

theorem body_err_append {br : Break} {items : List Item} (h : ItemsOk br items) {name : Str} {s : Str}
    (hs : Nom.lineEnding s = .error) (hq : br = .lf → '\r' ∉ itemsText br items ++ s) :
    (manyTill (componentChild component) (componentEnd name)).err (itemsText br items ++ s) =
      (manyTill (componentChild component) (componentEnd name)).err s := by
  induction items with
  | nil => simp [itemsText]
  | cons it l ih =>
    simp only [ItemsOk] at h
    obtain ⟨hi, hl⟩ := h
    have ih := ih hl (by intro hbr; have := hq hbr; simp [itemsText] at this ⊢; simp [this])
    rw [itemsText, List.append_assoc] at hq ⊢
    obtain ⟨ch, hch1, hch2⟩ := item_child hi l (items_lineEnding hl hs) hq
    rw [manyTill_err_eq shrinks_child]
    have h1 : (componentEnd name).run (it.text br ++ (itemsText br l ++ s)) = .error := item_end hi _ _
    have h2 : (componentChild component).run (it.text br ++ (itemsText br l ++ s)) = .ok (itemsText br l ++ s) ch := by
      rw [run_componentChild]
      exact hch2
    simp only [h1, h2]
    rw [if_neg (by have := item_text_pos br it; simp only [List.length_append]; omega), ih]

/-- one frame whose body goes wrong -/
theorem frame_err {br : Break} {b n : Str} {items : List Item}
    (hb : b.map lowerAscii = c!"begin:") (hn : IsName n) (hi : ItemsOk br items) {t : Str}
    (ht : Nom.lineEnding t = .error) (hq : br = .lf → '\r' ∉ itemsText br items ++ t)
    (hbad : ∀ r x, Nom.manyTill (Ical.componentChild Ical.component) (Ical.componentEnd n) t ≠ .ok r x) :
    component.err (b ++ n ++ br.text ++ itemsText br items ++ t) =
      (manyTill (componentChild component) (componentEnd n)).err t := by
  rw [component_err_eq]
  have h1 : Ical.line c!"BEGIN:" Ical.validKeySequence (b ++ n ++ br.text ++ itemsText br items ++ t) =
      .ok (itemsText br items ++ t) n := by
    rw [List.append_assoc, List.append_assoc, List.append_assoc]
    refine line_ok (br := br) (by rw [hb]; decide) (keyword_lineEnding hb (by decide) (by decide)) ?_
      (items_lineEnding hi ht)
    exact validKeySequence_ok hn (stopsAt_break br)
  have e : ∀ i, (componentBody component).err i = match Ical.line c!"BEGIN:" Ical.validKeySequence i with
    | .ok i name =>
      match Nom.manyTill (Ical.componentChild Ical.component) (Ical.componentEnd name) i with
      | .ok i _ => (many0 (tag ['\n'])).err i
      | _ => (manyTill (componentChild component) (componentEnd name)).err i
    | _ => (line c!"BEGIN:" validKeySequence).err i := fun i => by
      have : Ical.componentChild Ical.component = (componentChild component).run :=
        (run_componentChild component).symm
      rw [this]
      rfl
  rw [e, h1]
  simp only
  rw [body_append hi ht hq, body_err_append hi ht hq]
  cases hm : Nom.manyTill (Ical.componentChild Ical.component) (Ical.componentEnd n) t with
  | ok r x => exact (hbad r x hm).elim
  | error => rfl
  | failure => rfl

/-- the payload of a failure inside open components -/
theorem open_err {br : Break} {fs : List Frame} (h : FramesOk br fs) {b n : Str} {items : List Item}
    (hf : FramesOk br [(b, n, items)]) {t : Str} (ht : Nom.lineEnding t = .error)
    (hq : br = .lf → '\r' ∉ openText br (fs ++ [(b, n, items)]) ++ t)
    (hbody : Nom.manyTill (Ical.componentChild Ical.component) (Ical.componentEnd n) t = .failure) :
    component.err (openText br (fs ++ [(b, n, items)]) ++ t) =
      (manyTill (componentChild component) (componentEnd n)).err t ++
        insideOf br (fs ++ [(b, n, items)]).tail t := by
  induction fs with
  | nil =>
    simp only [FramesOk] at hf
    simp only [List.nil_append, openText, List.append_nil] at hq ⊢
    rw [frame_err hf.1 hf.2.1 hf.2.2.1 ht]
    · simp [insideOf]
    · intro hbr; have := hq hbr; simp at this ⊢; simp [this]
    · intro r x hx; rw [hbody] at hx; cases hx
  | cons f fs ih =>
    obtain ⟨b', n', items'⟩ := f
    simp only [FramesOk] at h
    have hq2 : br = .lf → '\r' ∉ openText br (fs ++ [(b, n, items)]) ++ t := by
      intro hbr; have := hq hbr; simp [openText] at this ⊢; simp [this]
    have hin := ih h.2.2.2 hq2
    have hfail := open_failure h.2.2.2 hf ht hq2 hbody
    have hfs : FramesOk br (fs ++ [(b, n, items)]) := framesOk_append h.2.2.2 hf
    have hle := open_lineEnding hfs ht
    have e : openText br ((b', n', items') :: fs ++ [(b, n, items)]) ++ t =
        b' ++ n' ++ br.text ++ itemsText br items' ++ (openText br (fs ++ [(b, n, items)]) ++ t) := by
      simp [openText]
    rw [e] at hq ⊢
    have hend : Ical.componentEnd n' (openText br (fs ++ [(b, n, items)]) ++ t) = .error := by
      refine Ical.line_error hle ?_
      cases hc : fs ++ [(b, n, items)] with
      | nil => simp at hc
      | cons g gs =>
        obtain ⟨b2, n2, i2⟩ := g
        rw [hc] at hfs
        simp only [FramesOk] at hfs
        obtain ⟨c, s, rfl, hcc⟩ := keyword_head hfs.1
        simp only [openText, List.cons_append]
        exact prefixNoCase_head_ne (by rw [hcc]; decide)
    have hch : Ical.componentChild Ical.component (openText br (fs ++ [(b, n, items)]) ++ t) = .failure := by
      unfold Ical.componentChild Nom.cut Nom.alt Nom.map
      rw [Ical.lineSeparated_failure hle hfail]
    have hmt : Nom.manyTill (Ical.componentChild Ical.component) (Ical.componentEnd n')
        (openText br (fs ++ [(b, n, items)]) ++ t) = .failure := by
      rw [Nom.manyTill_eq (shrinks_componentChild shrinks_component), hend, hch]
    rw [frame_err h.1 h.2.1 h.2.2.1 hle (by intro hbr; have := hq hbr; simp at this ⊢; simp [this])
      (by intro r x hx; rw [hmt] at hx; cases hx)]
    rw [manyTill_err_eq shrinks_child]
    have h1 : (componentEnd n').run (openText br (fs ++ [(b, n, items)]) ++ t) = .error := hend
    have h2 : (componentChild component).run (openText br (fs ++ [(b, n, items)]) ++ t) = .failure := by
      rw [run_componentChild]
      exact hch
    simp only [h1, h2]
    have h3 : (componentChild component).err (openText br (fs ++ [(b, n, items)]) ++ t) =
        component.err (openText br (fs ++ [(b, n, items)]) ++ t) ++
          [(openText br (fs ++ [(b, n, items)]) ++ t, .context c!"component")] := by
      refine congrArg (· ++ _) ((alt_err_failure (p := map Child.comp (lineSeparated component)) ?_).trans
        (lineSeparated_err_here hle hfail))
      show Nom.map Child.comp (Ical.lineSeparated Ical.component) _ = _
      unfold Nom.map
      rw [Ical.lineSeparated_failure hle hfail]
    rw [h3, hin]
    cases hc : fs ++ [(b, n, items)] with
    | nil => simp at hc
    | cons g gs => simp [insideOf, hc]

end EP

end Ical
