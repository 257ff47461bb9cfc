import Verif.Proofs.WorkBound

/-!
The steps taken by reading a component grow at most quadratically, if every `BEGIN:` that can be reached is written
in upper case letters.
-/

namespace Ical
open Spec (opens UpperBegins NameChar IsName Blank PropReads CompReads BodyReads Break closes)
open Nom (shrinks_many0 shrinks_lineEnding shrinks_tag)

/-! ### positions -/

section
variable [Uni]

/-- a text after which the reader may look for a component -/
def KwPos (a : Str) : Prop := ∃ a' l, a = a' ++ l ∧ (a' = [] ∨ a'.getLast? = some '\n') ∧ '\n' ∉ l ∧
  (l = [] ∨ opens l = true ∨ closes l = true)

/-- a position at which the reader may look for a component, or at which there is none -/
def Pos (a i : Str) : Prop := (opens i = false ∧ closes i = false) ∨ KwPos a

/-- `i` is a rest of `text` at which the reader may look for a component -/
def At (text i : Str) : Prop := ∃ a, text = a ++ i ∧ Pos a i

/-- a consumed text that leads from such a position to such a position -/
def Moves (t f : Str) : Prop := ∀ a, Pos a (t ++ f) → Pos (a ++ t) f

omit [Uni] in
theorem moves_nil {f : Str} : Moves [] f := fun a h => by simpa using h

omit [Uni] in
theorem moves_append {x y f : Str} (h1 : Moves x (y ++ f)) (h2 : Moves y f) : Moves (x ++ y) f := by
  intro a h
  rw [List.append_assoc] at h
  rw [← List.append_assoc]
  exact h2 _ (h1 a h)

omit [Uni] in
theorem moves_lf {t f : Str} : Moves (t ++ ['\n']) f :=
  fun a _ => .inr ⟨a ++ (t ++ ['\n']), [], by simp, .inr (by simp), by simp, .inl rfl⟩

omit [Uni] in
theorem moves_end {t : Str} : Moves t [] := fun _ _ => .inl ⟨by decide, by decide⟩

omit [Uni] in
theorem moves_blank {t f : Str} (h : Blank t) : Moves t f := by
  obtain ⟨bs, rfl⟩ := h
  rcases List.eq_nil_or_concat bs with rfl | ⟨l, b, rfl⟩
  · exact moves_nil
  · cases b with
    | lf => simpa [Break.text] using moves_lf (t := (l.map Break.text).flatten) (f := f)
    | crlf => simpa [Break.text] using moves_lf (t := (l.map Break.text).flatten ++ ['\r']) (f := f)

omit [Uni] in
theorem opens_keyword {k s : Str} (h : k.map lowerAscii = c!"begin:") : opens (k ++ s) = true := by
  have hl : k.length = 6 := by simpa using congrArg List.length h
  simp [opens, List.take_append_of_le_length (Nat.le_of_eq hl.symm), List.take_of_length_le (Nat.le_of_eq hl), h]

omit [Uni] in
theorem closes_keyword {k s : Str} (h : k.map lowerAscii = c!"end:") : closes (k ++ s) = true := by
  have hl : k.length = 4 := by simpa using congrArg List.length h
  simp [closes, List.take_append_of_le_length (Nat.le_of_eq hl.symm), List.take_of_length_le (Nat.le_of_eq hl), h]

omit [Uni] in
theorem opens_split {l : Str} (h : opens l = true) : ∃ k s, l = k ++ s ∧ k.map lowerAscii = c!"begin:" :=
  ⟨l.take 6, l.drop 6, (List.take_append_drop _ _).symm, of_decide_eq_true h⟩

omit [Uni] in
theorem closes_split {l : Str} (h : closes l = true) : ∃ k s, l = k ++ s ∧ k.map lowerAscii = c!"end:" :=
  ⟨l.take 4, l.drop 4, (List.take_append_drop _ _).symm, of_decide_eq_true h⟩

theorem moves_keyword {k n f : Str} (hk : k.map lowerAscii = c!"begin:" ∨ k.map lowerAscii = c!"end:")
    (hn : IsName n) : Moves (k ++ n) f := by
  intro a h
  have hkw : ∀ s, opens (k ++ s) = true ∨ closes (k ++ s) = true := fun s =>
    hk.elim (fun h => .inl (opens_keyword h)) (fun h => .inr (closes_keyword h))
  have hlf : '\n' ∉ k ++ n := by
    intro hm
    rcases List.mem_append.1 hm with hm | hm
    · rcases hk with hk | hk
      · exact keyword_not_mem hk (by decide) hm
      · exact keyword_not_mem hk (by decide) hm
    · have := (isKeyChar_iff _).2 (hn _ hm)
      rw [isKeyChar_lf] at this
      cases this
  right
  rcases h with h | ⟨a', l, rfl, h1, h2, h3⟩
  · have := hkw (n ++ f)
    rw [← List.append_assoc, h.1, h.2] at this
    simp at this
  · refine ⟨a', l ++ (k ++ n), by simp, h1, ?_, .inr ?_⟩
    · intro hm
      rcases List.mem_append.1 hm with hm | hm
      · exact h2 hm
      · exact hlf hm
    · rcases h3 with rfl | h3 | h3
      · exact hkw n
      · obtain ⟨k', s, rfl, hk'⟩ := opens_split h3
        rw [List.append_assoc]
        exact .inl (opens_keyword hk')
      · obtain ⟨k', s, rfl, hk'⟩ := closes_split h3
        rw [List.append_assoc]
        exact .inr (closes_keyword hk')

theorem no_keyword {f : Str} (h : ∀ c ∈ f.head?, ¬ NameChar c) : opens f = false ∧ closes f = false := by
  have hc : ∀ c x, lowerAscii c = x → (x = 'b' ∨ x = 'e') → NameChar c := by
    intro c x h1 h2
    unfold lowerAscii at h1
    split at h1
    · rename_i hx
      simp at hx
      refine .inl ?_
      simp [isAlnum]
      rw [if_pos (by omega)]
      omega
    · subst h1
      rcases h2 with rfl | rfl <;> exact .inl (by simp [isAlnum])
  constructor
  · cases ho : opens f with
    | false => rfl
    | true =>
      obtain ⟨k, s, rfl, hk⟩ := opens_split ho
      obtain ⟨c, r, rfl, hx⟩ := keyword_head hk
      exact absurd (hc _ _ hx (.inl rfl)) (h c (by simp))
  · cases ho : closes f with
    | false => rfl
    | true =>
      obtain ⟨k, s, rfl, hk⟩ := closes_split ho
      obtain ⟨c, r, rfl, hx⟩ := keyword_head hk
      exact absurd (hc _ _ hx (.inr rfl)) (h c (by simp))

theorem moves_property {p : PProp} {t f : Str} (h : PropReads p t f) : Moves t f := by
  obtain ⟨hn, -, -, h⟩ := h
  rcases h with ⟨white, params, raw, br, -, -, -, hb, -, rfl⟩ | ⟨-, -, br, hb, rfl, hf⟩
  · rcases hb with rfl | ⟨rfl, -⟩ | ⟨rfl, -, rfl⟩
    · have := moves_lf (t := white ++ p.name ++ params ++ ':' :: raw ++ ['\r']) (f := f)
      simpa using this
    · exact moves_lf
    · exact moves_end
  · rcases hb with rfl | rfl | rfl
    · have := moves_lf (t := p.name ++ ['\r']) (f := f)
      simpa using this
    · exact moves_lf
    · exact fun _ _ => .inl (no_keyword fun c hc => (hf c (by simpa using hc)).1)

mutual
theorem moves_component : ∀ {c : PComp} {t f : Str}, CompReads c t f → Moves t f
  | _, _, _, .mk (n := n) (lead := lead) (b := b) (gap := gap) (body := body) (last := last) (e := e) (trail := trail)
      (f := f) h1 h2 h3 _ h5 h6 h7 h8 h9 => by
    have h := moves_append (moves_append (moves_append (moves_append (moves_append (moves_append
      (moves_blank (f := b ++ n ++ (gap ++ (body ++ (last ++ (e ++ n ++ (trail ++ f)))))) h1)
      (moves_keyword (f := gap ++ (body ++ (last ++ (e ++ n ++ (trail ++ f))))) (.inl h2) h3))
      (moves_blank (f := body ++ (last ++ (e ++ n ++ (trail ++ f)))) h5))
      (by simpa using moves_body h6 : Moves body (last ++ (e ++ n ++ (trail ++ f)))))
      (moves_blank (f := e ++ n ++ (trail ++ f)) h7))
      (moves_keyword (f := trail ++ f) (.inr h8) h3))
      (moves_blank (f := f) h9)
    simpa using h
theorem moves_body : ∀ {ps : List PProp} {cs : List PComp} {t f : Str}, BodyReads ps cs t f → Moves t f
  | _, _, _, _, .nil => moves_nil
  | _, _, _, _, .prop h1 h2 h3 h4 =>
    moves_append (moves_append (moves_append (moves_blank h1) (by simpa using moves_property h2)) (moves_blank h3))
      (moves_body h4)
  | _, _, _, _, .comp h1 h2 h3 h4 =>
    moves_append (moves_append (moves_append (moves_blank h1) (by simpa using moves_component h2)) (moves_blank h3))
      (moves_body h4)
end

omit [Uni] in
theorem at_step {text i r t : Str} (h : At text i) (hi : i = t ++ r) (ht : Moves t r) : At text r := by
  obtain ⟨a, rfl, ha⟩ := h
  subst hi
  exact ⟨a ++ t, by simp, ht a ha⟩

end

/-! ### breaks -/

theorem breaks_rest {i r : Str} {l : List Str} (h : Nom.many0 Nom.lineEnding i = .ok r l) :
    Nom.lineEnding r = .error := by
  suffices ∀ n i l, Nom.many0F Nom.lineEnding n i = .ok r l → Nom.lineEnding r = .error from this _ _ _ h
  intro n
  induction n with
  | zero => intro i l h; cases h
  | succ n ih =>
    intro i l h
    unfold Nom.many0F at h
    cases hr : Nom.lineEnding i with
    | error => simp only [hr] at h; cases h; exact hr
    | failure => simp [hr] at h
    | ok r1 a =>
      simp only [hr] at h
      split at h
      · cases h
      · cases hm : Nom.many0F Nom.lineEnding n r1 with
        | ok r2 l2 => simp only [hm] at h; cases h; exact ih _ _ hm
        | error => simp [hm] at h
        | failure => simp [hm] at h

theorem sep_eq {α : Type} {p : P α} {i i' : Str} {l : List Str} (h : Nom.many0 Nom.lineEnding i = .ok i' l) :
    lineSeparated p i = lineSeparated p i' := by
  have h' := many0_lineEnding_none (breaks_rest h)
  simp only [lineSeparated, Nom.delimited, Nom.map, Nom.pair, h, h']
  cases p i' with
  | ok r a => simp only; cases Nom.many0 Nom.lineEnding r <;> rfl
  | error => rfl
  | failure => rfl

namespace MP
variable {α : Type}

theorem sep_cost_ok {p : MP α} {N : Nat} {i i' r : Str} {l : List Str} {a : α} (hs : Shrinks p.run) (hi : i.length < N)
    (h : Nom.many0 Nom.lineEnding i = .ok i' l) (hp : p.run i' = .ok r a) :
    (lineSeparated .steps p).cost i ≤ p.cost i' + 6 * N := by
  show (pair .steps (many0 .steps (lineEnding .steps)) (pair .steps p (many0 .steps (lineEnding .steps)))).cost i ≤ _
  have h1 : (many0 .steps (lineEnding .steps)).cost i ≤ 3 * N := lin_breaks N i hi
  have h2 := (shrinks_many0 shrinks_lineEnding _ _ _ h).length_le
  have h3 := (hs _ _ _ hp).length_le
  have h4 : (many0 .steps (lineEnding .steps)).cost r ≤ 3 * N := lin_breaks N r (by omega)
  rw [pair_cost_ok h, pair_cost_ok hp]
  omega

theorem sep_cost_stop {p : MP α} {N : Nat} {i i' : Str} {l : List Str} (hi : i.length < N)
    (h : Nom.many0 Nom.lineEnding i = .ok i' l) (hp : ∀ r a, p.run i' ≠ .ok r a) :
    (lineSeparated .steps p).cost i ≤ p.cost i' + 3 * N := by
  show (pair .steps (many0 .steps (lineEnding .steps)) (pair .steps p (many0 .steps (lineEnding .steps)))).cost i ≤ _
  have h1 : (many0 .steps (lineEnding .steps)).cost i ≤ 3 * N := lin_breaks N i hi
  rw [pair_cost_ok h]
  cases hr : p.run i' with
  | ok r a => exact absurd hr (hp r a)
  | error => rw [pair_cost_error hr]; omega
  | failure => rw [pair_cost_failure hr]; omega

variable [Uni]

/-- what is known about the parser for inner components -/
structure RecOk (text : Str) (N : Nat) (rec : MP PComp) : Prop where
  reads : Reads rec.run CompReads
  ok : ∀ j r x, At text j → j.length < N → rec.run j = .ok r x →
    rec.cost j + 150 * (N * r.length) + 150 * N ≤ 150 * (N * j.length)
  any : ∀ j, At text j → j.length < N → rec.cost j ≤ 450 * (N * j.length) + 20 * N
  quick : ∀ j, j.length < N → Nom.lineEnding j = .error → opens j = false →
    (∀ r x, rec.run j ≠ .ok r x) ∧ rec.cost j ≤ 20 * N

theorem RecOk.shrinks {text : Str} {N : Nat} {rec : MP PComp} (h : RecOk text N rec) : Shrinks rec.run := by
  intro i r x hr
  obtain ⟨t, rfl, -⟩ := h.reads _ _ _ hr
  exact List.suffix_append _ _

theorem child_cost_failure {rec : MP PComp} {i : Str} (h : Ical.lineSeparated rec.run i = .failure) :
    Ical.componentChild rec.run i = .failure ∧
      (componentChild .steps rec).cost i = (lineSeparated .steps rec).cost i := by
  constructor
  · simp [Ical.componentChild, Nom.cut, Nom.alt, Nom.map, h]
  · refine alt_cost_failure ?_
    show Nom.map Child.comp (Ical.lineSeparated rec.run) i = _
    simp [Nom.map, h]

theorem child_cost_ok {rec : MP PComp} {i r : Str} {x : PComp} (h : Ical.lineSeparated rec.run i = .ok r x) :
    Ical.componentChild rec.run i = .ok r (.comp x) ∧
      (componentChild .steps rec).cost i = (lineSeparated .steps rec).cost i := by
  constructor
  · simp [Ical.componentChild, Nom.cut, Nom.alt, Nom.map, h]
  · refine alt_cost_ok (r := r) (a := .comp x) ?_
    show Nom.map Child.comp (Ical.lineSeparated rec.run) i = _
    simp [Nom.map, h]

theorem child_cost_error {rec : MP PComp} {i : Str} (h : Ical.lineSeparated rec.run i = .error) :
    Ical.componentChild rec.run i = Nom.cut (Nom.map Child.prop (Ical.lineSeparated Ical.property)) i ∧
      (componentChild .steps rec).cost i = (lineSeparated .steps rec).cost i +
        (lineSeparated .steps (property .steps)).cost i := by
  constructor
  · simp [Ical.componentChild, Nom.cut, Nom.alt, Nom.map, h]
  · refine alt_cost_error ?_
    show Nom.map Child.comp (Ical.lineSeparated rec.run) i = _
    simp [Nom.map, h]

omit [Uni] in
theorem till_cost_end {β : Type} {f : MP α} {g : MP β} {i : Str} {n : Nat} (hg : g.run i ≠ .error) :
    manyTillCost .steps f g (n + 1) i = g.cost i := by
  show g.cost i + _ = _
  cases h : g.run i with
  | error => exact absurd h hg
  | ok r a => rfl
  | failure => rfl

omit [Uni] in
theorem till_cost_stop {β : Type} {f : MP α} {g : MP β} {i : Str} {n : Nat} (hg : g.run i = .error)
    (hf : ∀ r a, f.run i = .ok r a → r.length = i.length) :
    manyTillCost .steps f g (n + 1) i = g.cost i + f.cost i ∧
      ∀ r x, Nom.manyTillF f.run g.run (n + 1) i ≠ .ok r x := by
  constructor
  · show g.cost i + _ = _
    rw [hg]
    show g.cost i + (f.cost i + _) = _
    cases h : f.run i with
    | ok r a => simp [hf _ _ h]
    | error => rfl
    | failure => rfl
  · intro r x hx
    unfold Nom.manyTillF at hx
    cases h : f.run i with
    | ok r a => simp [hg, h, hf _ _ h] at hx
    | error => simp [hg, h] at hx
    | failure => simp [hg, h] at hx

omit [Uni] in
theorem till_ok {β : Type} {f : MP α} {g : MP β} {i r : Str} {a : α} {n : Nat} (hg : g.run i = .error)
    (hf : f.run i = .ok r a) (hl : r.length ≠ i.length) {s : Str} {x : List α × β}
    (h : Nom.manyTillF f.run g.run (n + 1) i = .ok s x) : ∃ y, Nom.manyTillF f.run g.run n r = .ok s y := by
  unfold Nom.manyTillF at h
  simp only [hg, hf, if_neg hl] at h
  cases hm : Nom.manyTillF f.run g.run n r with
  | ok s' y => simp only [hm] at h; cases h; exact ⟨_, rfl⟩
  | error => simp [hm] at h
  | failure => simp [hm] at h

/-- the cost of one iteration that is no component -/
theorem child_quick {N : Nat} {rec : MP PComp} (H : ∀ j, j.length < N → Nom.lineEnding j = .error →
      opens j = false → (∀ r x, rec.run j ≠ .ok r x) ∧ rec.cost j ≤ 20 * N) {i i' : Str} {l : List Str}
    (hi : i.length < N) (hb : Nom.many0 Nom.lineEnding i = .ok i' l) (ho : opens i' = false) :
    (componentChild .steps rec).cost i ≤ (property .steps).cost i' + 32 * N ∧
      ∀ r x, Ical.componentChild rec.run i = .ok r x → ∃ r1 p k, Ical.property i' = .ok r1 p ∧
        Nom.many0 Nom.lineEnding r1 = .ok r k := by
  have hle := breaks_rest hb
  have hli := (shrinks_many0 shrinks_lineEnding _ _ _ hb).length_le
  obtain ⟨q1, q2⟩ := H i' (by omega) hle ho
  have c1 := sep_cost_stop hi hb q1
  cases hr : rec.run i' with
  | ok r x => exact absurd hr (q1 r x)
  | failure =>
    have hs : Ical.lineSeparated rec.run i = .failure := by rw [sep_eq hb]; exact lineSeparated_failure hle hr
    obtain ⟨h1, h2⟩ := child_cost_failure hs
    refine ⟨by omega, ?_⟩
    intro r x hx
    rw [h1] at hx
    cases hx
  | error =>
    have hs : Ical.lineSeparated rec.run i = .error := by rw [sep_eq hb]; exact lineSeparated_error hle hr
    obtain ⟨h1, h2⟩ := child_cost_error hs
    constructor
    · cases hp : Ical.property i' with
      | ok r1 p =>
        have := sep_cost_ok (p := property .steps) shrinks_property hi hb hp
        omega
      | error =>
        have := sep_cost_stop (p := property .steps) hi hb (by
          intro r a h; rw [show (property .steps).run i' = .error from hp] at h; cases h)
        omega
      | failure =>
        have := sep_cost_stop (p := property .steps) hi hb (by
          intro r a h; rw [show (property .steps).run i' = .failure from hp] at h; cases h)
        omega
    · intro r x hx
      rw [h1] at hx
      have e := sep_eq (p := Ical.property) hb
      cases hp : Ical.property i' with
      | ok r1 p =>
        obtain ⟨r2, k, hk⟩ := many0_breaks_ok r1
        rw [lineSeparated_ok hle hp hk] at e
        simp only [Nom.cut, Nom.map, e] at hx
        cases hx
        exact ⟨r1, p, k, rfl, hk⟩
      | error => exact absurd hp (property_never_error _)
      | failure =>
        rw [lineSeparated_failure hle hp] at e
        simp [Nom.cut, Nom.map, e] at hx

/-- where the property parser consumes nothing, reading stops -/
theorem stuck {text : Str} {N : Nat} {rec : MP PComp} (H : RecOk text N rec) {name i : Str} {p : PProp}
    (hn : name.length < N) (hi : i.length < N) (hle : Nom.lineEnding i = .error) (ho : opens i = false)
    (he : Ical.componentEnd name i = .error) (hp : Ical.property i = .ok i p) (n : Nat) :
    manyTillCost .steps (componentChild .steps rec) (componentEnd .steps name) n i ≤ 36 * (N * i.length) + 101 * N ∧
      ∀ r x, Nom.manyTillF (Ical.componentChild rec.run) (Ical.componentEnd name) n i ≠ .ok r x := by
  cases n with
  | zero =>
    refine ⟨Nat.zero_le _, ?_⟩
    intro r x h
    cases h
  | succ n =>
    obtain ⟨c1, c2⟩ := child_quick H.quick hi (many0_lineEnding_none hle) ho
    obtain ⟨d1, d2⟩ := till_cost_stop (f := componentChild .steps rec) (g := componentEnd .steps name) (n := n) he (by
      intro r a h
      obtain ⟨r1, q, k, h1, h2⟩ := c2 r a h
      rw [hp] at h1
      cases h1
      rw [many0_lineEnding_none hle] at h2
      cases h2
      rfl)
    refine ⟨?_, d2⟩
    have e1 := componentEnd_cost (i := i) hn hi
    have e2 := property_cost hi
    rw [Nat.mul_assoc] at e2
    omega

omit [Uni] in
theorem opens_semicolon {i : Str} (h : i.head? = some ';') : opens i = false := by
  cases i with
  | nil => cases h
  | cons c i =>
    simp at h
    subst h
    simp [opens]
    intro h
    exact absurd h (by decide)

omit [Uni] in
theorem end_semicolon {i name : Str} (h : i.head? = some ';') : Ical.componentEnd name i = .error := by
  refine lineSeparated_error (lineEnding_semicolon h) ?_
  cases i with
  | nil => cases h
  | cons c i =>
    simp at h
    subst h
    rfl

/-- the position after an element -/
theorem at_child {text : Str} {N : Nat} {rec : MP PComp} (H : RecOk text N rec) {i r : Str} {x : Child}
    (h : Ical.componentChild rec.run i = .ok r x) (hat : At text i) : At text r := by
  have h1 : Reads (Ical.componentChild rec.run) (fun _ t f => Moves t f) := by
    refine reads_cut (reads_alt (reads_map (reads_mono (reads_lineSeparated H.reads) ?_))
      (fun i r a _ h => reads_map (R := fun _ t f => Moves t f)
        (reads_mono (reads_lineSeparated reads_property) ?_) i r a h))
    · rintro c t f ⟨a, b, d, ha, hb, hd, rfl⟩
      exact moves_append (moves_append (moves_blank ha) (moves_component hb)) (moves_blank hd)
    · rintro c t f ⟨a, b, d, ha, hb, hd, rfl⟩
      exact moves_append (moves_append (moves_blank ha) (moves_property hb)) (moves_blank hd)
  obtain ⟨t, ht, hg⟩ := h1 _ _ _ h
  exact at_step hat ht hg

theorem loop_cost {text : Str} {N : Nat} {rec : MP PComp} (H : RecOk text N rec) (hu : UpperBegins text) {name : Str}
    (hn : name.length < N) (n : Nat) : ∀ i : Str, At text i → i.length < N →
      (∀ r x, Nom.manyTillF (Ical.componentChild rec.run) (Ical.componentEnd name) n i = .ok r x →
        manyTillCost .steps (componentChild .steps rec) (componentEnd .steps name) n i + 150 * (N * r.length) ≤
          150 * (N * i.length) + 150 * N) ∧
      manyTillCost .steps (componentChild .steps rec) (componentEnd .steps name) n i ≤
        450 * (N * i.length) + 450 * N := by
  induction n with
  | zero => intro i _ _; exact ⟨fun r x h => (nomatch h), Nat.zero_le _⟩
  | succ n ih =>
    intro i hat hi
    have hend := componentEnd_cost (i := i) hn hi
    cases hg : Ical.componentEnd name i with
    | failure =>
      have e := till_cost_end (f := componentChild .steps rec) (g := componentEnd .steps name) (i := i) (n := n)
        (by show Ical.componentEnd name i ≠ _; rw [hg]; simp)
      rw [e]
      refine ⟨fun r x h => ?_, by omega⟩
      unfold Nom.manyTillF at h
      simp [hg] at h
    | ok r0 y =>
      have e := till_cost_end (f := componentChild .steps rec) (g := componentEnd .steps name) (i := i) (n := n)
        (by show Ical.componentEnd name i ≠ _; rw [hg]; simp)
      rw [e]
      refine ⟨fun r x h => ?_, by omega⟩
      unfold Nom.manyTillF at h
      simp only [hg] at h
      cases h
      have h1 := (shrinks_componentEnd name _ _ _ hg).length_le
      have h2 : N * r0.length ≤ N * i.length := Nat.mul_le_mul_left _ h1
      omega
    | error =>
      obtain ⟨i', l, hb⟩ := many0_breaks_ok i
      have hle := breaks_rest hb
      have hli := (shrinks_many0 shrinks_lineEnding _ _ _ hb).length_le
      have mli : N * i'.length ≤ N * i.length := Nat.mul_le_mul_left _ hli
      have hat' : At text i' := by
        obtain ⟨t, ht, hbl⟩ := reads_breaks _ _ _ hb
        exact at_step hat ht (moves_blank hbl)
      by_cases ho : opens i' = true
      · cases hr : rec.run i' with
        | failure =>
          have hs : Ical.lineSeparated rec.run i = .failure := by rw [sep_eq hb]; exact lineSeparated_failure hle hr
          obtain ⟨h1, h2⟩ := child_cost_failure hs
          obtain ⟨d1, d2⟩ := till_cost_stop (f := componentChild .steps rec) (g := componentEnd .steps name) (n := n)
            hg (by intro r a h; rw [show (componentChild .steps rec).run i = .failure from h1] at h; cases h)
          refine ⟨fun r x h => absurd h (d2 r x), ?_⟩
          have c1 := sep_cost_stop hi hb (p := rec) (by rw [hr]; simp)
          have c2 := H.any i' hat' (by omega)
          omega
        | error =>
          have hs : Ical.lineSeparated rec.run i = .error := by rw [sep_eq hb]; exact lineSeparated_error hle hr
          obtain ⟨h1, h2⟩ := child_cost_error hs
          have htake : i'.take 5 = c!"BEGIN" := by
            obtain ⟨a, ha, hx⟩ := hat'
            rcases hx with hx | ⟨a', l', rfl, x1, x2, x3⟩
            · rw [hx.1] at ho; cases ho
            · exact hu a' l' i' ha x1 x2 x3 ho
          obtain ⟨p1, p2⟩ := property_begin (N := N) (by omega) htake
          rw [show Nom.cut (Nom.map Child.prop (Ical.lineSeparated Ical.property)) i = .failure by
            have e := sep_eq (p := Ical.property) hb
            rw [lineSeparated_failure hle p1] at e
            simp [Nom.cut, Nom.map, e]] at h1
          obtain ⟨d1, d2⟩ := till_cost_stop (f := componentChild .steps rec) (g := componentEnd .steps name) (n := n)
            hg (by intro r a h; rw [show (componentChild .steps rec).run i = .failure from h1] at h; cases h)
          refine ⟨fun r x h => absurd h (d2 r x), ?_⟩
          have c1 := sep_cost_stop hi hb (p := rec) (by rw [hr]; simp)
          have c2 := H.any i' hat' (by omega)
          have c3 := sep_cost_stop hi hb (p := property .steps) (by
            show ∀ r a, Ical.property i' ≠ _
            rw [p1]; simp)
          omega
        | ok r1 x =>
          obtain ⟨r2, k, hk⟩ := many0_breaks_ok r1
          have hs : Ical.lineSeparated rec.run i = .ok r2 x := by rw [sep_eq hb]; exact lineSeparated_ok hle hr hk
          obtain ⟨h1, h2⟩ := child_cost_ok hs
          have c1 := sep_cost_ok H.shrinks hi hb hr
          have c2 := H.ok i' r1 x hat' (by omega) hr
          have s1 := (shrinks_many0 shrinks_lineEnding _ _ _ hk).length_le
          have s2 := (H.shrinks _ _ _ hr).length_le
          have m1 : N * r2.length ≤ N * r1.length := Nat.mul_le_mul_left _ s1
          have hlt : r1.length ≠ i'.length := by
            intro h
            rw [h] at c2
            omega
          have hlen : r2.length ≠ i.length := by omega
          have m2 := mul_lt_add (u := N) (a := r1.length) (b := i'.length) (by omega)
          rw [till_cost_ok (f := componentChild .steps rec) (g := componentEnd .steps name) hg h1 hlen]
          obtain ⟨j1, j2⟩ := ih r2 (at_child H h1 hat) (by omega)
          constructor
          · intro r y hy
            obtain ⟨y', hy'⟩ := till_ok (f := componentChild .steps rec) (g := componentEnd .steps name) hg h1 hlen hy
            have := j1 r y' hy'
            omega
          · omega
      · have ho : opens i' = false := by simpa using ho
        obtain ⟨c1, c2⟩ := child_quick H.quick hi hb ho
        have pc := property_cost (N := N) (i := i') (by omega)
        rw [Nat.mul_assoc] at pc
        by_cases hmove : ∃ r a, Ical.componentChild rec.run i = .ok r a ∧ r.length ≠ i.length
        · obtain ⟨r2, a, h1, hlen⟩ := hmove
          obtain ⟨r1, p, k, hp, hk⟩ := c2 r2 a h1
          have s1 := (shrinks_many0 shrinks_lineEnding _ _ _ hk).length_le
          have s2 := (shrinks_property _ _ _ hp).length_le
          have m1 : N * r2.length ≤ N * r1.length := Nat.mul_le_mul_left _ s1
          have m2 : N * r1.length ≤ N * i'.length := Nat.mul_le_mul_left _ s2
          have m3 := mul_lt_add (u := N) (a := r2.length) (b := i.length) (by omega)
          rw [till_cost_ok (f := componentChild .steps rec) (g := componentEnd .steps name) hg h1 hlen]
          rcases property_paid (N := N) (by omega) hle hp with hpaid | hsame | ⟨hsc, q, hq⟩
          · rw [Nat.mul_assoc, Nat.mul_assoc] at hpaid
            obtain ⟨j1, j2⟩ := ih r2 (at_child H h1 hat) (by omega)
            constructor
            · intro r y hy
              obtain ⟨y', hy'⟩ := till_ok (f := componentChild .steps rec) (g := componentEnd .steps name) hg h1 hlen hy
              have := j1 r y' hy'
              omega
            · omega
          · subst hsame
            rw [many0_lineEnding_none hle] at hk
            cases hk
            have he : Ical.componentEnd name r2 = .error := by
              rw [← hg]
              exact (sep_eq hb).symm
            obtain ⟨j1, j2⟩ := stuck H hn (by omega) hle ho he hp n
            constructor
            · intro r y hy
              obtain ⟨y', hy'⟩ := till_ok (f := componentChild .steps rec) (g := componentEnd .steps name) hg h1 hlen hy
              exact absurd hy' (j2 r y')
            · omega
          · rw [many0_lineEnding_none (lineEnding_semicolon hsc)] at hk
            cases hk
            obtain ⟨j1, j2⟩ := stuck H hn (by omega) (lineEnding_semicolon hsc) (opens_semicolon hsc)
              (end_semicolon (name := name) hsc) hq n
            constructor
            · intro r y hy
              obtain ⟨y', hy'⟩ := till_ok (f := componentChild .steps rec) (g := componentEnd .steps name) hg h1 hlen hy
              exact absurd hy' (j2 r y')
            · omega
        · obtain ⟨d1, d2⟩ := till_cost_stop (f := componentChild .steps rec) (g := componentEnd .steps name) (n := n)
            hg (by
              intro r a h
              apply Classical.byContradiction
              intro hne
              exact hmove ⟨r, a, h, hne⟩)
          refine ⟨fun r x h => absurd h (d2 r x), ?_⟩
          omega

/-- `BEGIN:` at the first place of a line -/
theorem line_error {i : Str} (hle : Nom.lineEnding i = .error) (ho : opens i = false) :
    Ical.line c!"BEGIN:" Ical.validKeySequence i = .error := by
  refine lineSeparated_error hle ?_
  have : Nom.tagNoCase c!"BEGIN:" i = .error := by
    unfold Nom.tagNoCase
    rw [opens_iff, ho]
    rfl
  simp [Nom.complete, Nom.preceded, Nom.map, Nom.pair, this]

theorem recOk_body {text : Str} {N : Nat} {rec : MP PComp} (hu : UpperBegins text) (H : RecOk text N rec) :
    RecOk text N (componentBody .steps rec) := by
  have key : ∀ j, j.length < N → (∀ r x, Ical.line c!"BEGIN:" Ical.validKeySequence j ≠ .ok r x) →
      (componentBody .steps rec).cost j ≤ 16 * N ∧ ∀ r x, (componentBody .steps rec).run j ≠ .ok r x := by
    intro j hj h
    have hb := lin_begin N j hj
    constructor
    · show (line .steps c!"BEGIN:" (validKeySequence .steps)).cost j + _ + 1 ≤ _
      cases hl : Ical.line c!"BEGIN:" Ical.validKeySequence j with
      | ok r x => exact absurd hl (h r x)
      | error => simp only; omega
      | failure => simp only; omega
    · intro r x hx
      have hx : Ical.componentBody rec.run j = .ok r x := hx
      unfold Ical.componentBody at hx
      cases hl : Ical.line c!"BEGIN:" Ical.validKeySequence j with
      | ok r x => exact absurd hl (h r x)
      | error => simp [hl] at hx
      | failure => simp [hl] at hx
  have main : ∀ j i1 name, At text j → j.length < N → Ical.line c!"BEGIN:" Ical.validKeySequence j = .ok i1 name →
      (∀ r x, (componentBody .steps rec).run j = .ok r x →
        (componentBody .steps rec).cost j + 150 * (N * r.length) + 150 * N ≤ 150 * (N * j.length)) ∧
      (componentBody .steps rec).cost j ≤ 450 * (N * j.length) := by
    intro j i1 name hat hj hl
    have hb := lin_begin N j hj
    obtain ⟨t, ht, a, k, b, c, ha, hk, hbn, hc, rfl⟩ := reads_line reads_validKeySequence _ _ _ hl
    have hlen : i1.length + 6 + name.length ≤ j.length := by
      have h6 : k.length = 6 := by simpa using congrArg List.length hk
      have := congrArg List.length ht
      obtain ⟨rfl, -⟩ := hbn
      simp at this
      omega
    have hat1 : At text i1 := by
      refine at_step hat ht ?_
      have h := moves_append (moves_append (moves_blank (f := k ++ b ++ (c ++ i1)) ha)
        (moves_keyword (f := c ++ i1) (.inl hk) hbn.2.1)) (moves_blank (f := i1) hc)
      simpa using h
    obtain ⟨l1, l2⟩ := loop_cost H hu (name := name) (by omega) (i1.length + 1) i1 hat1 (by omega)
    have m1 := mul_lt_add (u := N) (a := i1.length + 5) (b := j.length) (by omega)
    rw [Nat.mul_add] at m1
    have hcost : (componentBody .steps rec).cost j = (line .steps c!"BEGIN:" (validKeySequence .steps)).cost j +
        (manyTillCost .steps (componentChild .steps rec) (componentEnd .steps name) (i1.length + 1) i1 +
          (match Nom.manyTillF (Ical.componentChild rec.run) (Ical.componentEnd name) (i1.length + 1) i1 with
          | .ok i _ => (many0 .steps (tag .steps ['\n'])).cost i
          | _ => 0)) + 1 := by
      show (line .steps c!"BEGIN:" (validKeySequence .steps)).cost j + _ + 1 = _
      rw [hl]
      rfl
    rw [hcost]
    cases hm : Nom.manyTillF (Ical.componentChild rec.run) (Ical.componentEnd name) (i1.length + 1) i1 with
    | ok r2 y =>
      have hm2 := l1 r2 y hm
      have hs : r2.length ≤ i1.length :=
        (Nom.shrinks_manyTill (shrinks_componentChild H.shrinks) (shrinks_componentEnd name) _ _ _ hm).length_le
      have hlf : (many0 .steps (tag .steps ['\n'])).cost r2 ≤ 2 * N :=
        lin_many0_const (shrinks_tag _) (fun _ => rfl) N r2 (by omega)
      simp only
      constructor
      · intro r x hx
        have hx : Ical.componentBody rec.run j = .ok r x := hx
        have hm' : Nom.manyTill (Ical.componentChild rec.run) (Ical.componentEnd name) i1 = .ok r2 y := hm
        have hr : r.length ≤ r2.length := by
          unfold Ical.componentBody at hx
          simp only [hl, hm'] at hx
          cases hz : Nom.many0 (Nom.tag ['\n']) r2 with
          | ok r3 z => simp only [hz] at hx; cases hx; exact (shrinks_many0 (shrinks_tag _) _ _ _ hz).length_le
          | error => simp [hz] at hx
          | failure => simp [hz] at hx
        have m3 : N * r.length ≤ N * r2.length := Nat.mul_le_mul_left _ hr
        omega
      · omega
    | error =>
      simp only
      refine ⟨?_, by omega⟩
      intro r x hx
      have hx : Ical.componentBody rec.run j = .ok r x := hx
      have hm' : Nom.manyTill (Ical.componentChild rec.run) (Ical.componentEnd name) i1 = .error := hm
      unfold Ical.componentBody at hx
      simp [hl, hm'] at hx
    | failure =>
      simp only
      refine ⟨?_, by omega⟩
      intro r x hx
      have hx : Ical.componentBody rec.run j = .ok r x := hx
      have hm' : Nom.manyTill (Ical.componentChild rec.run) (Ical.componentEnd name) i1 = .failure := hm
      unfold Ical.componentBody at hx
      simp [hl, hm'] at hx
  refine ⟨reads_componentBody H.reads, ?_, ?_, ?_⟩
  · intro j r x hat hj hr
    cases hl : Ical.line c!"BEGIN:" Ical.validKeySequence j with
    | ok i1 name => exact (main j i1 name hat hj hl).1 r x hr
    | error => exact absurd hr ((key j hj (by rw [hl]; simp)).2 r x)
    | failure => exact absurd hr ((key j hj (by rw [hl]; simp)).2 r x)
  · intro j hat hj
    cases hl : Ical.line c!"BEGIN:" Ical.validKeySequence j with
    | ok i1 name => have := (main j i1 name hat hj hl).2; omega
    | error => have := (key j hj (by rw [hl]; simp)).1; omega
    | failure => have := (key j hj (by rw [hl]; simp)).1; omega
  · intro j hj hle ho
    have := key j hj (by rw [line_error hle ho]; simp)
    exact ⟨this.2, by omega⟩

theorem recOk_componentF {text : Str} {N : Nat} (hu : UpperBegins text) (n : Nat) :
    RecOk text N (componentF .steps n) := by
  induction n with
  | zero =>
    exact ⟨fun _ _ _ h => (nomatch h), fun _ _ _ _ _ h => (nomatch h), fun _ _ _ => Nat.zero_le _,
      fun _ _ _ _ => ⟨fun _ _ h => (nomatch h), Nat.zero_le _⟩⟩
  | succ n ih => exact recOk_body hu ih

/-- reading a text takes hardly more than reading its first component -/
theorem components_cost_first {text : Str} {K : Nat} (h2 : (component .steps).cost [] ≤ K) :
    (components .steps).cost text ≤ (component .steps).cost text + K := by
  have h3 : Ical.component [] = .error := rfl
  have e1 : ∀ n, many0Cost .steps (allConsuming (component .steps)) n [] ≤ K := by
    intro n
    cases n with
    | zero => exact Nat.zero_le _
    | succ n =>
      show (component .steps).cost [] + _ ≤ _
      rw [show (allConsuming (component .steps)).run [] = .error by
        show Nom.allConsuming Ical.component [] = _
        simp [Nom.allConsuming, h3]]
      exact h2
  show (component .steps).cost text + _ ≤ _
  cases hr : (allConsuming (component .steps)).run text with
  | error => simp only; omega
  | failure => simp only; omega
  | ok r a =>
    have : r = [] := by
      have hr : Nom.allConsuming Ical.component text = .ok r a := hr
      unfold Nom.allConsuming at hr
      cases hc : Ical.component text with
      | ok r' a' =>
        cases r' with
        | nil => simp [hc] at hr; exact hr.1
        | cons d r' => simp [hc] at hr
      | error => simp [hc] at hr
      | failure => simp [hc] at hr
    subst this
    simp only
    split
    · omega
    · exact Nat.add_le_add_left (e1 _) _

theorem steps_components {text : Str} (hu : UpperBegins text) :
    (components .steps).cost text ≤ 450 * ((text.length + 1) * (text.length + 1)) := by
  have H := fun n => recOk_componentF (N := text.length + 1) hu n
  have hat : At text text := ⟨[], rfl, .inr ⟨[], [], rfl, .inl rfl, by simp, .inl rfl⟩⟩
  have h1 : (component .steps).cost text ≤ _ := (H (text.length + 1)).any text hat (Nat.lt_succ_self _)
  have e2 := components_cost_first (text := text) (K := 20 * (text.length + 1))
    ((H 1).quick [] (by simp) rfl (by decide)).2
  have e3 : (text.length + 1) * (text.length + 1) = (text.length + 1) * text.length + (text.length + 1) := Nat.mul_succ _ _
  omega

end MP
end Ical
