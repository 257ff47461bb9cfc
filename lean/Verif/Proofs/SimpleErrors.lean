import Verif.Model.SimpleErrors
import Verif.Proofs.Errors

/-!
The simple errors are the innermost entries of the verbose ones: a relation between the two transcriptions of each parser,
kept by every combinator.
-/

namespace Ical

open Nom

variable {α β γ : Type}

/-- At this text the two parsers do the same; and if they give an error, the simple one is the first entry of the other. -/
def SimAt (p : EP α) (q : SP α) (i : Str) : Prop :=
  q.run i = p.run i ∧ ((∀ r a, p.run i ≠ .ok r a) → ∃ s k t, p.err i = (s, .nom k) :: t ∧ q.err i = ⟨s, k⟩)

/-- the same for all texts -/
def Sim (p : EP α) (q : SP α) : Prop := ∀ i, SimAt p q i

theorem sim_prim (k : Str) (p : P α) : Sim (EP.prim k p) (SP.prim k p) := fun i => ⟨rfl, fun _ => ⟨i, k, [], rfl, rfl⟩⟩

theorem sim_total {p : P α} (e : Str → List Entry) (h : ∀ i, ∃ r a, p i = .ok r a) : Sim ⟨p, e⟩ (SP.total p) := fun i =>
  ⟨rfl, fun hn => by obtain ⟨r, a, hr⟩ := h i; exact (hn r a hr).elim⟩

theorem simAt_map {p : EP α} {q : SP α} {i : Str} (f : α → β) (h : SimAt p q i) : SimAt (EP.map f p) (SP.map f q) i := by
  refine ⟨?_, fun hn => h.2 fun r a hr => ?_⟩
  · show Nom.map f q.run i = Nom.map f p.run i
    unfold Nom.map
    rw [h.1]
  · refine hn r (f a) ?_
    show Nom.map f p.run i = _
    unfold Nom.map
    rw [hr]

theorem simAt_cut {p : EP α} {q : SP α} {i : Str} (h : SimAt p q i) : SimAt (EP.cut p) (SP.cut q) i := by
  refine ⟨?_, fun hn => h.2 fun r a hr => ?_⟩
  · show Nom.cut q.run i = Nom.cut p.run i
    unfold Nom.cut
    rw [h.1]
  · refine hn r a ?_
    show Nom.cut p.run i = _
    unfold Nom.cut
    rw [hr]

theorem simAt_opt {p : EP α} {q : SP α} {i : Str} (h : SimAt p q i) : SimAt (EP.opt p) (SP.opt q) i := by
  refine ⟨?_, fun hn => h.2 fun r a hr => ?_⟩
  · show Nom.opt q.run i = Nom.opt p.run i
    unfold Nom.opt
    rw [h.1]
  · refine hn r (some a) ?_
    show Nom.opt p.run i = _
    unfold Nom.opt
    rw [hr]

theorem simAt_context {p : EP α} {q : SP α} {i : Str} (n m : Str) (h : SimAt p q i) :
    SimAt (EP.context n p) (SP.context m q) i := by
  refine ⟨h.1, fun hn => ?_⟩
  obtain ⟨s, k, t, h1, h2⟩ := h.2 hn
  refine ⟨s, k, t ++ [(i, .context n)], ?_, h2⟩
  show p.err i ++ _ = _
  rw [h1]
  rfl

theorem simAt_alt {p q : EP α} {p' q' : SP α} {i : Str} (hp : SimAt p p' i) (hq : SimAt q q' i) :
    SimAt (EP.alt p q) (SP.alt p' q') i := by
  have e1 : (SP.alt p' q').run i = Nom.alt p'.run q'.run i := rfl
  have e2 : (EP.alt p q).run i = Nom.alt p.run q.run i := rfl
  unfold Nom.alt at e1 e2
  rw [hp.1, hq.1] at e1
  refine ⟨by rw [e1, e2], fun hn => ?_⟩
  have e3 : (SP.alt p' q').err i = match p'.run i with | .error => q'.err i | _ => p'.err i := rfl
  have e4 : (EP.alt p q).err i = match p.run i with
    | .error => match q.run i with
      | .error => q.err i ++ [(i, .nom c!"Alt")]
      | _ => q.err i
    | _ => p.err i := rfl
  rw [hp.1] at e3
  rw [e2] at hn
  cases h : p.run i with
  | ok r a => exact (hn r a (by rw [h])).elim
  | failure =>
    simp only [h] at e3 e4
    rw [e3, e4]
    exact hp.2 (by simp [h])
  | error =>
    simp only [h] at e3 e4 hn
    obtain ⟨s, k, t, h1, h2⟩ := hq.2 hn
    rw [e3, e4]
    cases h' : q.run i with
    | ok r a => exact (hn r a h').elim
    | failure => exact ⟨s, k, t, h1, h2⟩
    | error => exact ⟨s, k, t ++ [(i, .nom c!"Alt")], by simp only [h1]; rfl, h2⟩

theorem simAt_alt3 {p q r : EP α} {p' q' r' : SP α} {i : Str} (hp : SimAt p p' i) (hq : SimAt q q' i) (hr : SimAt r r' i) :
    SimAt (EP.alt3 p q r) (SP.alt3 p' q' r') i := by
  have e1 : (SP.alt3 p' q' r').run i = Nom.alt p'.run (Nom.alt q'.run r'.run) i := rfl
  have e2 : (EP.alt3 p q r).run i = Nom.alt p.run (Nom.alt q.run r.run) i := rfl
  unfold Nom.alt at e1 e2
  rw [hp.1, hq.1, hr.1] at e1
  refine ⟨by rw [e1, e2], fun hn => ?_⟩
  have e3 : (SP.alt3 p' q' r').err i = match p'.run i with
    | .error => match q'.run i with
      | .error => r'.err i
      | _ => q'.err i
    | _ => p'.err i := rfl
  have e4 : (EP.alt3 p q r).err i = match p.run i with
    | .error => match q.run i with
      | .error => match r.run i with
        | .error => r.err i ++ [(i, .nom c!"Alt")]
        | _ => r.err i
      | _ => q.err i
    | _ => p.err i := rfl
  rw [hp.1, hq.1] at e3
  rw [e2] at hn
  cases h : p.run i with
  | ok r a => exact (hn r a (by rw [h])).elim
  | failure =>
    simp only [h] at e3 e4
    rw [e3, e4]
    exact hp.2 (by simp [h])
  | error =>
    simp only [h] at e3 e4 hn
    cases h' : q.run i with
    | ok r a => exact (hn r a (by rw [h'])).elim
    | failure =>
      simp only [h'] at e3 e4
      rw [e3, e4]
      exact hq.2 (by simp [h'])
    | error =>
      simp only [h'] at e3 e4 hn
      obtain ⟨s, k, t, h1, h2⟩ := hr.2 hn
      rw [e3, e4]
      cases h' : r.run i with
      | ok r a => exact (hn r a h').elim
      | failure => exact ⟨s, k, t, h1, h2⟩
      | error => exact ⟨s, k, t ++ [(i, .nom c!"Alt")], by simp only [h1]; rfl, h2⟩

theorem simAt_pair {p : EP α} {p' : SP α} {q : EP β} {q' : SP β} {i : Str} (hp : SimAt p p' i)
    (hq : ∀ r a, p.run i = .ok r a → SimAt q q' r) : SimAt (EP.pair p q) (SP.pair p' q') i := by
  have e1 : (SP.pair p' q').run i = Nom.pair p'.run q'.run i := rfl
  have e2 : (EP.pair p q).run i = Nom.pair p.run q.run i := rfl
  have e3 : (SP.pair p' q').err i = match p'.run i with | .ok r _ => q'.err r | _ => p'.err i := rfl
  have e4 : (EP.pair p q).err i = match p.run i with | .ok r _ => q.err r | _ => p.err i := rfl
  unfold Nom.pair at e1 e2
  rw [hp.1] at e1 e3
  cases h : p.run i with
  | error =>
    simp only [h] at e1 e2 e3 e4
    refine ⟨by rw [e1, e2], fun _ => ?_⟩
    rw [e3, e4]
    exact hp.2 (by simp [h])
  | failure =>
    simp only [h] at e1 e2 e3 e4
    refine ⟨by rw [e1, e2], fun _ => ?_⟩
    rw [e3, e4]
    exact hp.2 (by simp [h])
  | ok r a =>
    have hq := hq r a h
    simp only [h] at e1 e2 e3 e4
    rw [hq.1] at e1
    refine ⟨by rw [e1, e2], fun hn => ?_⟩
    rw [e3, e4]
    refine hq.2 fun r' b hr => hn r' (a, b) ?_
    rw [e2, hr]

theorem simAt_preceded {p : EP α} {p' : SP α} {q : EP β} {q' : SP β} {i : Str} (hp : SimAt p p' i)
    (hq : ∀ r a, p.run i = .ok r a → SimAt q q' r) : SimAt (EP.preceded p q) (SP.preceded p' q') i :=
  simAt_map _ (simAt_pair hp hq)

theorem simAt_allConsuming {p : EP α} {q : SP α} {i : Str} (h : SimAt p q i) :
    SimAt (EP.allConsuming p) (SP.allConsuming q) i := by
  have e1 : (SP.allConsuming q).run i = Nom.allConsuming q.run i := rfl
  have e2 : (EP.allConsuming p).run i = Nom.allConsuming p.run i := rfl
  have e3 : (SP.allConsuming q).err i = match q.run i with | .ok r _ => ⟨r, c!"Eof"⟩ | _ => q.err i := rfl
  have e4 : (EP.allConsuming p).err i = match p.run i with | .ok r _ => [(r, .nom c!"Eof")] | _ => p.err i := rfl
  unfold Nom.allConsuming at e1 e2
  rw [h.1] at e1 e3
  refine ⟨by rw [e1, e2], fun hn => ?_⟩
  rw [e3, e4]
  cases hr : p.run i with
  | ok r a => exact ⟨r, _, [], rfl, rfl⟩
  | error => exact h.2 (by simp [hr])
  | failure => exact h.2 (by simp [hr])

theorem many0F_congr {p q : P α} (hs : Shrinks p) (n : Nat) : ∀ i, (∀ j, j.length ≤ i.length → q j = p j) →
    Nom.many0F q n i = Nom.many0F p n i := by
  induction n with
  | zero => intro i _; rfl
  | succ n ih =>
    intro i h
    unfold Nom.many0F
    rw [h i (by omega)]
    cases hp : p i with
    | error => rfl
    | failure => rfl
    | ok r a =>
      have := (hs _ _ _ hp).length_le
      simp only
      rw [ih r fun j hj => h j (by omega)]

theorem simAt_many0 {p : EP α} {q : SP α} {i : Str} (hs : Shrinks p.run) (h : ∀ j, j.length ≤ i.length → SimAt p q j) :
    SimAt (EP.many0 p) (SP.many0 q) i := by
  have e1 : (SP.many0 q).run i = Nom.many0F q.run (i.length + 1) i := rfl
  refine ⟨by rw [e1, many0F_congr hs _ _ fun j hj => (h j hj).1]; rfl, ?_⟩
  show (∀ r a, Nom.many0F p.run (i.length + 1) i ≠ .ok r a) → ∃ s k t,
    EP.many0Err p (i.length + 1) i = (s, .nom k) :: t ∧ SP.many0Err q (i.length + 1) i = ⟨s, k⟩
  clear e1
  have : i.length < i.length + 1 := by omega
  revert this h
  generalize i.length + 1 = n
  intro h hn
  induction n generalizing i with
  | zero => omega
  | succ n ih =>
    intro hno
    unfold Nom.many0F at hno
    unfold EP.many0Err SP.many0Err
    rw [(h i (by omega)).1]
    cases hp : p.run i with
    | error =>
      simp only [hp] at hno
      exact (hno _ _ rfl).elim
    | failure => exact (h i (by omega)).2 (by simp [hp])
    | ok r a =>
      have hl := (hs _ _ _ hp).length_le
      simp only [hp] at hno ⊢
      split
      · exact ⟨i, _, [], rfl, rfl⟩
      · rename_i hne
        rw [if_neg hne] at hno
        refine ih (fun j hj => h j (by omega)) (by omega) fun r' l hr => ?_
        rw [hr] at hno
        exact hno _ _ rfl

theorem manyTillF_congr {f f' : P α} {g g' : P β} (hs : Shrinks f) (n : Nat) : ∀ i, (∀ j, j.length ≤ i.length → f' j = f j) →
    (∀ j, g' j = g j) → Nom.manyTillF f' g' n i = Nom.manyTillF f g n i := by
  induction n with
  | zero => intro i _ _; rfl
  | succ n ih =>
    intro i h hg
    unfold Nom.manyTillF
    rw [h i (by omega), hg i]
    cases g i with
    | ok r b => rfl
    | failure => rfl
    | error =>
      cases hp : f i with
      | error => rfl
      | failure => rfl
      | ok r a =>
        have := (hs _ _ _ hp).length_le
        simp only
        rw [ih r (fun j hj => h j (by omega)) hg]

theorem simAt_manyTill {f : EP α} {f' : SP α} {g : EP β} {g' : SP β} {i : Str} (hs : Shrinks f.run)
    (hf : ∀ j, j.length ≤ i.length → SimAt f f' j) (hg : Sim g g') : SimAt (EP.manyTill f g) (SP.manyTill f' g') i := by
  have e1 : (SP.manyTill f' g').run i = Nom.manyTillF f'.run g'.run (i.length + 1) i := rfl
  refine ⟨by rw [e1, manyTillF_congr hs _ _ (fun j hj => (hf j hj).1) fun j => (hg j).1]; rfl, ?_⟩
  show (∀ r a, Nom.manyTillF f.run g.run (i.length + 1) i ≠ .ok r a) → ∃ s k t,
    EP.manyTillErr f g (i.length + 1) i = (s, .nom k) :: t ∧ SP.manyTillErr f' g' (i.length + 1) i = ⟨s, k⟩
  clear e1
  have : i.length < i.length + 1 := by omega
  revert this hf
  generalize i.length + 1 = n
  intro hf hn
  induction n generalizing i with
  | zero => omega
  | succ n ih =>
    intro hno
    unfold Nom.manyTillF at hno
    unfold EP.manyTillErr SP.manyTillErr
    rw [(hg i).1, (hf i (by omega)).1]
    cases hgi : g.run i with
    | ok r b =>
      simp only [hgi] at hno
      exact (hno _ _ rfl).elim
    | failure => exact (hg i).2 (by simp [hgi])
    | error =>
      simp only [hgi] at hno ⊢
      cases hp : f.run i with
      | failure => exact (hf i (by omega)).2 (by simp [hp])
      | error =>
        obtain ⟨s, k, t, h1, h2⟩ := (hf i (by omega)).2 (by simp [hp])
        exact ⟨s, k, t ++ [(i, .nom c!"ManyTill")], by simp only [h1]; rfl, h2⟩
      | ok r a =>
        have hl := (hs _ _ _ hp).length_le
        simp only [hp] at hno ⊢
        split
        · exact ⟨r, _, [], rfl, rfl⟩
        · rename_i hne
          rw [if_neg hne] at hno
          refine ih (fun j hj => hf j (by omega)) (by omega) fun r' l hr => ?_
          rw [hr] at hno
          obtain ⟨l, b⟩ := l
          exact hno _ _ rfl

/-! ### the parsers of the crate -/

theorem sim_breaks : Sim (EP.many0 EP.lineEnding) (SP.many0 SP.lineEnding) := fun _ =>
  simAt_many0 shrinks_lineEnding fun j _ => sim_prim _ _ j

theorem simAt_lineSeparated {p : EP α} {q : SP α} {i : Str} (h : ∀ j, j.length ≤ i.length → SimAt p q j) :
    SimAt (EP.lineSeparated p) (SP.lineSeparated q) i :=
  simAt_map _ (simAt_pair (sim_breaks i) fun r _ hr => simAt_pair
    (h r (shrinks_many0 shrinks_lineEnding _ _ _ hr).length_le) fun r _ _ => sim_breaks r)

theorem sim_line {p : EP α} {q : SP α} (t : Str) (h : Sim p q) : Sim (EP.line t p) (SP.line t q) := fun _ =>
  simAt_lineSeparated fun j _ => simAt_preceded (sim_prim _ _ j) fun r _ _ => h r

theorem sim_componentEnd (n : Str) : Sim (EP.componentEnd n) (SP.componentEnd n) :=
  sim_line _ fun i => simAt_cut (simAt_context _ _ (sim_prim _ _ i))

theorem sim_paramValue : Sim EP.paramValue SP.paramValue := fun i =>
  simAt_alt3 (sim_prim _ _ i) (simAt_map _ (simAt_pair (sim_prim _ _ i) fun r _ _ => simAt_pair (sim_prim _ _ r)
    fun r _ _ => sim_prim _ _ r)) (sim_prim _ _ i)

theorem total_takeWhile (f : Char → Bool) (i : Str) : ∃ r a, Nom.takeWhile f i = .ok r a := ⟨_, _, rfl⟩

theorem sim_propertyRest : Sim EP.propertyRest SP.propertyRest := fun i =>
  simAt_context _ _ (simAt_alt3 (sim_prim _ _ i) (sim_prim _ _ i) (sim_total _ (total_takeWhile _) i))

variable [Uni]

theorem sim_validKeySequence : Sim EP.validKeySequence SP.validKeySequence := sim_total _ (total_takeWhile _)

omit [Uni] in
theorem sim_semicolon : Sim (EP.pair (EP.tag [';']) EP.space0) (SP.pair (SP.tag [';']) (SP.total Nom.space0)) := fun i =>
  simAt_pair (sim_prim _ _ i) fun r _ _ => sim_total _ (total_takeWhile _) r

theorem sim_parameter : Sim EP.parameter SP.parameter := fun i =>
  simAt_alt
    (simAt_map _ (simAt_preceded (sim_semicolon i) fun r _ _ => simAt_map _ (simAt_pair (sim_validKeySequence r)
      fun r _ _ => simAt_pair (sim_prim _ _ r) fun r _ _ => simAt_map _ (simAt_opt (sim_paramValue r)))))
    (simAt_map _ (simAt_pair (simAt_preceded (sim_semicolon i) fun r _ _ => sim_validKeySequence r)
      fun r _ _ => simAt_map _ (simAt_opt (simAt_preceded (sim_prim _ _ r) fun r _ _ => sim_paramValue r))))

theorem sim_propertyParts : Sim EP.propertyParts SP.propertyParts := fun i =>
  simAt_alt
    (simAt_map _ (simAt_pair
      (simAt_pair (simAt_cut (simAt_context _ _ (simAt_preceded (sim_total _ (total_takeWhile _) i)
        fun r _ _ => sim_prim _ _ r)))
        fun _ _ _ => simAt_many0 shrinks_parameter fun j _ => sim_parameter j)
      fun r _ _ => simAt_pair (simAt_context _ _ (sim_prim _ _ r)) fun r _ _ => sim_propertyRest r))
    (simAt_context _ _ (simAt_map _ (sim_validKeySequence i)))

theorem sim_property : Sim EP.property SP.property := fun i =>
  simAt_context _ _ (simAt_cut (simAt_map _ (simAt_pair (sim_propertyParts i) fun r _ _ => simAt_opt (sim_prim _ _ r))))

theorem simAt_componentChild {p : EP PComp} {q : SP PComp} {i : Str} (h : ∀ j, j.length ≤ i.length → SimAt p q j) :
    SimAt (EP.componentChild p) (SP.componentChild q) i :=
  simAt_cut (simAt_context _ _ (simAt_alt (simAt_map _ (simAt_lineSeparated h))
    (simAt_map _ (simAt_lineSeparated fun j _ => sim_property j))))

theorem SP.run_componentF (n : Nat) : (SP.componentF n).run = Ical.componentF n := by
  induction n with
  | zero => rfl
  | succ n ih =>
    show Ical.componentBody (SP.componentF n).run = _
    rw [ih]
    rfl

theorem simAt_componentF (n : Nat) : ∀ i, i.length < n → SimAt (EP.componentF n) (SP.componentF n) i := by
  induction n with
  | zero => intro i hi; omega
  | succ n ih =>
    intro i hi
    refine ⟨by rw [SP.run_componentF, EP.run_componentF], fun hno => ?_⟩
    have herr : (EP.componentF (n + 1)).err i = match Ical.line c!"BEGIN:" Ical.validKeySequence i with
      | .ok i name =>
        match (EP.manyTill (EP.componentChild (EP.componentF n)) (EP.componentEnd name)).run i with
        | .ok i _ => (EP.many0 (EP.tag ['\n'])).err i
        | _ => (EP.manyTill (EP.componentChild (EP.componentF n)) (EP.componentEnd name)).err i
      | _ => (EP.line c!"BEGIN:" EP.validKeySequence).err i := rfl
    have herr' : (SP.componentF (n + 1)).err i = match Ical.line c!"BEGIN:" Ical.validKeySequence i with
      | .ok i name =>
        match (SP.manyTill (SP.componentChild (SP.componentF n)) (SP.componentEnd name)).run i with
        | .ok i _ => (SP.many0 (SP.tag ['\n'])).err i
        | _ => (SP.manyTill (SP.componentChild (SP.componentF n)) (SP.componentEnd name)).err i
      | _ => (SP.line c!"BEGIN:" SP.validKeySequence).err i := rfl
    have hline := sim_line c!"BEGIN:" sim_validKeySequence i
    have hrun : (EP.line c!"BEGIN:" EP.validKeySequence).run i = Ical.line c!"BEGIN:" Ical.validKeySequence i := rfl
    cases hb : Ical.line c!"BEGIN:" Ical.validKeySequence i with
    | failure => exact (EP.begin_line_noFail i hb).elim
    | error =>
      simp only [hb] at herr herr'
      rw [herr, herr']
      exact hline.2 (by rw [hrun, hb]; simp)
    | ok r name =>
      have hlen : r.length < i.length := by
        obtain ⟨before, body, ho, hbody⟩ := EP.begin_line_ok hb
        obtain ⟨_, kw, _, e, _, _, e'⟩ := ho
        have : kw.length = 6 := by simpa using congrArg List.length e
        rw [e', hbody]
        simp
        omega
      have hsh : Shrinks (EP.componentChild (EP.componentF n)).run := by
        rw [EP.run_componentChild, EP.run_componentF]
        exact shrinks_componentChild (shrinks_componentF n)
      have hm := simAt_manyTill (g := EP.componentEnd name) (g' := SP.componentEnd name) (i := r) hsh
        (fun j hj => simAt_componentChild fun j' hj' => ih j' (by omega)) (sim_componentEnd name)
      simp only [hb, hm.1] at herr herr'
      rw [herr, herr']
      cases hr : (EP.manyTill (EP.componentChild (EP.componentF n)) (EP.componentEnd name)).run r with
      | error => exact hm.2 (by simp [hr])
      | failure => exact hm.2 (by simp [hr])
      | ok r' x =>
        have ht := simAt_many0 (p := EP.tag ['\n']) (q := SP.tag ['\n']) (i := r') (shrinks_tag _)
          (fun j _ => sim_prim _ _ j)
        refine ht.2 fun r'' l hz => ?_
        obtain ⟨children, e⟩ := x
        have hz : Nom.many0 (Nom.tag ['\n']) r' = .ok r'' l := hz
        have hr : Nom.manyTill (Ical.componentChild (EP.componentF n).run) (Ical.componentEnd name) r =
          .ok r' (children, e) := hr
        refine hno r'' (.mk name (childProps children) (childComps children)) ?_
        show Ical.componentBody (EP.componentF n).run i = _
        unfold Ical.componentBody
        simp only [hb, hr, hz]

theorem sim_component : Sim EP.component SP.component := fun i => by
  refine ⟨rfl, fun hno => ?_⟩
  refine (simAt_componentF (i.length + 1) i (by omega)).2 fun r a hr => hno r a ?_
  rw [EP.run_componentF] at hr
  exact hr

theorem sim_components : Sim EP.components SP.components := fun _ =>
  simAt_many0 (shrinks_allConsuming shrinks_component) fun j _ => simAt_allConsuming (sim_component j)

end Ical
