import Verif.Proofs.ParseOpen

/-!
What every successful parse result looks like.
-/

namespace Ical

open Nom Spec

/-- every value a parser returns satisfies `Q` -/
def Gives {α : Type} (p : P α) (Q : α → Prop) : Prop := ∀ i r a, p i = .ok r a → Q a

section
variable {α β γ : Type}

theorem gives_true (p : P α) : Gives p (fun _ => True) := fun _ _ _ _ => trivial

theorem gives_map {p : P α} {f : α → β} {Q : β → Prop} (h : Gives p (fun a => Q (f a))) :
    Gives (map f p) Q := by
  intro i r a hr
  unfold map at hr
  cases hp : p i with
  | ok r' a' => rw [hp] at hr; cases hr; exact h _ _ _ hp
  | error => rw [hp] at hr; cases hr
  | failure => rw [hp] at hr; cases hr

theorem gives_cut {p : P α} {Q : α → Prop} (h : Gives p Q) : Gives (cut p) Q := by
  intro i r a hr
  unfold cut at hr
  cases hp : p i with
  | ok r' a' => rw [hp] at hr; cases hr; exact h _ _ _ hp
  | error => rw [hp] at hr; cases hr
  | failure => rw [hp] at hr; cases hr

theorem gives_alt {p q : P α} {Q : α → Prop} (hp : Gives p Q) (hq : Gives q Q) : Gives (alt p q) Q := by
  intro i r a hr
  unfold alt at hr
  cases h : p i with
  | ok r' a' => rw [h] at hr; cases hr; exact hp _ _ _ h
  | error => rw [h] at hr; exact hq _ _ _ hr
  | failure => rw [h] at hr; cases hr

theorem gives_pair {p : P α} {q : P β} {Q : α → Prop} {R : β → Prop} (hp : Gives p Q) (hq : Gives q R) :
    Gives (pair p q) (fun x => Q x.1 ∧ R x.2) := by
  intro i r a hr
  unfold pair at hr
  cases h : p i with
  | error => rw [h] at hr; cases hr
  | failure => rw [h] at hr; cases hr
  | ok r1 a1 =>
    rw [h] at hr
    simp only at hr
    cases h2 : q r1 with
    | error => rw [h2] at hr; cases hr
    | failure => rw [h2] at hr; cases hr
    | ok r2 a2 => rw [h2] at hr; cases hr; exact ⟨hp _ _ _ h, hq _ _ _ h2⟩

theorem gives_mono {p : P α} {Q R : α → Prop} (h : Gives p Q) (hi : ∀ a, Q a → R a) : Gives p R :=
  fun i r a hr => hi a (h i r a hr)

theorem gives_preceded {p : P α} {q : P β} {R : β → Prop} (hq : Gives q R) : Gives (preceded p q) R :=
  gives_map (gives_mono (gives_pair (gives_true p) hq) (fun _ h => h.2))

theorem gives_delimited {p : P α} {q : P β} {s : P γ} {R : β → Prop} (hq : Gives q R) :
    Gives (delimited p q s) R :=
  gives_map (gives_mono (gives_pair (gives_true p) (gives_pair hq (gives_true s))) (fun _ h => h.2.1))

theorem gives_many0 {p : P α} {Q : α → Prop} (h : Gives p Q) : Gives (many0 p) (fun l => ∀ a ∈ l, Q a) := by
  suffices ∀ n i r l, many0F p n i = .ok r l → ∀ a ∈ l, Q a from fun i r l => this _ i r l
  intro n
  induction n with
  | zero => intro i r l hl; simp [many0F] at hl
  | succ n ih =>
    intro i r l hl
    unfold many0F at hl
    cases hp : p i with
    | error => rw [hp] at hl; cases hl; simp
    | failure => rw [hp] at hl; cases hl
    | ok r1 a1 =>
      rw [hp] at hl
      simp only at hl
      split at hl
      · cases hl
      · cases h2 : many0F p n r1 with
        | error => rw [h2] at hl; cases hl
        | failure => rw [h2] at hl; cases hl
        | ok r2 l2 =>
          rw [h2] at hl
          cases hl
          intro a ha
          rcases List.mem_cons.1 ha with rfl | ha
          · exact h _ _ _ hp
          · exact ih _ _ _ h2 a ha

theorem gives_manyTill {f : P α} {g : P β} {Q : α → Prop} (h : Gives f Q) :
    Gives (manyTill f g) (fun x => ∀ a ∈ x.1, Q a) := by
  suffices ∀ n i r x, manyTillF f g n i = .ok r x → ∀ a ∈ x.1, Q a from fun i r x => this _ i r x
  intro n
  induction n with
  | zero => intro i r l hl; simp [manyTillF] at hl
  | succ n ih =>
    intro i r x hl
    unfold manyTillF at hl
    cases hg : g i with
    | failure => rw [hg] at hl; cases hl
    | ok r0 b => rw [hg] at hl; cases hl; simp
    | error =>
      rw [hg] at hl
      simp only at hl
      cases hp : f i with
      | error => rw [hp] at hl; cases hl
      | failure => rw [hp] at hl; cases hl
      | ok r1 a1 =>
        rw [hp] at hl
        simp only at hl
        split at hl
        · cases hl
        · cases h2 : manyTillF f g n r1 with
          | error => rw [h2] at hl; cases hl
          | failure => rw [h2] at hl; cases hl
          | ok r2 x2 =>
            obtain ⟨l2, b2⟩ := x2
            rw [h2] at hl
            cases hl
            intro a ha
            rcases List.mem_cons.1 ha with rfl | ha
            · exact h _ _ _ hp
            · exact ih _ _ _ h2 a ha

/-- where `many_till` stops, its terminator matched -/
theorem manyTill_ends {f : P α} {g : P β} (hf : Shrinks f) {i r : Str} {x : List α × β}
    (h : manyTill f g i = .ok r x) : ∃ s, s <:+ i ∧ g s = .ok r x.2 := by
  suffices ∀ n i r x, manyTillF f g n i = .ok r x → ∃ s, s <:+ i ∧ g s = .ok r x.2 from this _ i r x h
  intro n
  induction n with
  | zero => intro i r l hl; simp [manyTillF] at hl
  | succ n ih =>
    intro i r x hl
    unfold manyTillF at hl
    cases hg : g i with
    | failure => rw [hg] at hl; cases hl
    | ok r0 b => rw [hg] at hl; cases hl; exact ⟨i, List.suffix_refl _, hg⟩
    | error =>
      rw [hg] at hl
      simp only at hl
      cases hp : f i with
      | error => rw [hp] at hl; cases hl
      | failure => rw [hp] at hl; cases hl
      | ok r1 a1 =>
        rw [hp] at hl
        simp only at hl
        split at hl
        · cases hl
        · cases h2 : manyTillF f g n r1 with
          | error => rw [h2] at hl; cases hl
          | failure => rw [h2] at hl; cases hl
          | ok r2 x2 =>
            obtain ⟨l2, b2⟩ := x2
            rw [h2] at hl
            cases hl
            obtain ⟨s, hs, hgs⟩ := ih _ _ _ h2
            exact ⟨s, hs.trans (hf _ _ _ hp), hgs⟩

end

/-- the raw value of a property holds no CRLF -/
theorem findSub_crlf_free {i a b : Str} (h : findSub ['\r', '\n'] i = some (a, b)) :
    ¬ ['\r', '\n'] <:+: a := by
  induction i generalizing a b with
  | nil => simp [findSub] at h
  | cons c s ih =>
    unfold findSub at h
    split at h
    · cases h
      intro hc
      have := hc.length_le
      simp at this
    · rename_i hnp
      cases h' : findSub ['\r', '\n'] s with
      | none => rw [h'] at h; cases h
      | some x =>
        obtain ⟨a', b'⟩ := x
        rw [h'] at h
        cases h
        intro hc
        have hs := (findSub_some h').1
        rw [List.infix_cons_iff] at hc
        rcases hc with hc | hc
        · apply hnp
          rw [List.isPrefixOf_iff_prefix, hs]
          exact hc.trans ⟨b, by simp⟩
        · exact ih h' hc

theorem findSub_none {t s : Str} (h : findSub t s = none) : ¬ t <:+: s := by
  induction s with
  | nil =>
    unfold findSub at h
    split at h
    · cases h
    · rename_i ht
      intro hc
      simp at hc
      simp [hc] at ht
  | cons c s ih =>
    unfold findSub at h
    split at h
    · cases h
    · rename_i hnp
      rw [List.isPrefixOf_iff_prefix] at hnp
      cases h' : findSub t s with
      | some x => rw [h'] at h; cases h
      | none =>
        intro hc
        rw [List.infix_cons_iff] at hc
        rcases hc with hc | hc
        · exact hnp hc
        · exact ih h' hc

theorem gives_propertyRest : Gives propertyRest (fun v => ¬ ['\r', '\n'] <:+: v) := by
  intro i r a h
  unfold propertyRest alt at h
  cases h1 : takeUntil ['\r', '\n'] i with
  | ok r1 a1 =>
    rw [h1] at h
    cases h
    unfold takeUntil at h1
    split at h1
    · rename_i hf
      cases h1
      exact findSub_crlf_free hf
    · cases h1
  | failure => rw [h1] at h; cases h
  | error =>
    have hn : ¬ ['\r', '\n'] <:+: i := by
      unfold takeUntil at h1
      split at h1
      · cases h1
      · rename_i hf
        exact findSub_none hf
    have hinf : a <:+: i := by
      rw [h1] at h
      simp only at h
      cases h2 : takeUntil ['\n'] i with
      | ok r2 a2 =>
        rw [h2] at h
        cases h
        unfold takeUntil at h2
        split at h2
        · rename_i hf
          cases h2
          rw [(findSub_some hf).1]
          exact ⟨[], r, by simp⟩
        · cases h2
      | failure => rw [h2] at h; cases h
      | error =>
        rw [h2] at h
        unfold Nom.takeWhile at h
        cases h
        exact (List.takeWhile_prefix _).isInfix
    exact fun hc => hn (hc.trans hinf)

variable [Uni]

theorem gives_validKeySequence : Gives validKeySequence IsName := by
  intro i r a h c hc
  unfold validKeySequence Nom.takeWhile at h
  cases h
  rw [← isKeyChar_iff]
  induction i with
  | nil => simp at hc
  | cons d s ih =>
    rw [List.takeWhile_cons] at hc
    split at hc
    · rcases List.mem_cons.1 hc with rfl | hc
      · assumption
      · exact ih hc
    · simp at hc

theorem gives_propertyKey : Gives propertyKey IsName := by
  intro i r a h
  unfold propertyKey at h
  split at h
  · cases h
  · exact gives_validKeySequence _ _ _ h

theorem gives_parameter : Gives parameter (fun p => IsName p.key) := by
  apply gives_alt
  · apply gives_map
    apply gives_preceded
    apply gives_map
    exact gives_mono (gives_pair gives_validKeySequence (gives_true _)) (fun _ h => h.1)
  · apply gives_map
    exact gives_mono (gives_pair (gives_preceded gives_validKeySequence) (gives_true _)) (fun _ h => h.1)

theorem gives_property : Gives property PPropOk := by
  apply gives_cut
  apply gives_map
  refine gives_mono (gives_pair (Q := fun x => IsName x.1.1 ∧ (∀ q ∈ x.1.2, IsName q.key) ∧
    ¬ ['\r', '\n'] <:+: x.2) ?_ (gives_true _)) ?_
  · apply gives_alt
    · apply gives_map
      refine gives_mono (gives_pair (gives_pair (gives_cut (gives_preceded gives_propertyKey))
        (gives_many0 gives_parameter)) (gives_pair (gives_true _) gives_propertyRest)) ?_
      intro x h
      exact ⟨h.1.1, h.1.2, h.2.2⟩
    · apply gives_map
      refine gives_mono gives_validKeySequence ?_
      intro k hk
      refine ⟨hk, by simp, ?_⟩
      intro hc
      have := hc.length_le
      simp at this
  · intro x h
    obtain ⟨⟨h1, h2, h3⟩, -⟩ := h
    refine ⟨h1, h2, x.1.2, h3, ?_⟩
    unfold mkProperty
    simp only
    split
    · rename_i vt _
      cases vt <;> simp [unescapeByValueType, unescapeText_unescaped]
    · simp

omit [Uni] in
theorem mem_childProps {l : List Child} {p : PProp} (h : p ∈ childProps l) : Child.prop p ∈ l := by
  unfold childProps at h
  rw [List.mem_filterMap] at h
  obtain ⟨c, hc, he⟩ := h
  cases c with
  | prop q => simp at he; subst he; exact hc
  | comp q => simp at he

theorem pcompsOk_of {l : List PComp} (h : ∀ c ∈ l, PCompOk c) : PCompsOk l := by
  induction l with
  | nil => trivial
  | cons c l ih => exact ⟨h c (by simp), ih (fun d hd => h d (by simp [hd]))⟩

omit [Uni] in
theorem mem_childComps {l : List Child} {p : PComp} (h : p ∈ childComps l) : Child.comp p ∈ l := by
  unfold childComps at h
  rw [List.mem_filterMap] at h
  obtain ⟨c, hc, he⟩ := h
  cases c with
  | prop q => simp at he
  | comp q => simp at he; subst he; exact hc

theorem gives_componentF (n : Nat) : Gives (componentF n) PCompOk := by
  induction n with
  | zero => intro i r a h; simp [componentF] at h
  | succ n ih =>
    intro i r a h
    simp only [componentF, componentBody] at h
    cases h1 : line c!"BEGIN:" validKeySequence i with
    | error => simp [h1] at h
    | failure => simp [h1] at h
    | ok r1 name =>
      simp only [h1] at h
      cases h2 : manyTill (componentChild (componentF n)) (componentEnd name) r1 with
      | error => simp [h2] at h
      | failure => simp [h2] at h
      | ok r2 x =>
        simp only [h2] at h
        cases h3 : many0 (tag ['\n']) r2 with
        | error => simp [h3] at h
        | failure => simp [h3] at h
        | ok r3 y =>
          simp only [h3] at h
          cases h
          have hn : IsName name := by
            have : Gives (line c!"BEGIN:" validKeySequence) IsName :=
              gives_delimited (gives_preceded gives_validKeySequence)
            exact this _ _ _ h1
          have hch : Gives (componentChild (componentF n))
              (fun c => match c with | .prop p => PPropOk p | .comp c => PCompOk c) := by
            apply gives_cut
            apply gives_alt
            · exact gives_map (gives_delimited ih)
            · exact gives_map (gives_delimited gives_property)
          have hx := gives_manyTill hch _ _ _ h2
          refine ⟨hn, fun p hp => hx _ (mem_childProps hp), pcompsOk_of (fun c hc => hx _ (mem_childComps hc))⟩

theorem gives_component : Gives component PCompOk := fun i r a h => gives_componentF _ i r a h

/-! ### Closed components -/

omit [Uni] in
theorem line_sound {α : Type} {t : Str} {p : P α} {i r : Str} {a : α} (h : line t p i = .ok r a) :
    ∃ pre b j r', i = pre ++ b ++ j ∧ b.map lowerAscii = t.map lowerAscii ∧ p j = .ok r' a ∧ r <:+ r' := by
  unfold line lineSeparated delimited map pair complete preceded map pair tagNoCase at h
  cases h1 : many0 lineEnding i with
  | error => simp [h1] at h
  | failure => simp [h1] at h
  | ok r1 l1 =>
    simp only [h1] at h
    obtain ⟨pre, hpre⟩ := shrinks_many0 shrinks_lineEnding _ _ _ h1
    by_cases h2 : prefixNoCase t r1
    · simp only [h2, if_true] at h
      rw [prefixNoCase_iff] at h2
      cases h3 : p (r1.drop t.length) with
      | error => simp [h3] at h
      | failure => simp [h3] at h
      | ok r3 a3 =>
        simp only [h3] at h
        cases h4 : many0 lineEnding r3 with
        | error => simp [h4] at h
        | failure => simp [h4] at h
        | ok r4 a4 =>
          simp only [h4] at h
          cases h
          refine ⟨pre, r1.take t.length, r1.drop t.length, r3, ?_, h2.1.symm, h3,
            shrinks_many0 shrinks_lineEnding _ _ _ h4⟩
          rw [List.append_assoc, List.take_append_drop, hpre]
    · simp [h2] at h

/-- a returned component was opened and closed in the text that was read -/
theorem component_closed {i r : Str} {c : PComp} (h : component i = .ok r c) :
    ∃ pre b mid e post, i = pre ++ b ++ c.name ++ mid ++ e ++ c.name ++ post ∧ r <:+ post ∧
      b.map lowerAscii = c!"begin:" ∧ e.map lowerAscii = c!"end:" := by
  rw [component_eq] at h
  unfold componentBody at h
  cases h1 : line c!"BEGIN:" validKeySequence i with
  | error => simp [h1] at h
  | failure => simp [h1] at h
  | ok r1 name =>
    simp only [h1] at h
    cases h2 : manyTill (componentChild component) (componentEnd name) r1 with
    | error => simp [h2] at h
    | failure => simp [h2] at h
    | ok r2 x =>
      simp only [h2] at h
      cases h3 : many0 (tag ['\n']) r2 with
      | error => simp [h3] at h
      | failure => simp [h3] at h
      | ok r3 y =>
        simp only [h3] at h
        cases h
        obtain ⟨pre, b, j, r', hi, hb, hp, hr⟩ := line_sound h1
        unfold validKeySequence Nom.takeWhile at hp
        cases hp
        obtain ⟨x1, x2⟩ := x
        obtain ⟨s, hs, hg⟩ := manyTill_ends (shrinks_componentChild shrinks_component) h2
        obtain ⟨pre2, e, j2, r2', hs2, he, hp2, hr2⟩ := line_sound hg
        unfold cut tag at hp2
        split at hp2
        · cases hp2
        · split at hp2
          · simp only [Res.ok.injEq] at hp2
            obtain ⟨hp2a, hp2b⟩ := hp2
            subst hp2a hp2b
            rename_i hpre
            rw [List.isPrefixOf_iff_prefix] at hpre
            obtain ⟨post, rfl⟩ := hpre
            obtain ⟨m1, hm1⟩ := hr
            obtain ⟨m2, hm2⟩ := hs
            refine ⟨pre, b, m1 ++ m2 ++ pre2, e, post, ?_, ?_, hb, he⟩
            · simp only [PComp.name]
              rw [hi]
              conv => lhs; rw [← List.takeWhile_append_dropWhile (p := isKeyChar) (l := j)]
              rw [← hm1, ← hm2, hs2]
              simp
            · have := (shrinks_many0 (shrinks_tag ['\n']) _ _ _ h3).trans hr2
              simpa using this
          · cases hp2

end Ical
