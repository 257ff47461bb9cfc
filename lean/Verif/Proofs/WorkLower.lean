import Verif.Proofs.WorkLoop

/-!
Lower bounds for the cost of reading well-formed documents.
-/

namespace Ical
open Spec (Item itemsText nest flat calendarOf)
open Nom (shrinks_many0 shrinks_lineEnding shrinks_tag)

variable [Uni]

/-! ### nested components -/

omit [Uni] in
theorem lineEnding_B (s : Str) : Nom.lineEnding ('B' :: s) = .error := rfl
omit [Uni] in
theorem lineEnding_E (s : Str) : Nom.lineEnding ('E' :: s) = .error := rfl
omit [Uni] in
theorem lineEnding_X (s : Str) : Nom.lineEnding ('X' :: s) = .error := rfl

omit [Uni] in
theorem end_error {name i : Str} (hl : Nom.lineEnding i = .error) (h : Nom.prefixNoCase c!"END:" i = false) :
    componentEnd name i = .error := line_error hl h

theorem line_begin_lf {name s : Str} (hn : Spec.IsName name) (hs : Nom.lineEnding s = .error) :
    line c!"BEGIN:" validKeySequence (c!"BEGIN:" ++ (name ++ (['\n'] ++ s))) = .ok s name := by
  refine line_ok (br := .lf) rfl rfl ?_ hs
  refine validKeySequence_ok hn ?_
  intro c hc
  simp at hc
  subst hc
  exact isKeyChar_lf

namespace MP

theorem depth_body_ge {rec : MP PComp} {i r : Str} {name : Str}
    (h : Ical.line c!"BEGIN:" Ical.validKeySequence i = .ok r name) :
    (manyTill .depth (componentChild .depth rec) (componentEnd .depth name)).cost r + 1 ≤
      (componentBody .depth rec).cost i := by
  unfold componentBody
  simp only [h]
  show _ ≤ max _ (max _ _) + 1
  omega

omit [Uni] in
theorem pair_depth_ok {α β : Type} {p : MP α} {q : MP β} {i r : Str} {a : α} (h : p.run i = .ok r a) :
    (pair .depth p q).cost i = max (p.cost i) (q.cost r) := by
  show max (p.cost i) _ = _
  rw [h]

omit [Uni] in
theorem till_depth_ge {α β : Type} {f : MP α} {g : MP β} {i : Str} (h : g.run i = .error) :
    f.cost i ≤ (manyTill .depth f g).cost i := by
  show _ ≤ max (g.cost i) _
  rw [h]
  show _ ≤ max (g.cost i) (max (f.cost i) _)
  omega

theorem depth_child_ge {rec : MP PComp} {i : Str} {name : Str} (hl : Nom.lineEnding i = .error)
    (he : Ical.componentEnd name i = .error) :
    rec.cost i ≤ (manyTill .depth (componentChild .depth rec) (componentEnd .depth name)).cost i := by
  have h1 : rec.cost i ≤ (lineSeparated .depth rec).cost i := by
    have h := pair_depth_ok (p := many0 .depth (lineEnding .depth))
      (q := pair .depth rec (many0 .depth (lineEnding .depth))) (many0_lineEnding_none hl)
    have h' : rec.cost i ≤ (pair .depth rec (many0 .depth (lineEnding .depth))).cost i := Nat.le_max_left _ _
    show _ ≤ (pair .depth (many0 .depth (lineEnding .depth)) (pair .depth rec (many0 .depth (lineEnding .depth)))).cost i
    omega
  have h2 : (lineSeparated .depth rec).cost i ≤ (componentChild .depth rec).cost i := Nat.le_max_left _ _
  refine Nat.le_trans (Nat.le_trans h1 h2) ?_
  exact till_depth_ge he

theorem depth_nest (n : Nat) : ∀ (f : Nat) (name tail : Str), Spec.IsName name → n < f →
    n + 1 ≤ (componentF .depth f).cost (c!"BEGIN:" ++ (name ++ (['\n'] ++ (itemsText .lf (nest n) ++ ('E' :: tail))))) := by
  induction n with
  | zero =>
    intro f name tail hn hf
    cases f with
    | zero => omega
    | succ f => exact Nat.le_add_left 1 _
  | succ n ih =>
    intro f name tail hn hf
    cases f with
    | zero => omega
    | succ f =>
      have e : itemsText .lf (nest (n + 1)) ++ 'E' :: tail =
          c!"BEGIN:" ++ (c!"A" ++ (['\n'] ++ (itemsText .lf (nest n) ++ ('E' :: (c!"ND:A\n" ++ 'E' :: tail))))) := by
        simp [nest, itemsText, Item.text, Spec.Break.text]
      rw [e]
      have hA : Spec.IsName c!"A" := by simp [Spec.IsName, Spec.NameChar, isAlnum]
      have h1 := ih f c!"A" (c!"ND:A\n" ++ 'E' :: tail) hA (by omega)
      have h2 := depth_body_ge (rec := componentF .depth f) (line_begin_lf hn (s := c!"BEGIN:" ++ (c!"A" ++ (['\n'] ++ (itemsText .lf (nest n) ++ ('E' :: (c!"ND:A\n" ++ 'E' :: tail)))))) (lineEnding_B _))
      have h3 := depth_child_ge (rec := componentF .depth f) (name := name) (i := c!"BEGIN:" ++ (c!"A" ++ (['\n'] ++ (itemsText .lf (nest n) ++ ('E' :: (c!"ND:A\n" ++ 'E' :: tail)))))) (lineEnding_B _)
        (end_error (lineEnding_B _) rfl)
      show _ ≤ (componentBody .depth (componentF .depth f)).cost _
      omega

end MP

omit [Uni] in
theorem nest_length (n : Nat) : (itemsText .lf (nest n)).length = 14 * n := by
  induction n with
  | zero => rfl
  | succ n ih => simp [nest, itemsText, Item.text, Spec.Break.text, ih]; omega

theorem depth_calendar_nest (n : Nat) : n + 1 ≤ readDepth ((calendarOf (nest n)).text .lf) := by
  have hn : Spec.IsName c!"VCALENDAR" := by simp [Spec.IsName, Spec.NameChar, isAlnum]
  have e : (calendarOf (nest n)).text .lf =
      c!"BEGIN:" ++ (c!"VCALENDAR" ++ (['\n'] ++ (itemsText .lf (nest n) ++ ('E' :: c!"ND:VCALENDAR\n")))) := by
    simp [calendarOf, Item.text, Spec.Break.text]
  have h1 := MP.depth_nest n (((calendarOf (nest n)).text .lf).length + 1) c!"VCALENDAR" c!"ND:VCALENDAR\n" hn (by
    rw [e]; simp [nest_length]; omega)
  rw [← e] at h1
  exact Nat.le_trans h1 (Nat.le_max_left _ _)

/-! ### many properties -/

namespace MP

/-- a property of an LF document costs at least the length of everything after its colon -/
theorem property_scans {s : Str} (h : '\r' ∉ s) : s.length ≤ (property .steps).cost (c!"X:" ++ s) := by
  have hk : Spec.IsName c!"X" := by simp [Spec.IsName, Spec.NameChar, isAlnum]
  have h1 : namePart (c!"X:" ++ s) = .ok (':' :: s) c!"X" := by
    have hm : Nom.multispace0 (c!"X:" ++ s) = .ok (c!"X:" ++ s) [] := rfl
    have hp : Ical.propertyKey (c!"X:" ++ s) = .ok (':' :: s) c!"X" := by
      refine propertyKey_ok (b := ':' :: s) hk (by decide) (by decide) ?_
      intro c hc
      simp at hc
      subst hc
      exact isKeyChar_colon
    simp only [namePart, Nom.cut, Nom.preceded, Nom.map, Nom.pair, hm, hp]
  have h2 : Ical.parameters (':' :: s) = .ok (':' :: s) [] := Nom.many0_error (parameter_none (by simp))
  have h3 : headPart.run (c!"X:" ++ s) = .ok (':' :: s) (c!"X", []) := by
    show Nom.pair namePart Ical.parameters (c!"X:" ++ s) = _
    simp only [Nom.pair, h1, h2]
  have h4 : Nom.findSub ['\r', '\n'] s = none := findSub_crlf_none h
  have h5 : s.length ≤ (propertyRest .steps).cost s := by
    refine Nat.le_trans ?_ (Nat.le_add_right _ _)
    show _ ≤ _ + 1
    rw [h4]
    simp
  have h6 : (propertyRest .steps).cost s ≤ (pair .steps (tag .steps [':']) (propertyRest .steps)).cost (':' :: s) := by
    rw [pair_cost_ok (r := s) (a := [':']) rfl]
    omega
  have h7 : (pair .steps (tag .steps [':']) (propertyRest .steps)).cost (':' :: s) ≤ fullPart.cost (c!"X:" ++ s) := by
    show _ ≤ (pair .steps headPart (pair .steps (tag .steps [':']) (propertyRest .steps))).cost _
    rw [pair_cost_ok h3]
    omega
  have h8 : fullPart.cost (c!"X:" ++ s) ≤ (propertyParts .steps).cost (c!"X:" ++ s) := Nat.le_add_right _ _
  have h9 : (propertyParts .steps).cost (c!"X:" ++ s) ≤ (property .steps).cost (c!"X:" ++ s) := pair_cost_le _
  omega

theorem componentF_X (f : Nat) (s : Str) : (componentF .steps (f + 1)).run ('X' :: s) = .error := by
  have h : Ical.line c!"BEGIN:" Ical.validKeySequence ('X' :: s) = .error := line_error (lineEnding_X s) rfl
  show Ical.componentBody (componentF .steps f).run ('X' :: s) = _
  unfold Ical.componentBody
  rw [h]

omit [Uni] in
theorem flat_cr (n : Nat) : '\r' ∉ itemsText .lf (flat n) := by
  induction n with
  | zero => simp [flat, itemsText]
  | succ n ih =>
    rw [flat, List.replicate_succ]
    simp only [itemsText, Item.text, List.mem_append, not_or, Spec.Break.text]
    refine ⟨by simp, ih⟩

omit [Uni] in
theorem flat_succ (n : Nat) (t : Str) : itemsText .lf (flat (n + 1)) ++ t = c!"X:1\n" ++ (itemsText .lf (flat n) ++ t) := by
  simp [flat, List.replicate_succ, itemsText, Item.text, Spec.Break.text]

omit [Uni] in
theorem flat_length (n : Nat) : (itemsText .lf (flat n)).length = 4 * n := by
  induction n with
  | zero => rfl
  | succ n ih =>
    have := congrArg List.length (flat_succ n [])
    simp at this
    omega

theorem steps_flat (n : Nat) {tail : Str} (ht : '\r' ∉ tail) : ∀ k f, n < k →
    2 * (n * n) ≤ manyTillCost .steps (componentChild .steps (componentF .steps (f + 1)))
      (componentEnd .steps c!"VCALENDAR") k (itemsText .lf (flat n) ++ 'E' :: tail) := by
  induction n with
  | zero => intro k f _; simp
  | succ n ih =>
    intro k f hk
    cases k with
    | zero => omega
    | succ k =>
      rw [flat_succ]
      have hcr : '\r' ∉ itemsText .lf (flat n) ++ 'E' :: tail := by
        simp [flat_cr n, ht]
      obtain ⟨p, hp⟩ : ∃ p, Ical.property (c!"X:1\n" ++ (itemsText .lf (flat n) ++ 'E' :: tail)) =
          .ok (itemsText .lf (flat n) ++ 'E' :: tail) p := by
        have := property_ok (br := .lf) (key := c!"X") (params := []) (val := c!"1")
          (r := itemsText .lf (flat n) ++ 'E' :: tail)
          (by simp [Spec.IsName, Spec.NameChar, isAlnum]) (by decide) (by decide) (by simp)
          (by simp [Spec.ValOk]) (fun _ => by simpa using hcr)
        exact ⟨_, by simpa [Item.text, Spec.Break.text] using this⟩
      have hle : Nom.lineEnding (itemsText .lf (flat n) ++ 'E' :: tail) = .error := by
        cases n with
        | zero => rfl
        | succ n => rw [flat_succ]; rfl
      have hrec := componentF_X f (c!":1\n" ++ (itemsText .lf (flat n) ++ 'E' :: tail))
      have hs : Ical.lineSeparated (componentF .steps (f + 1)).run (c!"X:1\n" ++ (itemsText .lf (flat n) ++ 'E' :: tail)) =
        .error := lineSeparated_error (lineEnding_X _) hrec
      obtain ⟨h1, h2⟩ := child_cost_error hs
      have hsp : Ical.lineSeparated Ical.property (c!"X:1\n" ++ (itemsText .lf (flat n) ++ 'E' :: tail)) =
          .ok (itemsText .lf (flat n) ++ 'E' :: tail) p :=
        lineSeparated_ok (lineEnding_X _) hp (many0_lineEnding_none hle)
      have h3 : Ical.componentChild (componentF .steps (f + 1)).run (c!"X:1\n" ++ (itemsText .lf (flat n) ++ 'E' :: tail)) =
          .ok (itemsText .lf (flat n) ++ 'E' :: tail) (.prop p) := by
        rw [h1]
        simp only [Nom.cut, Nom.map, hsp]
      have hg : Ical.componentEnd c!"VCALENDAR" (c!"X:1\n" ++ (itemsText .lf (flat n) ++ 'E' :: tail)) = .error :=
        end_error (lineEnding_X _) rfl
      rw [till_cost_ok (f := componentChild .steps (componentF .steps (f + 1)))
        (g := componentEnd .steps c!"VCALENDAR") (i := c!"X:1\n" ++ (itemsText .lf (flat n) ++ 'E' :: tail))
        (r := itemsText .lf (flat n) ++ 'E' :: tail) hg h3 (by simp; omega)]
      have h4 := ih k f (by omega)
      have h5 := property_scans (s := c!"1\n" ++ (itemsText .lf (flat n) ++ 'E' :: tail)) (by simpa using hcr)
      have h6 := cost_lineSeparated (p := property .steps) (i := c!"X:1\n" ++ (itemsText .lf (flat n) ++ 'E' :: tail))
        (lineEnding_X _)
      have h7 := flat_length n
      simp only [List.length_append, List.length_cons, h7] at h5
      have h8 : (n + 1) * (n + 1) = n * n + 2 * n + 1 := by
        rw [Nat.add_mul, Nat.mul_add]; omega
      have h9 : (property .steps).cost (c!"X:" ++ (c!"1\n" ++ (itemsText .lf (flat n) ++ 'E' :: tail))) =
        (property .steps).cost (c!"X:1\n" ++ (itemsText .lf (flat n) ++ 'E' :: tail)) := rfl
      rw [h8]
      omega

end MP

theorem steps_calendar_flat (n : Nat) : 2 * (n * n) ≤ readSteps ((calendarOf (flat n)).text .lf) := by
  have hn : Spec.IsName c!"VCALENDAR" := by simp [Spec.IsName, Spec.NameChar, isAlnum]
  have e : (calendarOf (flat n)).text .lf =
      c!"BEGIN:" ++ (c!"VCALENDAR" ++ (['\n'] ++ (itemsText .lf (flat n) ++ ('E' :: c!"ND:VCALENDAR\n")))) := by
    simp [calendarOf, Item.text, Spec.Break.text]
  have hle : Nom.lineEnding (itemsText .lf (flat n) ++ 'E' :: c!"ND:VCALENDAR\n") = .error := by
    cases n with
    | zero => rfl
    | succ n => rw [MP.flat_succ]; rfl
  obtain ⟨f, hf⟩ : ∃ f, ((calendarOf (flat n)).text .lf).length = f + 1 := ⟨_, by rw [e]; rfl⟩
  have h1 := MP.steps_flat n (tail := c!"ND:VCALENDAR\n") (by decide)
    ((itemsText .lf (flat n) ++ ('E' :: c!"ND:VCALENDAR\n")).length + 1) f (by simp [MP.flat_length]; omega)
  have h2 := MP.body_cost_ge (rec := MP.componentF .steps (f + 1)) (line_begin_lf hn hle)
  have h3 : (MP.component .steps).cost ((calendarOf (flat n)).text .lf) ≤ readSteps ((calendarOf (flat n)).text .lf) :=
    Nat.le_add_right _ _
  have h4 : (MP.component .steps).cost ((calendarOf (flat n)).text .lf) =
      (MP.componentBody .steps (MP.componentF .steps (f + 1))).cost ((calendarOf (flat n)).text .lf) := by
    show (MP.componentF .steps (((calendarOf (flat n)).text .lf).length + 1)).cost _ = _
    rw [hf]; rfl
  rw [← e, ← h4] at h2
  exact Nat.le_trans h1 (Nat.le_trans (Nat.le_of_succ_le h2) h3)

end Ical
