import Verif.Model.FoldWork
import Verif.Proofs.FoldFinish
import Verif.Props.Folding
import Verif.Proofs.Escape
import Verif.Spec.Writable

/-!
C86: how much work writing a property takes.
-/

namespace Ical

open Spec

theorem nthCost_le (line : Str) (n : Nat) : nthCost line n ≤ blen line := by
  have := length_le_blen line
  unfold nthCost
  omega

/-- walking back costs at most one pass over the line for every octet walked back -/
theorem backoffCost_le {line : Str} {n m : Nat} (h : backoff line n = some m) :
    backoffCost line n ≤ (n - m + 1) * (blen line + 1) := by
  have hn := nthCost_le line
  fun_induction backoff line n with
  | case1 => simp [backoffCost]
  | case2 h1 =>
    cases h
    simp [backoffCost, h1]
  | case3 h1 h2 => cases h
  | case4 h1 h2 =>
    cases h
    have := hn 0
    simp [backoffCost, h1]
    omega
  | case5 k h1 =>
    cases h
    simp [backoffCost, h1]
  | case6 k h1 h2 ih =>
    have hm := backoff_le h
    have hi := ih h
    have := hn (k + 1)
    rw [backoffCost, if_neg h1, if_pos h2]
    obtain ⟨e, he⟩ : ∃ e, k - m = e := ⟨_, rfl⟩
    rw [he] at hi
    have h3 : k.succ.succ - m + 1 = e + 1 + 1 + 1 := by omega
    rw [h3]
    simp only [Nat.add_mul, Nat.one_mul] at *
    omega
  | case7 k h1 h2 ih =>
    have hm := backoff_le h
    have hi := ih h
    have := hn (k + 1)
    rw [backoffCost, if_neg h1, if_neg h2]
    obtain ⟨e, he⟩ : ∃ e, k + 1 - m = e := ⟨_, rfl⟩
    rw [he] at hi
    have h3 : k.succ.succ - m + 1 = e + 1 + 1 := by omega
    rw [h3]
    simp only [Nat.add_mul, Nat.one_mul] at *
    omega

/-- the cost of a run that ends is at most proportional to the number of iterations and the length of the line -/
theorem foldCost_le {line : Str} {n : Nat} {st : FoldSt} {ps : List Str} {b out : Str} (hi : FoldInv line st ps b)
    (h : foldRun line n st = some (.ok out)) : foldCost line n st ≤ n * (77 * blen line + 155) := by
  induction n generalizing st ps b with
  | zero => simp [foldCost]
  | succ n ih =>
    unfold foldRun at h
    unfold foldCost
    rw [Nat.succ_mul]
    have hlen : blen line = st.pos + st.rem := by rw [hi.line_eq, blen_append, hi.pos_eq, hi.rem_eq]
    split
    · rename_i hr
      cases hs : foldStep line st with
      | done o =>
        unfold foldStep at hs
        rw [if_pos hr] at hs
        simp only at hs
        split at hs
        · cases hs
        · split at hs <;> cases hs
      | panic => rw [hs] at h; cases h
      | more st' =>
        rw [hs] at h
        obtain ⟨_, m, hm, u, hu, rfl⟩ := foldStep_more hs
        obtain ⟨u', v, hb, hi', hpos⟩ := foldInv_step hi hs
        have := ih hi' h
        have h1 := nthCost_le line st.next
        have h2 := backoffCost_le hm
        have h3 : st.next ≤ st.pos + 75 := by
          by_cases hps : ps = []
          · rw [hi.first hps]; omega
          · rw [hi.later hps]; omega
        have h4 := backoff_le hm
        have h5 : (if wsAt line st.next then st.next - 1 else st.next) ≤ st.next := by split <;> omega
        simp only at hpos this ⊢
        have h6 : ((if wsAt line st.next then st.next - 1 else st.next) - m + 1) * (blen line + 1) ≤
            76 * (blen line + 1) := Nat.mul_le_mul_right _ (by omega)
        have h7 : m - st.pos ≤ 75 := by omega
        omega
    · omega

/-- **C86** (partial). Writing a property that can be written takes at most quadratically many steps. -/
theorem write_steps_partial [Uni] (p : Property) (w : World) (out : Str) (h : p.fmtWrite w = .ok out) :
    p.writeSteps w ≤ 80 * (blen (p.line w) + 3) ^ 2 := by
  have hf : ∃ o, foldLine (p.line w) = .ok o := by
    unfold Property.fmtWrite at h
    split at h
    · exact ⟨_, by assumption⟩
    · cases h
  obtain ⟨o, ho⟩ := hf
  unfold foldLine at ho
  split at ho
  · rename_i r hr
    subst ho
    have := foldCost_le (foldInv_init _) hr
    unfold Property.writeSteps foldSteps
    obtain ⟨B, hB⟩ : ∃ B, blen (p.line w) = B := ⟨_, rfl⟩
    rw [hB] at this ⊢
    have e : (B + 3) ^ 2 = B * B + 6 * B + 9 := by
      rw [Nat.pow_two, Nat.add_mul, Nat.mul_add]; omega
    rw [e]
    rw [Nat.add_mul, Nat.mul_add, Nat.mul_left_comm] at this
    omega
  · cases ho

theorem sq_step {a b : Nat} (h : a ≤ b + 75) : a * a ≤ b * b + 150 * b + 5625 := by
  have := Nat.mul_le_mul h h
  have e : (b + 75) * (b + 75) = b * b + 150 * b + 5625 := by
    rw [Nat.add_mul, Nat.mul_add, Nat.mul_add]
    omega
  omega

/-- a line of one-octet characters costs at least half a pass over the line for every piece -/
theorem foldCost_ge {line : Str} (ha : ∀ c ∈ line, c.utf8Size = 1) :
    ∀ (n : Nat) (st : FoldSt) (ps : List Str) (b out : Str), FoldInv line st ps b →
      foldRun line n st = some (.ok out) →
      blen line * blen line ≤ 150 * foldCost line n st + 150 * blen line + st.pos * st.pos := by
  have hl : line.length = blen line := by
    induction line with
    | nil => rfl
    | cons c s ih =>
      rw [blen, ha c (by simp), List.length_cons, ih (fun c hc => ha c (by simp [hc]))]
      omega
  intro n
  induction n with
  | zero => intro st ps b out hi h; simp [foldRun] at h
  | succ n ih =>
    intro st ps b out hi h
    unfold foldRun at h
    unfold foldCost
    have hlen : blen line = st.pos + st.rem := by rw [hi.line_eq, blen_append, hi.pos_eq, hi.rem_eq]
    split
    · rename_i hr
      have hr75 : 75 < st.rem := hr
      cases hs : foldStep line st with
      | done o =>
        unfold foldStep at hs
        rw [if_pos hr] at hs
        simp only at hs
        split at hs
        · cases hs
        · split at hs <;> cases hs
      | panic => rw [hs] at h; cases h
      | more st' =>
        rw [hs] at h
        obtain ⟨u, v, hb, hi', hpos⟩ := foldInv_step hi hs
        have := ih _ _ _ _ hi' h
        have h3 : st.pos + 74 ≤ st.next ∧ st.next ≤ st.pos + 75 := by
          by_cases hps : ps = []
          · have h0 : st.pos = 0 := by rw [← hi.pos_eq, hps]; rfl
            rw [hi.first hps]; omega
          · rw [hi.later hps]; omega
        have hn : nthCost line st.next ≥ st.pos + 75 := by
          unfold nthCost
          rw [hl]
          omega
        have hd : st'.pos ≤ st.pos + 75 := by
          obtain ⟨_, m, hm, u', hu', rfl⟩ := foldStep_more hs
          have h4 := backoff_le hm
          have h5 : (if wsAt line st.next then st.next - 1 else st.next) ≤ st.next := by split <;> omega
          exact Nat.le_trans h4 (Nat.le_trans h5 h3.2)
        have hq : st'.pos * st'.pos ≤ st.pos * st.pos + 150 * st.pos + 5625 := sq_step hd
        show _ ≤ 150 * (1 + nthCost line st.next + backoffCost line _ + (st'.pos - st.pos + 3 + foldCost line n st')) + _ + _
        generalize backoffCost line _ = z
        omega
    · rename_i hr
      simp only [foldLimit] at hr
      rw [hlen, Nat.add_mul, Nat.mul_add, Nat.mul_add]
      have h1 : st.rem * st.rem ≤ 75 * st.rem := Nat.mul_le_mul_right _ (by omega)
      have h2 : st.rem * st.pos ≤ 75 * st.pos := Nat.mul_le_mul_right _ (by omega)
      rw [Nat.mul_comm st.pos st.rem]
      omega

/-- **C86** (the bound is tight). Folding *every* line of ASCII characters takes quadratically many steps, because each
piece is found by counting characters from the start of the line. -/
theorem write_steps_tight [Uni] (p : Property) (w : World) (h : ∀ c ∈ p.line w, IsAscii c) :
    (p.line w).length ^ 2 ≤ 150 * (p.writeSteps w) := by
  have ha : ∀ c ∈ p.line w, c.utf8Size = 1 := fun c hc => utf8Size_ascii (h c hc)
  obtain ⟨out, ho⟩ := fold_finishes_ascii_partial _ h
  unfold foldLine at ho
  split at ho
  · rename_i r hr
    subst ho
    have := foldCost_ge ha _ _ _ _ _ (foldInv_init _) hr
    have h0 : (foldInit (p.line w)).pos = 0 := rfl
    rw [h0] at this
    have hle := Nat.mul_le_mul (length_le_blen (p.line w)) (length_le_blen (p.line w))
    unfold Property.writeSteps foldSteps
    rw [Nat.pow_two]
    omega
  · cases ho

/-- **C86 (violated).** The steps per octet are not bounded: whatever `k` is, writing a summary of `150 * k` letters
takes more than `k` steps for every octet written. -/
theorem write_steps_violated [Uni] (w : World) (hw : World.Ok w) (k : Nat) :
    ∃ p : Property, ∃ out, p = Property.new c!"SUMMARY" (List.replicate (150 * k) 'a') ∧ p.fmtWrite w = .ok out ∧
      k * (p.line w).length < p.writeSteps w := by
  have hl : (Property.new c!"SUMMARY" (List.replicate (150 * k) 'a')).line w = c!"SUMMARY:" ++ List.replicate (150 * k) 'a' := by
    have h1 : w.order [] [] = [] := (hw.order [] []).eq_nil
    have h2 : (Property.new c!"SUMMARY" (List.replicate (150 * k) 'a')).valueText = List.replicate (150 * k) 'a' := by
      show escapeText (List.replicate (150 * k) 'a') = _
      rw [escapeText_eq]
      generalize 150 * k = n
      induction n with
      | zero => rfl
      | succ n ih => rw [List.replicate_succ, List.flatMap_cons, ih]; rfl
    have h3 : (Property.new c!"SUMMARY" (List.replicate (150 * k) 'a')).params = [] := rfl
    unfold Property.line
    rw [h2, h3, h1]
    rfl
  have ha : ∀ c ∈ (Property.new c!"SUMMARY" (List.replicate (150 * k) 'a')).line w, IsAscii c := by
    intro c hc
    show c.toNat < 128
    rw [hl, List.mem_append] at hc
    rcases hc with hc | hc
    · simp only [List.mem_cons, List.not_mem_nil, or_false] at hc
      rcases hc with rfl | rfl | rfl | rfl | rfl | rfl | rfl | rfl <;> decide
    · rw [(List.mem_replicate.1 hc).2]
      decide
  obtain ⟨out, ho⟩ := fold_finishes_ascii_partial _ ha
  refine ⟨_, out ++ crlf, rfl, ?_, ?_⟩
  · unfold Property.fmtWrite
    rw [ho]
  · have h1 := write_steps_tight _ w ha
    have h2 : ((Property.new c!"SUMMARY" (List.replicate (150 * k) 'a')).line w).length = 150 * k + 8 := by
      rw [hl]
      simp
    rw [h2] at h1 ⊢
    rw [Nat.pow_two, Nat.add_mul, Nat.mul_assoc] at h1
    generalize k * (150 * k + 8) = x at *
    omega

/-- a summary of 300 letters: 308 octets, about a thousand steps -/
example : letI := Uni.ascii
    foldSteps (c!"SUMMARY:" ++ List.replicate 300 'a') = 1077 := by decide +kernel

end Ical
