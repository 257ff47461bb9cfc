import Verif.Proofs.FoldFinish

/-!
C01-C07: folding and unfolding.
-/

namespace Ical

open Spec

/-! ### helpers -/

theorem folded_joinFold (ps : List Str) (v : Str) : folded ps ++ v = joinFold (ps ++ [v]) := by
  induction ps with
  | nil => rfl
  | cons p ps ih =>
    have : ps ++ [v] ≠ [] := by simp
    rcases h : ps ++ [v] with _ | ⟨q, qs⟩
    · exact absurd h this
    · rw [List.cons_append, h, joinFold, ← h, ← ih]
      simp [folded]

theorem folded_joinMarked (p : Str) (ps : List Str) :
    joinFold (p :: ps) = joinMarked p (ps.map fun q => (Marker.crlfSp, q)) ∧
    (p :: ps).flatten = unmarked p (ps.map fun q => (Marker.crlfSp, q)) := by
  induction ps generalizing p with
  | nil => simp [joinFold, joinMarked, unmarked]
  | cons q ps ih =>
    constructor
    · rw [joinFold, (ih q).1]
      simp [joinMarked, Marker.text]
    · rw [List.flatten_cons, (ih q).2]
      simp [unmarked]

theorem crSafe_crlf (p : Str) (ps : List Str) : CrSafe p (ps.map fun q => (Marker.crlfSp, q)) := by
  induction ps generalizing p with
  | nil => trivial
  | cons q ps ih => exact ⟨by simp [Marker.isLf], ih q⟩

theorem markerFree_infix {a b : Str} (h : MarkerFree b) (hi : a <:+: b) : MarkerFree a :=
  ⟨fun x => h.1 (x.trans hi), fun x => h.2 (x.trans hi)⟩

theorem infix_flatten {x : Str} {ps : List Str} (h : x ∈ ps) : x <:+: ps.flatten := by
  induction ps with
  | nil => cases h
  | cons p ps ih =>
    rcases List.mem_cons.1 h with rfl | h
    · exact ⟨[], ps.flatten, by simp⟩
    · exact (ih h).trans ⟨p, [], by simp⟩

theorem physicalLines_ne_nil (s : Str) : physicalLines s ≠ [] := by
  fun_induction physicalLines s <;> simp_all

theorem physicalLines_noLf {p : Str} (h : '\n' ∉ p) : physicalLines p = [p] := by
  fun_induction physicalLines p <;> simp_all

theorem physicalLines_crlf {p : Str} (h : '\n' ∉ p) (t : Str) :
    physicalLines (p ++ '\r' :: '\n' :: t) = p :: physicalLines t := by
  induction p with
  | nil => simp [physicalLines]
  | cons c p ih =>
    simp only [List.mem_cons, not_or] at h
    have hp : ∀ s, c = '\r' → p ++ '\r' :: '\n' :: t = '\n' :: s → False := by
      intro s hc hs
      cases p with
      | nil => simp at hs
      | cons d p => simp at hs h; exact h.2.1 hs.1.symm
    rw [List.cons_append, physicalLines.eq_3 _ _ hp, ih h.2]

theorem physicalLines_joinFold (p : Str) (ps : List Str) (h : ∀ x ∈ p :: ps, '\n' ∉ x) :
    physicalLines (joinFold (p :: ps)) = p :: ps.map (' ' :: ·) := by
  have cons_space : ∀ s, physicalLines (' ' :: s) =
      match physicalLines s with
      | [] => [[' ']]
      | l :: ls => (' ' :: l) :: ls := fun s => physicalLines.eq_3 _ _ (by simp)
  induction ps generalizing p with
  | nil => simp [joinFold, physicalLines_noLf (h p (by simp))]
  | cons q ps ih =>
    have hq := ih q (fun x hx => h x (by simp at hx ⊢; exact Or.inr hx))
    rw [joinFold, List.append_assoc]
    show physicalLines (p ++ '\r' :: '\n' :: (' ' :: joinFold (q :: ps))) = _
    rw [physicalLines_crlf (h p (by simp)), cons_space, hq]
    rfl

theorem utf8Size_ascii {c : Char} (h : IsAscii c) : c.utf8Size = 1 := by
  unfold IsAscii Char.toNat at h
  unfold Char.utf8Size
  rw [if_pos]
  rw [UInt32.le_iff_toNat_le]
  exact Nat.le_of_lt_succ h

/-! ### C01 -/

/-- **C01.** Unfolding folded text gives back the content line. -/
theorem fold_unfold (line out : Str) (hm : MarkerFree line) (h : foldLine line = .ok out) :
    unfold out = line := by
  obtain ⟨qs, v, h1, h2, -⟩ := foldLine_ok h
  rw [folded_joinFold] at h2
  have hf : line = (qs ++ [v]).flatten := by simp [h1]
  rw [unfold_eq_spec, h2]
  have hne : qs ++ [v] ≠ [] := by simp
  rcases hq : qs ++ [v] with _ | ⟨p, ps⟩
  · exact absurd hq hne
  · rw [hq] at hf
    have hpieces : ∀ x ∈ p :: ps, MarkerFree x := fun x hx => markerFree_infix hm (hf ▸ infix_flatten hx)
    rw [(folded_joinMarked p ps).1, unfoldSpec_joinMarked, ← (folded_joinMarked p ps).2, hf]
    · exact hpieces p (by simp)
    · intro mp hmp
      obtain ⟨q, hq, rfl⟩ := List.mem_map.1 hmp
      exact hpieces q (by simp [hq])
    · exact crSafe_crlf p ps

/-- the hypotheses of `fold_unfold` hold for a line that is folded twice and contains a bare CR and LF -/
example : ∃ out, MarkerFree (c!"SUMMARY:\r\nx" ++ List.replicate 160 'a') ∧
    foldLine (c!"SUMMARY:\r\nx" ++ List.replicate 160 'a') = .ok out ∧
    unfold out ≠ out := by
  refine ⟨joinFold [c!"SUMMARY:\r\nx" ++ List.replicate 64 'a', List.replicate 74 'a', List.replicate 22 'a'],
    ⟨by decide +kernel, by decide +kernel⟩, by decide +kernel, ?_⟩
  decide +kernel

/-! ### C02 -/

/-- **C02** (partial: the last physical line of a folded property may have 76 octets). Every physical line
but the last has at most 75 octets, and the last at most 76. -/
theorem fold_octets_partial (line out : Str) (hl : '\n' ∉ line) (h : foldLine line = .ok out) :
    (∀ l ∈ (physicalLines out).dropLast, blen l ≤ 75) ∧
    (∀ l ∈ physicalLines out, blen l ≤ 76) ∧ ((physicalLines out).length = 1 → blen out ≤ 75) := by
  obtain ⟨qs, v, h1, h2, h3, h4, h5, -⟩ := foldLine_ok h
  rw [folded_joinFold] at h2
  have hf : line = (qs ++ [v]).flatten := by simp [h1]
  have hlf : ∀ x ∈ qs ++ [v], '\n' ∉ x := fun x hx hn =>
    hl (by rw [hf]; exact List.mem_flatten.2 ⟨x, hx, hn⟩)
  have hsp : ∀ x : Str, blen (' ' :: x) = blen x + 1 := by
    intro x
    show (' ').utf8Size + blen x = _
    have : (' ').utf8Size = 1 := by decide
    omega
  cases qs with
  | nil =>
    rw [h2, List.nil_append, physicalLines_joinFold v [] hlf]
    simp [joinFold]
    omega
  | cons p ps =>
    rw [List.cons_append] at hlf
    rw [h2, List.cons_append, physicalLines_joinFold p (ps ++ [v]) hlf]
    have hp := h4 p (by simp)
    refine ⟨?_, ?_, by simp⟩
    · intro l hl
      rw [List.map_append, List.map_singleton, ← List.cons_append, List.dropLast_concat] at hl
      rcases List.mem_cons.1 hl with rfl | hl
      · exact hp
      · obtain ⟨x, hx, rfl⟩ := List.mem_map.1 hl
        have := h5 x (by simpa using hx)
        rw [hsp]; omega
    · intro l hl
      rcases List.mem_cons.1 hl with rfl | hl
      · omega
      · obtain ⟨x, hx, rfl⟩ := List.mem_map.1 hl
        rw [hsp]
        rcases List.mem_append.1 hx with hx | hx
        · have := h5 x (by simpa using hx)
          omega
        · simp at hx
          subst hx
          omega

/-- the hypotheses of `fold_octets_partial` on a line folded twice -/
example : ∃ out, '\n' ∉ (c!"SUMMARY:" ++ List.replicate 160 'a') ∧
    foldLine (c!"SUMMARY:" ++ List.replicate 160 'a') = .ok out ∧ (physicalLines out).length = 3 :=
  ⟨joinFold [c!"SUMMARY:" ++ List.replicate 67 'a', List.replicate 74 'a', List.replicate 19 'a'],
    by decide +kernel, by decide +kernel, by decide +kernel⟩

/-- **C02, what is missing.** The limit of 75 octets is exceeded: a property line of 150 ASCII characters
is written with a physical line of 76 octets. -/
theorem fold_octets_violated : ∃ line out, '\n' ∉ line ∧ (∀ c ∈ line, IsAscii c) ∧
    foldLine line = .ok out ∧ ∃ l ∈ physicalLines out, blen l = 76 := by
  refine ⟨c!"SUMMARY:" ++ List.replicate 142 'a',
    joinFold [c!"SUMMARY:" ++ List.replicate 67 'a', List.replicate 75 'a'], by decide +kernel, ?_,
    by decide +kernel, ' ' :: List.replicate 75 'a', ?_, ?_⟩
  · intro c hc
    simp only [List.mem_append, List.mem_cons, List.mem_replicate, List.not_mem_nil, or_false] at hc
    unfold IsAscii
    rcases hc with (h | h | h | h | h | h | h | h) | ⟨-, h⟩ <;> subst h <;> decide
  · decide +kernel
  · decide +kernel

/-! ### C03 -/

/-- **C03, C79, C90.** What is called whitespace is the Unicode property White_Space. -/
theorem whitespace_table (c : Char) : isWhitespace c = true ↔ White c := by
  unfold isWhitespace White
  simp only [Bool.or_eq_true, Bool.and_eq_true, decide_eq_true_eq, beq_iff_eq, List.mem_cons, List.not_mem_nil, or_false]
  omega

example : White ' ' ∧ White '\t' ∧ White (Char.ofNat 0x3000) ∧ ¬ White 'a' ∧ ¬ White (Char.ofNat 0x200B) := by
  unfold White
  decide

/-- **C03** (partial). Folding finishes for every ASCII line. -/
theorem fold_finishes_ascii_partial (line : Str) (h : ∀ c ∈ line, IsAscii c) :
    ∃ out, foldLine line = .ok out :=
  foldLine_finishes (foldProgress_ascii fun c hc => utf8Size_ascii (h c hc))

/-- **C03** (partial). Folding finishes for every line of characters of at most `k` octets in which no 74 consecutive
characters include `74 / k` whitespace characters: 37 for Latin, Greek, Cyrillic, Hebrew and Arabic texts, 24 for most
others. -/
theorem fold_finishes_width_partial (k : Nat) (line : Str) (hk : 0 < k) (hl : ∀ c ∈ line, c.utf8Size ≤ k)
    (h : ∀ a w b, line = a ++ w ++ b → w.length ≤ 74 → w.countP isWhitespace < 74 / k) :
    ∃ out, foldLine line = .ok out := by
  apply foldLine_finishes
  apply foldProgress_window hl hk
  intro i
  exact h (line.take i) ((line.drop i).take 74) ((line.drop i).drop 74)
    (by rw [List.append_assoc, List.take_append_drop, List.take_append_drop])
    (by rw [List.length_take]; omega)

/-- **C03** (partial). Folding finishes for every line, of any script, in which no 74 consecutive
characters include more than 17 whitespace characters. -/
theorem fold_finishes_window_partial (line : Str)
    (h : ∀ a w b, line = a ++ w ++ b → w.length ≤ 74 → w.countP isWhitespace ≤ 17) :
    ∃ out, foldLine line = .ok out :=
  fold_finishes_width_partial 4 line (by omega) (fun c _ => utf8Size_le c)
    (fun a w b e hw => Nat.lt_succ_of_le (h a w b e hw))

/-- **C03** (partial). Folding finishes for every line without whitespace and for every short line. -/
theorem fold_finishes_noWs_partial (line : Str)
    (h : (∀ c ∈ line, isWhitespace c = false) ∨ blen line ≤ 75) : ∃ out, foldLine line = .ok out := by
  rcases h with h | h
  · apply fold_finishes_window_partial
    intro a w b hl _
    have : w.countP isWhitespace = 0 := by
      rw [List.countP_eq_zero]
      intro c hc
      simp [h c (by simp [hl, hc])]
    omega
  · apply foldLine_finishes
    intro p n _ hp
    omega

/-- a non-ASCII text with whitespace to which the window theorem applies, and that is folded -/
example : (∀ a w b, (List.replicate 40 '日' ++ [' '] ++ List.replicate 40 'é' : Str) = a ++ w ++ b →
      w.length ≤ 74 → w.countP isWhitespace ≤ 17) ∧
    75 < blen (List.replicate 40 '日' ++ [' '] ++ List.replicate 40 'é' : Str) := by
  refine ⟨?_, by decide +kernel⟩
  intro a w b h _
  have h1 : w.countP isWhitespace ≤ (a ++ w ++ b).countP isWhitespace := by
    rw [List.countP_append, List.countP_append]; omega
  rw [← h] at h1
  have : (List.replicate 40 '日' ++ [' '] ++ List.replicate 40 'é' : Str).countP isWhitespace = 1 := by
    decide +kernel
  omega

/-- a text with a space after every third letter, to which the width theorem applies -/
example : (∀ c ∈ ((List.replicate 40 c!"éaé ").flatten : Str), c.utf8Size ≤ 2) ∧
    ((List.replicate 19 c!"éaé ").flatten : Str).countP isWhitespace < 74 / 2 ∧
    75 < blen ((List.replicate 40 c!"éaé ").flatten : Str) := by
  decide +kernel

/-- **C03, what is missing.** There is a SUMMARY line on which the folding loop runs forever. -/
theorem fold_diverges : ∃ text : Str, ∀ n, foldRun (c!"SUMMARY:" ++ text) n (foldInit (c!"SUMMARY:" ++ text)) = none := by
  refine ⟨(List.replicate 60 [Char.ofNat 0xA0, 'é']).flatten, ?_⟩
  rw [← foldLine_hang_iff]
  decide +kernel

/-- **C03, what is missing.** There is a SUMMARY line on which folding panics. -/
theorem fold_panics : ∃ text : Str, foldLine (c!"SUMMARY:" ++ text) = .error .panic := by
  refine ⟨List.replicate 22 'a' ++ List.replicate 120 (Char.ofNat 0xA0), ?_⟩
  decide +kernel

/-! ### C04 -/

/-- **C04.** Folded text is the line cut into pieces between characters, joined by CR LF SPACE. All pieces
after the first are non-empty; the first one too, if the line begins with two ASCII characters of which the
second is not whitespace (true for every property name). -/
theorem fold_pieces (line out : Str) (h : foldLine line = .ok out) :
    ∃ p ps, line = (p :: ps).flatten ∧ out = joinFold (p :: ps) ∧ (∀ q ∈ ps, q ≠ []) ∧
      (∀ a b rest, line = a :: b :: rest → IsAscii a → isWhitespace b = false → p ≠ []) := by
  obtain ⟨qs, v, h1, h2, h3, h4, h5, h6, h7, h8, h9⟩ := foldLine_ok h
  rw [folded_joinFold] at h2
  have hf : line = (qs ++ [v]).flatten := by simp [h1]
  cases qs with
  | nil =>
    refine ⟨v, [], hf, h2, by simp, ?_⟩
    rintro a b rest hab - - rfl
    simp [hab] at hf
  | cons p ps =>
    refine ⟨p, ps ++ [v], hf, h2, ?_, ?_⟩
    · intro q hq
      rcases List.mem_append.1 hq with hq | hq
      · exact h8 q hq
      · simp at hq
        subst hq
        exact h7 (by simp)
    · intro a b rest hab ha hb
      refine h9 ⟨1, by omega, by omega, ?_, ?_⟩ p (by simp)
      · exact isBoundary_iff.2 ⟨[a], b :: rest, by simp [hab], by simp [blen, utf8Size_ascii ha]⟩
      · simp [hab, wsAt, hb]

example : foldLine (c!"SUMMARY:" ++ List.replicate 100 'a') =
    .ok (joinFold [c!"SUMMARY:" ++ List.replicate 67 'a', List.replicate 33 'a']) := by
  decide +kernel

/-! ### C05 -/

/-- **C05.** A line of at most 75 octets is written unchanged. -/
theorem fold_short (line : Str) (h : blen line ≤ 75) : foldLine line = .ok line := by
  apply foldLine_of_run (n := 1)
  rw [foldRun, foldStep_rem_le (foldInv_init line) (by simpa [foldInit] using h)]
  rfl

/-- **C05.** A longer line is always folded. -/
theorem fold_long (line out : Str) (h : 75 < blen line) (ho : foldLine line = .ok out) :
    ['\r', '\n', ' '] <:+: out ∧ out ≠ line := by
  obtain ⟨qs, v, h1, h2, h3, h4, h5, h6, h7, h8, h9⟩ := foldLine_ok ho
  cases qs with
  | nil => exact absurd rfl (h6 h)
  | cons p ps =>
    constructor
    · exact ⟨p, folded ps ++ v, by simp [h2, folded]⟩
    · intro he
      have e1 := congrArg List.length he
      rw [h2, h1] at e1
      have : ∀ qs : List Str, (folded qs).length = qs.flatten.length + 3 * qs.length := by
        intro qs
        induction qs with
        | nil => rfl
        | cons q qs ih =>
          have e : folded (q :: qs) = q ++ ['\r', '\n', ' '] ++ folded qs := by simp [folded]
          rw [e]
          simp only [List.length_append, List.length_cons, List.length_nil, List.flatten_cons, ih]
          omega
      rw [List.length_append, this, List.length_append, List.length_cons] at e1
      omega

example : blen (c!"DESCRIPTION:" ++ List.replicate 21 '日') = 75 ∧
    blen (c!"DESCRIPTION:" ++ List.replicate 22 '日') = 78 := by decide +kernel

/-! ### C06 -/

/-- **C06.** Unfolding is the single left-to-right pass that removes fold markers. -/
theorem unfold_spec (s : Str) : unfold s = unfoldSpec s := unfold_eq_spec s

/-- a marker revealed by removing another one is not removed again -/
example : unfold c!"a\r\n\n \tb\n\t" = c!"a\r\n\tb" ∧ unfoldSpec c!"a\r\n\n \tb\n\t" = c!"a\r\n\tb" := by decide

/-! ### C07 -/

/-- **C07.** Unfolding undoes every folding, whatever the cut positions and markers. -/
theorem unfold_any_folding (p : Str) (rest : List (Marker × Str)) (hp : MarkerFree p)
    (hr : ∀ mp ∈ rest, MarkerFree mp.2) (hc : CrSafe p rest) :
    unfold (joinMarked p rest) = unmarked p rest := by
  rw [unfold_eq_spec, unfoldSpec_joinMarked p rest hp hr hc]

example : MarkerFree c!"SUMMARY:ab" ∧ (∀ mp ∈ [(Marker.lfTab, c!" c\r"), (Marker.crlfSp, c!"d\n")], MarkerFree mp.2) ∧
    CrSafe c!"SUMMARY:ab" [(Marker.lfTab, c!" c\r"), (Marker.crlfSp, c!"d\n")] := by
  refine ⟨⟨by decide, by decide⟩, ?_, ?_⟩
  · intro mp h
    simp at h
    rcases h with rfl | rfl <;> exact ⟨by decide, by decide⟩
  · exact ⟨fun _ => by decide, by simp [Marker.isLf], trivial⟩

end Ical
