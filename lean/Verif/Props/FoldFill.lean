import Verif.Spec.Cuts
import Verif.Props.Folding

/-!
C79: where lines are cut, and that no line is cut earlier than necessary.
-/

namespace Ical

open Spec

/-- walking back to the last boundary when no character is whitespace -/
theorem backoff_last {line : Str} {m n : Nat} (hw : ∀ i, wsAt line i = false) (hm : isBoundary line m = true)
    (hmn : m ≤ n) (h : ∀ i, m < i → i ≤ n → isBoundary line i = false) : backoff line n = some m := by
  obtain ⟨b, hb, hle⟩ := backoff_ge hm (hw m) hmn
  have h1 := backoff_le hb
  have h2 := backoff_boundary hb
  by_cases hlt : m < b
  · rw [h b hlt h1] at h2
    cases h2
  · have : b = m := by omega
    rw [hb, this]

/-- there is no boundary inside a character -/
theorem no_boundary_inside {a b : Str} {c : Char} {i : Nat} (h1 : blen a < i) (h2 : i < blen a + c.utf8Size) :
    isBoundary (a ++ c :: b) i = false := by
  rw [← Bool.not_eq_true, isBoundary_iff]
  rintro ⟨x, y, he, hx⟩
  rcases List.append_eq_append_iff.1 he with ⟨t, rfl, ht⟩ | ⟨t, rfl, ht⟩
  · cases t with
    | nil => simp at hx; omega
    | cons d t =>
      simp only [List.cons_append, List.cons.injEq] at ht
      obtain ⟨rfl, _⟩ := ht
      rw [blen_append, blen] at hx
      omega
  · rw [blen_append] at h1
    omega

/-- the character that covers an octet -/
theorem covering (b : Str) (w : Nat) (h : w < blen b) :
    ∃ u c v, b = u ++ c :: v ∧ blen u ≤ w ∧ w < blen u + c.utf8Size := by
  induction b generalizing w with
  | nil => simp [blen] at h
  | cons c b ih =>
    by_cases hw : w < c.utf8Size
    · exact ⟨[], c, b, rfl, by simp [blen], by simpa [blen] using hw⟩
    · rw [blen] at h
      obtain ⟨u, d, v, rfl, h1, h2⟩ := ih (w - c.utf8Size) (by omega)
      exact ⟨c :: u, d, v, rfl, by rw [blen]; omega, by rw [blen]; omega⟩

theorem wsAt_append (a b : Str) (c : Char) : wsAt (a ++ c :: b) a.length = isWhitespace c := by
  induction a with
  | nil => rfl
  | cons d a ih => simpa [wsAt] using ih

theorem blen_ascii {s : Str} (h : ∀ c ∈ s, c.utf8Size = 1) : blen s = s.length := by
  induction s with
  | nil => rfl
  | cons c s ih =>
    rw [blen, h c (by simp), ih fun c hc => h c (by simp [hc])]
    simp; omega

theorem wsAt_false {s : Str} (h : ∀ c ∈ s, isWhitespace c = false) (i : Nat) : wsAt s i = false := by
  rw [wsAt_eq]
  cases he : s[i]? with
  | none => rfl
  | some c => simpa using h c (List.mem_of_getElem? he)

/-- one cut -/
theorem landing {line a b : Str} {w n : Nat} (hl : line = a ++ b) (hn : n = blen a + w) (hw : w ≤ 75) (hw0 : 0 < w)
    (hb : 75 < blen b) (h : (∀ c ∈ line, c.utf8Size = 1) ∨ ∀ c ∈ line, isWhitespace c = false) :
    ∃ u v, b = u ++ v ∧ backoff line (if wsAt line n then n - 1 else n) = some (blen a + blen u) ∧
      ((∃ c y, v = c :: y ∧ blen u ≤ w ∧ w < blen u + c.utf8Size ∧ isWhitespace c = false) ∨
       ∃ d c y, v = d :: c :: y ∧ blen u + d.utf8Size = w ∧ isWhitespace c = true) := by
  obtain ⟨u, c, v, rfl, h1, h2⟩ := covering b w (by omega)
  rcases h with h | h
  · have hc : c.utf8Size = 1 := h c (by rw [hl]; simp)
    have hua : blen u = w := by omega
    have hlen : n = (a ++ u).length := by
      have := blen_ascii (s := a ++ u) fun c hc => h c (by
        rw [hl]; rcases List.mem_append.1 hc with hc | hc <;> simp [hc])
      rw [blen_append] at this
      omega
    have hws : wsAt line n = isWhitespace c := by
      rw [hl, hlen, ← List.append_assoc, wsAt_append]
    have hbl : blen line = blen a + (blen u + (1 + blen v)) := by rw [hl, blen_append, blen_append, blen, hc]
    by_cases hcw : isWhitespace c = true
    · have hune : u ≠ [] := by rintro rfl; simp [blen] at hua; omega
      obtain ⟨u', d, rfl⟩ : ∃ u' d, u = u' ++ [d] := ⟨u.dropLast, u.getLast hune, (List.dropLast_concat_getLast hune).symm⟩
      have hd : d.utf8Size = 1 := h d (by rw [hl]; simp)
      rw [blen_append, blen, blen, hd] at hua
      refine ⟨u', d :: c :: v, by simp, ?_, .inr ⟨d, c, v, rfl, by omega, hcw⟩⟩
      rw [hws, if_pos hcw, show n - 1 = blen a + blen u' by omega]
      exact backoff_self (isBoundary_ascii h (by rw [hbl, blen_append]; omega))
    · rw [Bool.not_eq_true] at hcw
      refine ⟨u, c :: v, rfl, ?_, .inl ⟨c, v, rfl, h1, h2, hcw⟩⟩
      rw [hws, hcw, if_neg (by simp), hn, ← hua]
      exact backoff_self (isBoundary_ascii h (by omega))
  · refine ⟨u, c :: v, rfl, ?_, .inl ⟨c, v, rfl, h1, h2, h c (by rw [hl]; simp)⟩⟩
    rw [wsAt_false h, if_neg (by simp)]
    apply backoff_last (wsAt_false h)
    · exact isBoundary_iff.2 ⟨a ++ u, c :: v, by rw [hl]; simp, by rw [blen_append]⟩
    · omega
    · intro i hi hin
      rw [hl, ← List.append_assoc]
      exact no_boundary_inside (by rw [blen_append]; omega) (by rw [blen_append]; omega)

theorem folded_concat (ps : List Str) (u : Str) (qs : List Str) (hq : qs ≠ []) :
    folded (ps ++ [u]) ++ joinFold qs = folded ps ++ joinFold (u :: qs) := by
  cases qs with
  | nil => exact absurd rfl hq
  | cons q qs => simp [folded, joinFold]

theorem cuts_ne_nil {w : Nat} {s : Str} {ps : List Str} (h : Cuts w s ps) : ps ≠ [] := by
  cases h <;> simp

theorem foldRun_cuts {line : Str} (h : (∀ c ∈ line, c.utf8Size = 1) ∨ ∀ c ∈ line, isWhitespace c = false) :
    ∀ (k : Nat) (st : FoldSt) (ps : List Str) (b : Str), st.rem ≤ k → FoldInv line st ps b →
      ∃ n qs, Cuts (if ps = [] then 75 else 74) b qs ∧ foldRun line n st = some (.ok (folded ps ++ joinFold qs)) := by
  intro k
  induction k with
  | zero =>
    intro st ps b hk hi
    exact ⟨1, [b], .last _ _ (by rw [hi.rem_eq]; omega), by rw [foldRun, foldStep_rem_le hi (by omega)]; rfl⟩
  | succ k ih =>
    intro st ps b hk hi
    by_cases hr : st.rem ≤ 75
    · exact ⟨1, [b], .last _ _ (by rw [hi.rem_eq]; omega), by rw [foldRun, foldStep_rem_le hi hr]; rfl⟩
    · have hn : st.next = blen ps.flatten + (if ps = [] then 75 else 74) := by
        split
        · rename_i hps
          rw [hi.first hps, hps]; rfl
        · rename_i hps
          rw [hi.later hps, hi.pos_eq]
      have hb : 75 < blen b := by rw [hi.rem_eq]; omega
      obtain ⟨u, v, rfl, hm, hcut⟩ := landing hi.line_eq hn (by split <;> omega) (by split <;> omega) hb h
      have hupos : 0 < blen u := by
        rcases hcut with ⟨c, y, _, _, h2, _⟩ | ⟨d, c, y, _, h2, _⟩
        · have := utf8Size_le c
          split at h2 <;> omega
        · have := utf8Size_le d
          split at h2 <;> omega
      have hs : slice line st.pos (blen ps.flatten + blen u) = some u := by
        obtain ⟨u', v', huv, hu, hs⟩ := slice_of_boundary (a := ps.flatten) (b := u ++ v) (n := blen ps.flatten + blen u)
          (isBoundary_iff.2 ⟨ps.flatten ++ u, v, by simp, by rw [blen_append]⟩) (by omega)
        have e1 := splitAtByte_append u v
        have e2 := splitAtByte_append u' v'
        rw [← huv, show blen u' = blen u by omega, e1] at e2
        simp only [Option.some.injEq, Prod.mk.injEq] at e2
        rw [hi.line_eq, ← hi.pos_eq, hs, e2.1]
      have hstep : foldStep line st =
          .more { out := st.out ++ u ++ ['\r', '\n', ' '], rem := st.rem - (blen ps.flatten + blen u - st.pos),
                  pos := blen ps.flatten + blen u, next := blen ps.flatten + blen u + (foldLimit - 1) } := by
        unfold foldStep
        rw [if_pos (by simp [foldLimit]; omega)]
        simp [hm, hs]
      obtain ⟨u', v', huv, hi', hpos⟩ := foldInv_step hi hstep
      have he : u = u' ∧ v = v' := by
        have hp := hi.pos_eq
        simp only at hpos
        have e1 := splitAtByte_append u v
        have e2 := splitAtByte_append u' v'
        rw [← huv, show blen u' = blen u by omega, e1] at e2
        simpa using e2
      obtain ⟨rfl, rfl⟩ := he
      have hp := hi.pos_eq
      obtain ⟨n, qs, hc, hrun⟩ := ih _ _ _ (by simp only; omega) hi'
      rw [if_neg (by simp)] at hc
      refine ⟨n + 1, u :: qs, ?_, ?_⟩
      · rcases hcut with ⟨c, y, rfl, h1, h2, h3⟩ | ⟨d, c, y, rfl, h1, h3⟩
        · exact .cut _ _ _ _ _ hb h1 h2 h3 hc
        · exact .back _ _ _ _ _ _ hb h1 h3 hc
      · rw [foldRun, hstep]
        simp only
        rw [hrun, folded_concat _ _ _ (cuts_ne_nil hc)]

/-- **C79** (partial: ASCII texts and texts without whitespace). Exactly where a line is cut: after as many characters as
fit, one less before whitespace. -/
theorem fold_cuts_partial (line : Str) (h : (∀ c ∈ line, IsAscii c) ∨ ∀ c ∈ line, isWhitespace c = false) :
    ∃ ps, Cuts 75 line ps ∧ foldLine line = .ok (joinFold ps) := by
  have h' : (∀ c ∈ line, c.utf8Size = 1) ∨ ∀ c ∈ line, isWhitespace c = false :=
    h.imp (fun h c hc => utf8Size_ascii (h c hc)) id
  obtain ⟨n, qs, hc, hr⟩ := foldRun_cuts h' _ _ _ _ (Nat.le_refl _) (foldInv_init line)
  exact ⟨qs, by simpa using hc, by simpa [folded] using foldLine_of_run hr⟩

/-- **C79.** There is only one way to cut. -/
theorem cuts_unique {w : Nat} {s : Str} {ps qs : List Str} (hw : 4 ≤ w) (h : Cuts w s ps) (h' : Cuts w s qs) :
    ps = qs := by
  have same : ∀ {a a' b b' : Str} {c c' : Char}, a ++ c :: b = a' ++ c' :: b' → blen a ≤ blen a' →
      blen a' < blen a + c.utf8Size → a = a' ∧ c = c' ∧ b = b' := by
    intro a a' b b' c c' he h1 h2
    rcases List.append_eq_append_iff.1 he with ⟨t, rfl, ht⟩ | ⟨t, rfl, ht⟩
    · cases t with
      | nil => simpa using ht
      | cons d t =>
        simp only [List.cons_append, List.cons.injEq] at ht
        rw [blen_append, blen, ← ht.1] at h2
        omega
    · cases t with
      | nil => simpa [eq_comm] using ht
      | cons d t =>
        have := utf8Size_pos d
        rw [blen_append, blen] at h1
        omega
  induction h generalizing qs with
  | last w s hs =>
    cases h' with
    | last => rfl
    | cut _ _ _ _ _ h => omega
    | back _ _ _ _ _ _ h => omega
  | cut w a c b ps h1 h2 h3 h4 _ ih =>
    generalize hs : a ++ c :: b = s at h'
    cases h' with
    | last _ _ h => subst hs; omega
    | cut _ a' c' b' ps' g1 g2 g3 g4 g5 =>
      have : a = a' ∧ c = c' ∧ b = b' := by
        rcases Nat.le_total (blen a) (blen a') with hle | hle
        · exact same hs hle (by omega)
        · obtain ⟨rfl, rfl, rfl⟩ := same hs.symm hle (by omega)
          exact ⟨rfl, rfl, rfl⟩
      obtain ⟨rfl, rfl, rfl⟩ := this
      rw [ih (by omega) g5]
    | back _ a' d' c' b' ps' g1 g2 g3 g5 =>
      have : a = a' ++ [d'] ∧ c = c' ∧ b = b' := by
        refine same (by simpa using hs) ?_ ?_ <;> rw [blen_append, blen, blen] <;> omega
      rw [this.2.1, g3] at h4
      cases h4
  | back w a d c b ps h1 h2 h3 _ ih =>
    generalize hs : a ++ d :: c :: b = s at h'
    cases h' with
    | last _ _ h => subst hs; omega
    | cut _ a' c' b' ps' g1 g2 g3 g4 g5 =>
      have : a' = a ++ [d] ∧ c' = c ∧ b' = b := by
        refine same (by simpa using hs.symm) ?_ ?_ <;> rw [blen_append, blen, blen] <;> omega
      rw [this.2.1, h3] at g4
      cases g4
    | back _ a' d' c' b' ps' g1 g2 g3 g5 =>
      have : a ++ [d] = a' ++ [d'] ∧ c = c' ∧ b = b' := by
        have := utf8Size_pos c
        refine same (by simpa using hs) ?_ ?_ <;> rw [blen_append, blen_append, blen, blen, blen, blen] <;> omega
      obtain ⟨he, rfl, rfl⟩ := this
      obtain ⟨rfl, hd⟩ := List.append_inj' he rfl
      simp only [List.cons.injEq, and_true] at hd
      subst hd
      rw [ih (by omega) g5]

theorem cuts_fill {w d : Nat} {s : Str} {ps : List Str} (h : Cuts w s ps)
    (hs : (∀ c ∈ s, c.utf8Size = 1) ∧ d = 1 ∨ (∀ c ∈ s, isWhitespace c = false) ∧ d = 3) :
    s = ps.flatten ∧ (∀ p ∈ ps.dropLast.head?, w ≤ blen p + d) ∧ ∀ p ∈ ps.dropLast.tail, 74 ≤ blen p + d := by
  have key : ∀ (w : Nat) (a b : Str) (ps : List Str), ps ≠ [] → w ≤ blen a + d →
      b = ps.flatten ∧ (∀ p ∈ ps.dropLast.head?, 74 ≤ blen p + d) ∧ (∀ p ∈ ps.dropLast.tail, 74 ≤ blen p + d) →
      a ++ b = (a :: ps).flatten ∧ (∀ p ∈ (a :: ps).dropLast.head?, w ≤ blen p + d) ∧
        ∀ p ∈ (a :: ps).dropLast.tail, 74 ≤ blen p + d := by
    intro w a b ps hne hw ih
    refine ⟨by rw [ih.1]; rfl, ?_, ?_⟩
    · rw [List.dropLast_cons_of_ne_nil hne]
      intro p hp
      simp only [List.head?_cons, Option.mem_def, Option.some.injEq] at hp
      rw [← hp]; exact hw
    · rw [List.dropLast_cons_of_ne_nil hne, List.tail_cons]
      intro p hp
      cases hq : ps.dropLast with
      | nil => rw [hq] at hp; cases hp
      | cons q qs =>
        rw [hq] at hp ih
        rcases List.mem_cons.1 hp with rfl | hp
        · exact ih.2.1 _ (by simp)
        · exact ih.2.2 _ hp
  induction h with
  | last w s _ => simp
  | cut w a c b ps h1 h2 h3 h4 hc ih =>
    refine key _ _ _ _ (cuts_ne_nil hc) ?_ (ih ?_)
    · rcases hs with ⟨hs, rfl⟩ | ⟨_, rfl⟩
      · have := hs c (by simp)
        omega
      · have := utf8Size_le c
        omega
    · exact hs.imp (fun h => ⟨fun c hc => h.1 c (by simp only [List.mem_append]; exact .inr hc), h.2⟩)
        fun h => ⟨fun c hc => h.1 c (by simp only [List.mem_append]; exact .inr hc), h.2⟩
  | back w a e c b ps h1 h2 h3 hc ih =>
    refine key _ _ _ _ (cuts_ne_nil hc) ?_ (ih ?_)
    · have := utf8Size_le e
      rcases hs with ⟨hs, rfl⟩ | ⟨hs, rfl⟩
      · have := hs e (by simp)
        omega
      · have := hs c (by simp)
        rw [h3] at this
        cases this
    · exact hs.imp (fun h => ⟨fun c hc => h.1 c (by simp only [List.mem_append]; exact .inr hc), h.2⟩)
        fun h => ⟨fun c hc => h.1 c (by simp only [List.mem_append]; exact .inr hc), h.2⟩

/-- **C79** (partial: ASCII texts and texts without whitespace). Every line but the last is filled: it has at least 74
octets in ASCII texts and at least 72 in others. -/
theorem fold_fill_partial (line out : Str) (hl : '\n' ∉ line) (h : foldLine line = .ok out) :
    ((∀ c ∈ line, IsAscii c) → ∀ l ∈ (physicalLines out).dropLast, 74 ≤ blen l) ∧
    ((∀ c ∈ line, isWhitespace c = false) → ∀ l ∈ (physicalLines out).dropLast, 72 ≤ blen l) := by
  have key : ∀ d, ((∀ c ∈ line, c.utf8Size = 1) ∧ d = 1 ∨ (∀ c ∈ line, isWhitespace c = false) ∧ d = 3) →
      ∀ l ∈ (physicalLines out).dropLast, 75 ≤ blen l + d := by
    intro d hd
    obtain ⟨n, ps, hc, hr⟩ := foldRun_cuts (hd.imp And.left And.left) _ _ _ _ (Nat.le_refl _) (foldInv_init line)
    rw [if_pos rfl] at hc
    have ho := foldLine_of_run hr
    rw [h] at ho
    simp only [folded, List.map_nil, List.flatten_nil, List.nil_append, Except.ok.injEq] at ho
    subst ho
    obtain ⟨h1, h2, h3⟩ := cuts_fill hc hd
    cases ps with
    | nil => exact absurd rfl (cuts_ne_nil hc)
    | cons p ps =>
      have hlf : ∀ x ∈ p :: ps, '\n' ∉ x := fun x hx hn =>
        hl (by rw [h1]; exact List.mem_flatten.2 ⟨x, hx, hn⟩)
      rw [physicalLines_joinFold p ps hlf]
      cases ps with
      | nil => simp
      | cons q ps =>
        rw [List.dropLast_cons_of_ne_nil (by simp)] at h2 h3
        rw [List.dropLast_cons_of_ne_nil (by simp), ← List.map_dropLast]
        intro l hl
        rcases List.mem_cons.1 hl with rfl | hl
        · exact h2 _ (by simp)
        · obtain ⟨x, hx, rfl⟩ := List.mem_map.1 hl
          have := h3 x hx
          rw [blen]
          have hsp : (' ').utf8Size = 1 := by decide
          omega
  constructor
  · intro ha l hl'
    have := key 1 (.inl ⟨fun c hc => utf8Size_ascii (ha c hc), rfl⟩) l hl'
    omega
  · intro ha l hl'
    have := key 3 (.inr ⟨ha, rfl⟩) l hl'
    omega

theorem cuts_last {s : Str} {ps : List Str} (h : Cuts 74 s ps) (ha : ∀ c ∈ s, c.utf8Size = 1)
    (hs : ∀ c ∈ s, isWhitespace c = false) :
    ∃ qs v k, ps = qs ++ [v] ∧ blen v ≤ 75 ∧ blen s = 74 * k + blen v ∧ (k = 0 ∨ 2 ≤ blen v) := by
  obtain ⟨w, hw⟩ : ∃ w, w = 74 := ⟨_, rfl⟩
  rw [← hw] at h
  induction h with
  | last w s h => exact ⟨[], s, 0, rfl, h, by omega, by omega⟩
  | cut w a c b ps h1 h2 h3 h4 hc ih =>
    obtain ⟨qs, v, k, rfl, g1, g2, g3⟩ := ih (fun c hc => ha c (by simp only [List.mem_append]; exact .inr hc))
      (fun c hc => hs c (by simp only [List.mem_append]; exact .inr hc)) rfl
    have := ha c (by simp)
    rw [blen_append] at h1
    refine ⟨a :: qs, v, k + 1, rfl, g1, by rw [blen_append]; omega, by omega⟩
  | back w a d c b ps h1 h2 h3 hc ih =>
    have := hs c (by simp)
    rw [h3] at this
    cases this

/-- **C02** (partial: see `fold_octets_violated`). For ASCII lines without whitespace: a physical line is too long exactly
if the line has 150, 224, 298, ... octets. -/
theorem fold_too_long_iff_partial (line out : Str) (ha : ∀ c ∈ line, IsAscii c) (hs : ∀ c ∈ line, isWhitespace c = false)
    (h : foldLine line = .ok out) :
    (∃ l ∈ physicalLines out, 75 < blen l) ↔ ∃ k, blen line = 150 + 74 * k := by
  have ha' : ∀ c ∈ line, c.utf8Size = 1 := fun c hc => utf8Size_ascii (ha c hc)
  have hl : '\n' ∉ line := fun hn => by have := hs _ hn; revert this; decide
  obtain ⟨h1, -, h3⟩ := fold_octets_partial line out hl h
  obtain ⟨n, ps, hc, hr⟩ := foldRun_cuts (.inl ha') _ _ _ _ (Nat.le_refl _) (foldInv_init line)
  rw [if_pos rfl] at hc
  have ho := foldLine_of_run hr
  rw [h] at ho
  simp only [folded, List.map_nil, List.flatten_nil, List.nil_append, Except.ok.injEq] at ho
  cases hc with
  | last _ _ hle =>
    subst ho
    rw [physicalLines_noLf hl]
    simp only [List.mem_singleton, exists_eq_left]
    constructor
    · omega
    · rintro ⟨k, hk⟩; omega
  | back _ a d c b ps h1 h2 h3 hc =>
    have := hs c (by simp)
    rw [h3] at this
    cases this
  | cut _ a c b ps h1' h2' h3' h4' hc =>
    have hca := ha' c (by simp)
    obtain ⟨qs, v, k, rfl, g1, g2, g3⟩ := cuts_last hc (fun c hc => ha' c (by simp only [List.mem_append]; exact .inr hc))
      (fun c hc => hs c (by simp only [List.mem_append]; exact .inr hc))
    have hf := (cuts_fill hc (d := 1) (.inl ⟨fun c hc => ha' c (by simp only [List.mem_append]; exact .inr hc), rfl⟩)).1
    have hlf : ∀ x ∈ a :: (qs ++ [v]), '\n' ∉ x := fun x hx hn => hl (by
      rw [hf]
      rcases List.mem_cons.1 hx with rfl | hx
      · exact List.mem_append.2 (.inl hn)
      · exact List.mem_append.2 (.inr (List.mem_flatten.2 ⟨x, hx, hn⟩)))
    have hpl := physicalLines_joinFold a (qs ++ [v]) hlf
    rw [← ho] at hpl
    rw [hpl, List.map_append, List.map_singleton, ← List.cons_append, List.dropLast_concat] at h1
    have hsp : (' ').utf8Size = 1 := by decide
    have hv : blen (' ' :: v) = blen v + 1 := by rw [blen]; omega
    rw [blen, hca] at g2
    rw [hpl, blen_append, blen, hca]
    constructor
    · rintro ⟨l, hl, hlen⟩
      rw [List.map_append, List.map_singleton, ← List.cons_append] at hl
      rcases List.mem_append.1 hl with hl | hl
      · have := h1 l hl
        omega
      · simp only [List.mem_singleton] at hl
        subst hl
        exact ⟨k, by omega⟩
    · rintro ⟨j, hj⟩
      exact ⟨' ' :: v, by simp, by omega⟩

theorem cuts_last_le {w : Nat} {s : Str} {ps : List Str} (h : Cuts w s ps) :
    ∀ qs v, ps = qs ++ [v] → blen v ≤ 75 := by
  induction h with
  | last w s h =>
    intro qs v he
    cases qs with
    | nil => obtain rfl : s = v := by simpa using he
             exact h
    | cons q qs => simp at he
  | cut w a c b ps h1 h2 h3 h4 hc ih =>
    intro qs v he
    cases qs with
    | nil => exact absurd (by simpa using (List.cons.inj he).2) (cuts_ne_nil hc)
    | cons q qs => exact ih qs v (List.cons.inj he).2
  | back w a d c b ps h1 h2 h3 hc ih =>
    intro qs v he
    cases qs with
    | nil => exact absurd (by simpa using (List.cons.inj he).2) (cuts_ne_nil hc)
    | cons q qs => exact ih qs v (List.cons.inj he).2

/-- **C02** (partial: see `fold_octets_violated`). For ASCII lines and for lines without whitespace: a physical line is too
long exactly if the line is cut and exactly 75 octets are left after the last cut. -/
theorem fold_too_long_cuts_partial (line out : Str) (ps : List Str)
    (ha : (∀ c ∈ line, IsAscii c) ∨ ∀ c ∈ line, isWhitespace c = false) (hl : '\n' ∉ line) (hc : Cuts 75 line ps)
    (h : foldLine line = .ok out) :
    (∃ l ∈ physicalLines out, 75 < blen l) ↔ ∃ qs v, qs ≠ [] ∧ ps = qs ++ [v] ∧ blen v = 75 := by
  obtain ⟨ps', hc', ho⟩ := fold_cuts_partial line ha
  obtain rfl := cuts_unique (by omega) hc hc'
  rw [h] at ho
  obtain rfl := Except.ok.inj ho
  obtain ⟨h1, -, -⟩ := fold_octets_partial line _ hl h
  have hf : line = ps.flatten := by
    rcases ha with ha | ha
    · exact (cuts_fill hc (d := 1) (.inl ⟨fun c hc => utf8Size_ascii (ha c hc), rfl⟩)).1
    · exact (cuts_fill hc (d := 3) (.inr ⟨ha, rfl⟩)).1
  rcases List.eq_nil_or_concat ps with rfl | ⟨qs, v, rfl⟩
  · exact absurd rfl (cuts_ne_nil hc)
  · rw [List.concat_eq_append] at *
    cases qs with
    | nil =>
      have hle : blen v ≤ 75 := by
        cases hc with
        | last _ _ hle => exact hle
        | cut _ a c b ps h1 h2 h3 h4 hc => exact absurd rfl (cuts_ne_nil hc)
        | back _ a d c b ps h1 h2 h3 hc => exact absurd rfl (cuts_ne_nil hc)
      have hv : '\n' ∉ v := fun hn => hl (by rw [hf]; simpa using hn)
      rw [show joinFold ([] ++ [v]) = v from rfl, physicalLines_noLf hv]
      constructor
      · rintro ⟨l, hm, hlt⟩
        rw [List.mem_singleton.1 hm] at hlt
        omega
      · rintro ⟨qs, u, hq, he, -⟩
        have := congrArg List.length he
        cases qs with
        | nil => exact absurd rfl hq
        | cons => simp at this
    | cons q qs =>
      have hlf : ∀ x ∈ q :: (qs ++ [v]), '\n' ∉ x := fun x hx hn =>
        hl (by rw [hf]; exact List.mem_flatten.2 ⟨x, hx, hn⟩)
      have hpl := physicalLines_joinFold q (qs ++ [v]) hlf
      rw [List.cons_append, hpl]
      rw [List.cons_append, hpl, List.map_append, List.map_singleton, ← List.cons_append, List.dropLast_concat] at h1
      have hsp : (' ').utf8Size = 1 := by decide
      have hv : blen (' ' :: v) = blen v + 1 := by rw [blen]; omega
      have hle : blen v ≤ 75 := cuts_last_le hc (q :: qs) v rfl
      constructor
      · rintro ⟨l, hm, hlt⟩
        rw [List.map_append, List.map_singleton, ← List.cons_append] at hm
        rcases List.mem_append.1 hm with hm | hm
        · have := h1 l hm
          omega
        · rw [List.mem_singleton.1 hm] at hlt
          exact ⟨q :: qs, v, by simp, rfl, by omega⟩
      · rintro ⟨qs', u, -, he, hu⟩
        have he : (q :: qs) ++ [v] = qs' ++ [u] := he
        obtain ⟨-, e⟩ := List.append_inj' he rfl
        simp only [List.cons.injEq, and_true] at e
        subst e
        exact ⟨' ' :: v, by simp, by omega⟩

/-- an ASCII line of words that is cut so that 75 octets are left -/
example : let line := List.replicate 74 'a' ++ c!"b " ++ List.replicate 73 'c'
    ∃ ps, Cuts 75 line ps ∧ (∃ qs v, qs ≠ [] ∧ ps = qs ++ [v] ∧ blen v = 75) ∧
    ∃ out, foldLine line = .ok out ∧ ∃ l ∈ physicalLines out, 75 < blen l := by
  refine ⟨[List.replicate 74 'a', c!"b " ++ List.replicate 73 'c'], ?_, ⟨[List.replicate 74 'a'], _, by simp, rfl, by decide +kernel⟩,
    List.replicate 74 'a' ++ c!"\r\n b " ++ List.replicate 73 'c', by decide +kernel, c!" b " ++ List.replicate 73 'c',
    by decide +kernel, by decide +kernel⟩
  exact .back 75 (List.replicate 74 'a') 'b' ' ' (List.replicate 73 'c') _ (by decide +kernel) (by decide +kernel)
    (by decide +kernel) (.last _ _ (by decide +kernel))

/-- an ASCII line cut before a space, and a line of three-octet characters -/
example : foldLine (List.replicate 75 'a' ++ c!" b") = .ok (List.replicate 74 'a' ++ c!"\r\n a b") ∧
    foldLine (List.replicate 26 '日' ++ c!"a") = .ok (List.replicate 25 '日' ++ c!"\r\n 日a") := by
  decide +kernel

/-- **C79, what is missing.** A line of two-octet characters and spaces cut after 59 octets. -/
theorem fold_fill_violated : ∃ line out, '\n' ∉ line ∧ foldLine line = .ok out ∧
    ∃ l ∈ (physicalLines out).dropLast, blen l = 59 := by
  refine ⟨'a' :: List.replicate 60 'é' ++ List.replicate 20 ' ', _, by decide +kernel, rfl,
    'a' :: List.replicate 29 'é', ?_, ?_⟩ <;>
    decide +kernel

end Ical
