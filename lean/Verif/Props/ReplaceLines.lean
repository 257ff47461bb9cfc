import Verif.Spec.ReplaceLines
import Verif.Props.AddLines

/-!
C152: replacing the lines of a property in the file of a calendar.
-/

namespace Ical

open Nom Spec

/-! ### lines -/

section

variable {line uline : Str}

theorem replaceLines_nil (k : Str) : replaceLines k line [] = [] := rfl

theorem replaceLines_last {k x : Str} (h : NoLf x) : replaceLines k line x = if NamedLine k x then line else x := by
  unfold replaceLines
  rw [cutLines_last h]
  by_cases hx : x = []
  · subst hx
    rw [if_pos rfl, if_neg]
    · rfl
    · rintro (h | h) <;> simp at h
  · rw [if_neg hx]
    by_cases hn : NamedLine k x <;> simp [hn]

theorem replaceLines_line {k : Str} (hk : NoLf k) {x : Str} (h : NoLf x) (r : Str) :
    replaceLines k line (x ++ '\n' :: r) = (if NamedLine k x then line else x ++ ['\n']) ++ replaceLines k line r := by
  unfold replaceLines
  rw [cutLines_line h]
  have := named_line hk x []
  by_cases hn : NamedLine k x <;> simp [hn, this]

/-- the text does not start with a blank after the replacement unless it did before -/
theorem replaceLines_noIndent {k : Str} (hk : NoLf k) (hl : NoIndent line) (n : Nat) (s : Str) (hs : s.length ≤ n) (h : NoIndent s)
    (hn : NotContinued k (cutLines s)) : NoIndent (replaceLines k line s) := by
  induction n generalizing s with
  | zero =>
    obtain rfl : s = [] := List.length_eq_zero_iff.1 (by omega)
    exact h
  | succ n ih =>
    rcases cut_first s with hx | ⟨x, r, hx, rfl⟩
    · rw [replaceLines_last hx]
      split
      · exact hl
      · exact h
    · rw [replaceLines_line hk hx]
      split
      · rename_i hnm
        refine noIndent_append hl (ih r (by simp at hs; omega) ?_ (notContinued_tail hx hn))
        rcases noIndent_cases r with hr | ⟨b, r', hb, rfl⟩
        · exact hr
        · exact absurd (named_append ['\n'] hnm) (notContinued_head hx hb hn).1
      · cases x with
        | nil => simp [NoIndent]
        | cons c x => simpa [NoIndent] using h

/-- replacing lines and unfolding can be exchanged -/
theorem replace_unfold (hl : Unfolds line uline) {k : Str} (hk : NoLf k) (hi : NoIndent k) (n : Nat) : ∀ s : Str, s.length ≤ n → NotContinued k (cutLines s) →
    unfoldSpec (replaceLines k line s) = replaceLines k uline (unfoldSpec s) ∧
    ∀ acc b r, NoLf acc → Decided k acc → (b = ' ' ∨ b = '\t') → s = b :: r →
      ∃ r', replaceLines k line s = b :: r' ∧ replaceLines k uline (acc ++ unfoldSpec r) = acc ++ unfoldSpec r' := by
  induction n with
  | zero =>
    intro s hs _
    obtain rfl : s = [] := List.length_eq_zero_iff.1 (by omega)
    exact ⟨rfl, fun _ _ _ _ _ _ h => by cases h⟩
  | succ n ih =>
    intro s hs hn
    constructor
    · rcases cut_first s with hx | ⟨x, r, hx, rfl⟩
      · rw [noLf_unfold hx, replaceLines_last hx, replaceLines_last hx]
        split
        · exact unfolds_all hl
        · exact noLf_unfold hx
      · have hlen : r.length ≤ n := by simp at hs; omega
        have hn' := notContinued_tail hx hn
        rw [replaceLines_line hk hx]
        rcases noIndent_cases r with hr | ⟨b, r, hb, rfl⟩
        · rw [unfold_next hx hr, replaceLines_line hk hx, ← (ih r hlen hn').1]
          split
          · exact hl.2 _ (replaceLines_noIndent hk hl.1 _ r (Nat.le_refl _) hr hn')
          · have := unfold_next hx (replaceLines_noIndent hk hl.1 _ r (Nat.le_refl _) hr hn')
            simpa using this
        · obtain ⟨h1, h2⟩ := notContinued_head hx hb hn
          have h1' : ¬ NamedLine k x := fun h => h1 (named_append _ h)
          have hc : NoLf (lineContent (x ++ ['\n'])) := fun e => hx ((content_prefix x).subset e)
          have hd : Decided k (lineContent (x ++ ['\n'])) := by
            refine decided_of (fun h => h1' ?_) h2
            obtain ⟨t, ht⟩ := content_prefix x
            rw [← ht]
            exact named_append t h
          obtain ⟨r', e1, e2⟩ := (ih _ hlen hn').2 _ b r hc hd hb rfl
          rw [if_neg h1', e1, unfold_continued hx hb, e2]
          have := unfold_continued (r := r') hx hb
          simpa using this
    · rintro acc b r ha hd hb rfl
      have hnb : ∀ y, ¬ NamedLine k (b :: y) := by
        intro y hy
        have := named_noIndent hi hy
        rcases hb with rfl | rfl <;> simp [NoIndent] at this
      rcases cut_first r with hx | ⟨x, r, hx, rfl⟩
      · refine ⟨r, ?_, ?_⟩
        · have hbx : NoLf (b :: r) := by
            rcases hb with rfl | rfl <;> simpa [NoLf] using hx
          rw [replaceLines_last hbx, if_neg (hnb r)]
        · rw [noLf_unfold hx, replaceLines_last (by simpa [NoLf] using ⟨ha, hx⟩), if_neg (hd r)]
      · have hbx : NoLf (b :: x) := by
          rcases hb with rfl | rfl <;> simpa [NoLf] using hx
        rw [← List.cons_append] at hn hs ⊢
        have hlen : r.length ≤ n := by simp at hs; omega
        have hn' := notContinued_tail hbx hn
        refine ⟨x ++ '\n' :: replaceLines k line r, ?_, ?_⟩
        · rw [replaceLines_line hk hbx, if_neg (hnb x)]
          simp
        · rcases noIndent_cases r with hr | ⟨b', r, hb', rfl⟩
          · rw [unfold_next hx hr, unfold_next hx (replaceLines_noIndent hk hl.1 _ r (Nat.le_refl _) hr hn'),
              ← List.append_assoc, replaceLines_line hk (by simpa [NoLf] using ⟨ha, hx⟩), if_neg (hd x), (ih r hlen hn').1]
            simp
          · have hc : NoLf (lineContent (x ++ ['\n'])) := fun e => hx ((content_prefix x).subset e)
            obtain ⟨r', e1, e2⟩ := (ih _ hlen hn').2 (acc ++ lineContent (x ++ ['\n'])) b' r
              (by simpa [NoLf] using ⟨ha, hc⟩) (fun t => by rw [List.append_assoc]; exact hd _) hb' rfl
            rw [e1, unfold_continued hx hb', unfold_continued hx hb', ← List.append_assoc, e2, List.append_assoc]

/-- **C152.** If no line of the name is continued, then it does not matter whether the lines of the name are replaced in
the file or in the unfolded file. -/
theorem restated_unfold {k : Str} (hk : ∀ c ∈ k, c ≠ '\n' ∧ c ≠ ' ' ∧ c ≠ '\t') {x s : Str} (hx : NoLf x) (hxi : NoIndent (x ++ ['\n']))
    (hn : NotContinued k (cutLines s)) :
    unfold (replaceLines k (x ++ ['\n']) s) = replaceLines k (x ++ ['\n']) (unfold s) := by
  rw [unfold_eq_spec, unfold_eq_spec]
  have hl : Unfolds (x ++ ['\n']) (x ++ ['\n']) := by
    refine ⟨hxi, fun t ht => ?_⟩
    have := unfold_next hx ht
    simpa using this
  refine (replace_unfold hl (fun h => (hk _ h).1 rfl) ?_ _ s (Nat.le_refl _) hn).1
  constructor
  · intro h; exact (hk _ (List.mem_of_mem_head? (by rw [h]; rfl))).2.1 rfl
  · intro h; exact (hk _ (List.mem_of_mem_head? (by rw [h]; rfl))).2.2 rfl

/-! ### documents -/

/-- replacing lines in a line and what follows -/
theorem replaceLines_break {k : Str} (hk : NoLf k) (hr : '\r' ∉ k) {x : Str} (h : NoLf x) (br : Break) (r : Str) :
    replaceLines k line (x ++ (br.text ++ r)) = (if NamedLine k x then line else x ++ br.text) ++ replaceLines k line r := by
  obtain ⟨q, hq, e⟩ := break_cases br
  have hn : NamedLine k (x ++ q) ↔ NamedLine k x := by
    cases br
    · obtain rfl : q = ['\r'] := by
        have : q ++ ['\n'] = ['\r'] ++ ['\n'] := e.symm
        exact (List.append_inj' this rfl).1
      unfold NamedLine
      rw [prefix_before (by simpa using hr), prefix_before (by simpa using hr)]
    · obtain rfl : q = [] := by
        have : q ++ ['\n'] = [] ++ ['\n'] := e.symm
        exact (List.append_inj' this rfl).1
      rw [List.append_nil]
  have := replaceLines_line (line := line) hk (x := x ++ q) (by simpa [NoLf] using ⟨h, hq⟩) r
  rw [e]
  simp only [List.append_assoc, List.cons_append, List.nil_append] at this ⊢
  rw [this]
  by_cases hx : NamedLine k x
  · rw [if_pos (hn.2 hx), if_pos hx]
  · rw [if_neg (fun h => hx (hn.1 h)), if_neg hx]

theorem replaceLines_blank {k : Str} (hk : NoLf k) (hr : '\r' ∉ k) {bl : Str} (h : Blank bl) (r : Str) :
    replaceLines k line (bl ++ r) = bl ++ replaceLines k line r := by
  obtain ⟨bs, rfl⟩ := h
  induction bs with
  | nil => rfl
  | cons b bs ih =>
    have := replaceLines_break (line := line) hk hr (x := []) (by decide) b ((bs.map Break.text).flatten ++ r)
    rw [List.nil_append] at this
    rw [List.map_cons, List.flatten_cons, List.append_assoc, this, ih, if_neg]
    · simp
    · rintro (h | h) <;> simp at h

theorem replaceLines_mem {k : Str} (hk : NoLf k) {c : Char} (n : Nat) (s : Str) (hs : s.length ≤ n) (h : c ∈ replaceLines k line s) :
    c ∈ s ∨ c ∈ line := by
  induction n generalizing s with
  | zero =>
    obtain rfl : s = [] := List.length_eq_zero_iff.1 (by omega)
    exact .inl h
  | succ n ih =>
    rcases cut_first s with hx | ⟨x, r, hx, rfl⟩
    · rw [replaceLines_last hx] at h
      split at h
      · exact .inr h
      · exact .inl h
    · rw [replaceLines_line hk hx] at h
      rcases List.mem_append.1 h with h | h
      · split at h
        · exact .inr h
        · refine .inl ?_
          simp at h ⊢
          grind
      · rcases ih r (by simp at hs; omega) h with h | h
        · exact .inl (by simp [h])
        · exact .inr h

end

section

variable [Uni] {params : List DParam} {val : Str}

/-- the lines of elements with some replaced present the elements with these replaced -/
theorem spaced_restated {k : Str} (hk : KeyOk k) {br : Break} : (l : List Item) → ItemsOk br l → ItemsUnbroken l → {s : Str} → SpacedAll br l s →
    ∃ bl s', Blank bl ∧ SpacedAll br (withReplaced k params val l) s' ∧ ∀ t, replaceLines k ((Item.prop k params val).text br) (s ++ t) = bl ++ (s' ++ replaceLines k ((Item.prop k params val).text br) t)
  | [], _, _, s, hs => by
    simp only [SpacedAll] at hs
    subst hs
    exact ⟨[], [], blank_nil, by simp [withReplaced, SpacedAll], fun t => rfl⟩
  | .prop key params' val' :: l, h, hu, s, hs => by
    obtain ⟨⟨hkc, hks⟩, hk1, hk2, -⟩ := name_plain hk.name
    simp only [SpacedAll, Spaced] at hs
    obtain ⟨s1, s2, ⟨bl, hb, rfl⟩, h2, rfl⟩ := hs
    simp only [ItemsOk, Item.Ok] at h
    simp only [ItemsUnbroken, Item.Unbroken] at hu
    obtain ⟨bl', s', hb', hs', e⟩ := spaced_restated hk l h.2 hu.2 h2
    have hline := fun t => replaceLines_break (line := (Item.prop k params val).text br) hk1 hk2 hu.1.2 br t
    have hnamed : NamedLine k (key ++ (params'.map DParam.text).flatten ++ [':'] ++ val') ↔ key = k := by
      obtain ⟨d, t, hd, ht⟩ := params_start params' val'
      rw [List.append_assoc, List.append_assoc, ht]
      exact named_key ⟨hkc, hks⟩ (name_plain h.1.1.name).1 hd
    by_cases hkey : key = k
    · subst hkey
      refine ⟨[], (Item.prop key params val).text br ++ (bl ++ bl') ++ s', blank_nil, ?_, fun t => ?_⟩
      · rw [withReplaced, if_pos rfl]
        simp only [SpacedAll, Spaced]
        exact ⟨_, s', ⟨bl ++ bl', blank_append hb hb', rfl⟩, hs', rfl⟩
      · have := hline (bl ++ (s2 ++ t))
        rw [if_pos (hnamed.2 rfl), replaceLines_blank hk1 hk2 hb, e] at this
        simp only [Item.text, List.append_assoc, List.nil_append] at this ⊢
        exact this
    · refine ⟨[], (Item.prop key params' val').text br ++ (bl ++ bl') ++ s', blank_nil, ?_, fun t => ?_⟩
      · rw [withReplaced, if_neg hkey]
        simp only [SpacedAll, Spaced]
        exact ⟨_, s', ⟨bl ++ bl', blank_append hb hb', rfl⟩, hs', rfl⟩
      · have := hline (bl ++ (s2 ++ t))
        rw [if_neg (fun h => hkey (hnamed.1 h)), replaceLines_blank hk1 hk2 hb, e] at this
        simp only [Item.text, List.append_assoc, List.nil_append] at this ⊢
        exact this
  | .comp b e' name items :: l, h, hu, s, hs => by
    obtain ⟨⟨hkc, hks⟩, hk1, hk2, -⟩ := name_plain hk.name
    simp only [SpacedAll, Spaced] at hs
    obtain ⟨s1, s2, ⟨bl, body, bl', hb, hb', hbody, rfl⟩, h2, rfl⟩ := hs
    simp only [ItemsOk, Item.Ok] at h
    simp only [ItemsUnbroken, Item.Unbroken] at hu
    obtain ⟨blr, sr, hbr, hsr, er⟩ := spaced_restated hk l h.2 hu.2 h2
    obtain ⟨bli, si, hbi, hsi, ei⟩ := spaced_restated hk items h.1.2.2.2 hu.1 hbody
    have hbn : NoLf (b ++ name) := by
      have := (keyword_unbroken h.1.1 (by decide) (by decide)).2
      simpa [NoLf] using ⟨this, (name_plain h.1.2.2.1).2.1⟩
    have hen : NoLf (e' ++ name) := by
      have := (keyword_unbroken h.1.2.1 (by decide) (by decide)).2
      simpa [NoLf] using ⟨this, (name_plain h.1.2.2.1).2.1⟩
    have hbnm : ¬ NamedLine k (b ++ name) := by simpa using keyword_not_named (name := name) hk (.inl h.1.1) []
    have henm : ¬ NamedLine k (e' ++ name) := by simpa using keyword_not_named (name := name) hk (.inr h.1.2.1) []
    refine ⟨[], b ++ (name ++ (br.text ++ (bl ++ bli) ++ (si ++ (e' ++ (name ++ (br.text ++ (bl' ++ blr))))))) ++ sr, blank_nil, ?_, fun t => ?_⟩
    · rw [withReplaced]
      simp only [SpacedAll, Spaced]
      exact ⟨_, sr, ⟨bl ++ bli, si, bl' ++ blr, blank_append hb hbi, blank_append hb' hbr, hsi, rfl⟩, hsr, rfl⟩
    · have e1 := replaceLines_break (line := (Item.prop k params val).text br) hk1 hk2 hbn br (bl ++ (body ++ (e' ++ (name ++ (br.text ++ (bl' ++ (s2 ++ t)))))))
      have e2 := replaceLines_break (line := (Item.prop k params val).text br) hk1 hk2 hen br (bl' ++ (s2 ++ t))
      rw [if_neg henm, replaceLines_blank hk1 hk2 hb', er] at e2
      simp only [List.append_assoc] at e2
      rw [if_neg hbnm, replaceLines_blank hk1 hk2 hb, ei, e2] at e1
      simp only [List.append_assoc, List.nil_append] at e1 ⊢
      exact e1

theorem restated_ok {k : Str} {br : Break} (hi : (Item.prop k params val).Ok br) : (l : List Item) → ItemsOk br l →
    ItemsOk br (withReplaced k params val l)
  | [], _ => by simp [withReplaced, ItemsOk]
  | .prop key params' val' :: l, h => by
    simp only [ItemsOk] at h
    rw [withReplaced]
    simp only [ItemsOk]
    refine ⟨?_, restated_ok hi l h.2⟩
    split
    · exact hi
    · exact h.1
  | .comp b e name items :: l, h => by
    simp only [ItemsOk, Item.Ok] at h
    rw [withReplaced]
    simp only [ItemsOk]
    refine ⟨?_, restated_ok hi l h.2⟩
    rw [Item.Ok]
    exact ⟨h.1.1, h.1.2.1, h.1.2.2.1, restated_ok hi items h.1.2.2.2⟩

theorem unfolds_prop {k : Str} {br : Break} (hi : (Item.prop k params val).Ok br) (hu : (Item.prop k params val).Unbroken) :
    Unfolds ((Item.prop k params val).text br) ((Item.prop k params val).text br) := by
  refine ⟨?_, fun t ht => ?_⟩
  · have := item_noIndent hi []
    rwa [List.append_nil] at this
  · simp only [Item.Unbroken] at hu
    rw [Item.text, List.append_assoc, unfoldSpec_break _ br t ht, noLf_unfold hu.2]
    simp only [List.append_assoc]

/-- a text that is unfolded to the unfolded file with lines replaced presents the document with these replaced -/
theorem presents_restated {k : Str} (hk : KeyOk k) {br : Break} {b e n : Str} {l : List Item} (h : (Item.comp b e n l).Ok br)
    (hu : (Item.comp b e n l).Unbroken) {file : Str} (hp : Presents br (.comp b e n l) file)
    (hi : (Item.prop k params val).Ok br) (hiu : (Item.prop k params val).Unbroken) {out : Str}
    (hunf : unfold out = replaceLines k ((Item.prop k params val).text br) (unfold file)) :
    (Item.comp b e n (withReplaced k params val l)).Ok br ∧ Presents br (.comp b e n (withReplaced k params val l)) out := by
  obtain ⟨-, hk1, hk2, -⟩ := name_plain hk.name
  simp only [Item.Ok] at h
  simp only [Item.Unbroken] at hu
  simp only [Presents] at hp
  obtain ⟨lead, bl, body, tail, hl, hb, ht, hbody, hcr, hfold⟩ := hp
  obtain ⟨bli, si, hbi, hsi, ei⟩ := spaced_restated (params := params) (val := val) hk l h.2.2.2 hu hbody
  have hfu := foldedForm_unfold hfold
  rw [hfu, unfold_eq_spec] at hunf
  have hbn : NoLf (b ++ n) := by
    have := (keyword_unbroken h.1 (by decide) (by decide)).2
    simpa [NoLf] using ⟨this, (name_plain h.2.2.1).2.1⟩
  have hbnm : ¬ NamedLine k (b ++ n) := by simpa using keyword_not_named (name := n) hk (.inl h.1) []
  have hlast : replaceLines k ((Item.prop k params val).text br) (e ++ (n ++ tail)) = e ++ (n ++ tail) := by
    have hen : NoLf (e ++ n) := by
      have := (keyword_unbroken h.2.1 (by decide) (by decide)).2
      simpa [NoLf] using ⟨this, (name_plain h.2.2.1).2.1⟩
    have henm : ¬ NamedLine k (e ++ n) := by simpa using keyword_not_named (name := n) hk (.inr h.2.1) []
    obtain ⟨bs, rfl⟩ := ht
    cases bs with
    | nil => simpa [henm] using replaceLines_last (line := (Item.prop k params val).text br) (k := k) hen
    | cons br' bs =>
      have := replaceLines_break (line := (Item.prop k params val).text br) hk1 hk2 hen br' (bs.map Break.text).flatten
      have hbl := replaceLines_blank (line := (Item.prop k params val).text br) hk1 hk2 (k := k) ⟨bs, rfl⟩ []
      rw [List.append_nil, replaceLines_nil, List.append_nil] at hbl
      rw [if_neg henm, hbl] at this
      simpa using this
  have hbegin := replaceLines_break (line := (Item.prop k params val).text br) hk1 hk2 hbn br (bl ++ (body ++ (e ++ (n ++ tail))))
  rw [if_neg hbnm, replaceLines_blank hk1 hk2 hb, ei, hlast] at hbegin
  have hmem := hunf
  rw [replaceLines_blank hk1 hk2 hl] at hunf
  simp only [List.append_assoc] at hunf hbegin
  rw [hbegin] at hunf
  have hform := foldedForm_self out
  refine ⟨by simp only [Item.Ok]; exact ⟨h.1, h.2.1, h.2.2.1, restated_ok hi l h.2.2.2⟩, ?_⟩
  simp only [Presents]
  refine ⟨lead, bl ++ bli, si, tail, hl, blank_append hb hbi, ht, hsi, fun hlf hc => ?_, ?_⟩
  · have hc' : '\r' ∈ replaceLines k ((Item.prop k params val).text br)
        (lead ++ (b ++ (n ++ (br.text ++ bl ++ (body ++ (e ++ (n ++ tail))))))) := by
      rw [← hmem, hunf]
      simpa only [List.append_assoc] using hc
    rcases replaceLines_mem hk1 _ _ (Nat.le_refl _) hc' with hc | hc
    · exact hcr hlf hc
    · subst hlf
      rw [Item.text] at hc
      simp only [Item.Unbroken] at hiu
      rcases List.mem_append.1 hc with hc | hc
      · exact hiu.1 hc
      · simp [Break.text] at hc
  · rw [hunf] at hform
    simpa only [List.append_assoc] using hform

/-- a line that is unfolded to a content line, in place of others of this name -/
theorem restated_presents {k : Str} (hk : KeyOk k) {br : Break} {b e n : Str} {l : List Item} (h : (Item.comp b e n l).Ok br)
    (hu : (Item.comp b e n l).Unbroken) {file : Str} (hp : Presents br (.comp b e n l) file) (hn : NotContinued k (cutLines file))
    (hi : (Item.prop k params val).Ok br) (hiu : (Item.prop k params val).Unbroken) {line : Str}
    (hline : Unfolds line ((Item.prop k params val).text br)) :
    (Item.comp b e n (withReplaced k params val l)).Ok br ∧ Presents br (.comp b e n (withReplaced k params val l)) (replaceLines k line file) := by
  obtain ⟨-, hk1, hk2, hk3⟩ := name_plain hk.name
  refine presents_restated hk h hu hp hi hiu ?_
  rw [unfold_eq_spec, unfold_eq_spec]
  refine (replace_unfold hline hk1 ?_ _ file (Nat.le_refl _) hn).1
  constructor
  · intro h; exact (hk3 _ (List.mem_of_mem_head? (by rw [h]; rfl))).2.1 rfl
  · intro h; exact (hk3 _ (List.mem_of_mem_head? (by rw [h]; rfl))).2.2 rfl

/-- **C152.** Replacing the lines of a name in a file that presents a document gives a file that presents the document with
the content lines of this name replaced, at any depth. -/
theorem restated_document {k : Str} (hk : KeyOk k) {br : Break} {b e n : Str} {l : List Item} (h : (Item.comp b e n l).Ok br)
    (hu : (Item.comp b e n l).Unbroken) {file : Str} (hp : Presents br (.comp b e n l) file) (hn : NotContinued k (cutLines file))
    (hi : (Item.prop k params val).Ok br) (hiu : (Item.prop k params val).Unbroken) :
    (Item.comp b e n (withReplaced k params val l)).Ok br ∧
      Presents br (.comp b e n (withReplaced k params val l)) (replaceLines k ((Item.prop k params val).text br) file) :=
  restated_presents hk h hu hp hn hi hiu (unfolds_prop hi hiu)

/-! ### calendars -/

omit [Uni] in
theorem linesNamed_restated (k x : Str) : (l : List Item) →
    linesNamed x (withReplaced k params val l) = if x = k then (linesNamed x l).map (fun _ => (params, val)) else linesNamed x l
  | [] => by simp [withReplaced, linesNamed]
  | .prop key params' val' :: l => by
    have ih := linesNamed_restated k x l
    rw [withReplaced]
    by_cases h : key = k
    · rw [if_pos h, linesNamed, linesNamed, ih]
      subst h
      by_cases hx : x = key
      · subst hx; simp
      · have hx' : ¬ key = x := fun e => hx e.symm
        simp [hx, hx']
    · rw [if_neg h, linesNamed, linesNamed, ih]
      by_cases hx : x = k
      · subst hx; simp [h]
      · simp [hx]
  | .comp b e n items :: l => by
    rw [withReplaced, linesNamed, linesNamed, linesNamed_restated k x l]

omit [Uni] in
theorem counting_restated (k x : Str) (l : List Item) :
    counting x (withReplaced k params val l) = if x = k then (counting x l).map (fun _ => (params, val)) else counting x l := by
  unfold counting
  rw [linesNamed_restated]
  by_cases hx : x = k
  · by_cases hr : x ∈ repeatable
    · simp only [if_pos hx, if_pos hr]
    · simp only [if_pos hx, if_neg hr, List.getLast?_map]
      cases (linesNamed x l).getLast? <;> rfl
  · simp only [if_neg hx]

omit [Uni] in
theorem props_restated (k : Str) (l : List Item) :
    (itemsProps (withReplaced k params val l)).map PProp.toProperty =
      ((itemsProps l).map PProp.toProperty).map (fun q => if q.key = k then (meaningProp k params val).toProperty else q) := by
  induction l with
  | nil => simp [withReplaced, itemsProps]
  | cons i l ih =>
    cases i with
    | prop key params' val' =>
      have e : (meaningProp key params' val').toProperty.key = key := rfl
      rw [withReplaced]
      by_cases h : key = k
      · rw [if_pos h, itemsProps, itemsProps, List.map_cons, List.map_cons, List.map_cons, ih, e, if_pos h]
      · rw [if_neg h, itemsProps, itemsProps, List.map_cons, List.map_cons, List.map_cons, ih, e, if_neg h]
    | comp b e n items => rw [withReplaced, itemsProps_comp, itemsProps_comp, ih]

omit [Uni] in
theorem read_restated (k b e n : Str) (l : List Item)
    (h : WithReplacedAll (meaningProp k params val).toProperty (toOthers (itemsComps l)) (toOthers (itemsComps (withReplaced k params val l)))) :
    WithReplaced (meaningProp k params val).toProperty (readAs (.comp b e n l)).toOther
      (readAs (.comp b e n (withReplaced k params val l))).toOther := by
  have hk : (meaningProp k params val).toProperty.key = k := rfl
  rw [toOther_readAs, toOther_readAs]
  simp only [WithReplaced]
  refine ⟨trivial, fun x => ?_, fun x => ?_, h⟩
  · simp only [lookup_eq_get, inner_props_counting, counting_restated, hk]
    by_cases hx : x = k
    · subst hx
      by_cases hr : x ∈ repeatable
      · simp [hr]
      · simp only [if_true, if_neg hr]
        cases counting x l <;> rfl
    · simp only [if_neg hx]
  · simp only [lookup_eq_get, inner_multi_counting, counting_restated, hk]
    by_cases hx : x = k
    · subst hx
      by_cases hr : x ∈ repeatable
      · simp only [hr, if_true, true_and]
        cases counting x l <;> simp
      · simp [hr]
    · simp only [if_neg hx]

omit [Uni] in
theorem comps_restated (k : Str) : (l : List Item) →
    WithReplacedAll (meaningProp k params val).toProperty (toOthers (itemsComps l)) (toOthers (itemsComps (withReplaced k params val l)))
  | [] => by simp [withReplaced, itemsComps, toOthers, WithReplacedAll]
  | .prop key params' val' :: l => by
    rw [withReplaced]
    split <;> rw [itemsComps, itemsComps] <;> exact comps_restated k l
  | .comp b e n items :: l => by
    rw [withReplaced, itemsComps_comp, itemsComps_comp, toOthers, toOthers]
    simp only [WithReplacedAll]
    exact ⟨read_restated k b e n items (comps_restated k items), comps_restated k l⟩

omit [Uni] in
theorem kinds_restated (k : Str) : (l : List Item) →
    CompsWithReplaced (meaningProp k params val).toProperty ((itemsComps l).map PComp.toCalComp)
      ((itemsComps (withReplaced k params val l)).map PComp.toCalComp)
  | [] => by simp [withReplaced, itemsComps, CompsWithReplaced]
  | .prop key params' val' :: l => by
    rw [withReplaced]
    split <;> rw [itemsComps, itemsComps] <;> exact kinds_restated k l
  | .comp b e n items :: l => by
    rw [withReplaced, itemsComps_comp, itemsComps_comp, List.map_cons, List.map_cons]
    simp only [CompsWithReplaced]
    refine ⟨⟨n, kindFor_toCalComp (readAs (.comp b e n items)), kindFor_toCalComp (readAs (.comp b e n _))⟩, ?_, kinds_restated k l⟩
    rw [toOther_toCalComp, toOther_toCalComp]
    exact read_restated k b e n items (comps_restated k items)

/-- **C152.** Replacing the lines of a name in a file replaces the properties of this name in the calendar that is read, at
any depth, and changes nothing else. -/
theorem restated_calendar {k : Str} (hk : KeyOk k) {br : Break} {b e : Str} {l : List Item} (h : (Item.comp b e c!"VCALENDAR" l).Ok br)
    (hu : (Item.comp b e c!"VCALENDAR" l).Unbroken) {file : Str} (hp : Presents br (.comp b e c!"VCALENDAR" l) file)
    (hn : NotContinued k (cutLines file)) (hi : (Item.prop k params val).Ok br) (hiu : (Item.prop k params val).Unbroken) :
    ∃ c d, Calendar.fromStr file = some c ∧
      Calendar.fromStr (replaceLines k ((Item.prop k params val).text br) file) = some d ∧
      CalendarWithReplaced (meaningProp k params val).toProperty c d := by
  obtain ⟨h', hp'⟩ := restated_document hk h hu hp hn hi hiu
  exact ⟨_, _, calendar_presented h hp, calendar_presented h' hp', props_restated k l, kinds_restated k l⟩

/-- **C152.** A written calendar is read, with the line of a property in place of the lines of its name, as the calendar
with this property in place of the properties of its name. -/
theorem restated_written {c : Calendar} (hc : CalendarOk c) (hs : CalendarSafe c) (hst : ∀ x ∈ c.comps, HasStamps x.toOther)
    (hu : UnbrokenCal c) {w : World} (hw : World.Ok w) {out : Str} (h : c.fmtWrite w = .ok out) {p : Property} (hp : PropOk p)
    (hps : ValueSafe p) (hpu : UnbrokenProp p) {w' : World} (hw' : World.Ok w') {line : Str} (hl : p.fmtWrite w' = .ok line)
    (hn : NotContinued p.key (cutLines out)) :
    ∃ d, Calendar.fromStr (replaceLines p.key line out) = some d ∧ CalendarWithReplaced p c d := by
  have hok := calendar_item_ok (calendarOk_writable hc) hw
  have hi := calendar_unbroken hc hu hw
  have hpr := presents_written hc hw h
  have e1 := calendar_roundtrip c hc hs hst w hw out h
  unfold Calendar.item at hok hi hpr
  obtain ⟨h', hp'⟩ := restated_presents hp.key hok hi hpr hn (item_of_prop_ok hw' hp.key hp.params hp.value)
    (propItem_unbroken hp hpu hw') (flatTo_property hp hpu hw' hl).unfolds
  rw [calendar_presented hok hpr] at e1
  have hm := meaning_dparams p hp.params.sorted (hw'.order [] p.params)
  rw [readBack_eq hps] at hm
  rw [← Option.some.inj e1]
  refine ⟨_, calendar_presented h' hp', ?_, ?_⟩
  · have := props_restated (params := (w'.order [] p.params).map dparam) (val := p.valueText) p.key
      (propItems c.props (w.sub 0) ++ compItems c.comps (w.sub 1))
    rw [hm] at this
    exact this
  · have := kinds_restated (params := (w'.order [] p.params).map dparam) (val := p.valueText) p.key
      (propItems c.props (w.sub 0) ++ compItems c.comps (w.sub 1))
    rw [hm] at this
    exact this

/-- **C152.** If the lines of the name have at most 75 octets in a written calendar, then they can be replaced without
looking at what follows them. -/
theorem restated_short {c : Calendar} (hc : CalendarOk c) (hs : CalendarSafe c) (hst : ∀ x ∈ c.comps, HasStamps x.toOther)
    (hu : UnbrokenCal c) {w : World} (hw : World.Ok w) {out : Str} (h : c.fmtWrite w = .ok out) {p : Property} (hp : PropOk p)
    (hps : ValueSafe p) (hpu : UnbrokenProp p) {w' : World} (hw' : World.Ok w') {line : Str} (hl : p.fmtWrite w' = .ok line)
    (hn : ∀ q ∈ calendarProps c, ShortNamed p.key q) :
    ∃ d, Calendar.fromStr (replaceLines p.key line out) = some d ∧ CalendarWithReplaced p c d :=
  restated_written hc hs hst hu hw h hp hps hpu hw' hl (written_notContinued hp.key hc hu hn hw h)

end

end Ical
