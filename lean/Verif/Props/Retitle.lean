import Verif.Spec.Retitle
import Verif.Props.StripBlocks

/-!
C156: giving the components of a name another name in a file by replacing lines.
-/

namespace Ical

open Nom Spec

/-! ### lines -/

section

variable {B B' E E' : Str}

/-- a text with other lines for two given ones -/
def swapLines (B B' E E' s : Str) : Str := ((cutLines s).map (swapLine B B' E E')).flatten

/-- a line without its line feed, with another one for two given ones -/
def swapped (B B' E E' x : Str) : Str :=
  if lineContent (x ++ ['\n']) = B then B' ++ x.drop B.length
  else if lineContent (x ++ ['\n']) = E then E' ++ x.drop E.length
  else x

theorem swapLines_last {x : Str} (h : NoLf x) : swapLines B B' E E' x = if x = [] then [] else if x = B then B' else if x = E then E' else x := by
  unfold swapLines
  rw [cutLines_last h]
  by_cases hx : x = []
  · rw [if_pos hx, if_pos hx]; rfl
  · rw [if_neg hx, if_neg hx, List.map_singleton, swapLine, content_last h]
    split
    · rename_i e; simp [e]
    · split
      · rename_i e; simp [e]
      · simp

theorem swapLines_line {x : Str} (h : NoLf x) (r : Str) :
    swapLines B B' E E' (x ++ '\n' :: r) = swapped B B' E E' x ++ '\n' :: swapLines B B' E E' r := by
  have key : ∀ {t : Str}, lineContent (x ++ ['\n']) = t → (x ++ ['\n']).drop t.length = x.drop t.length ++ ['\n'] := by
    intro t e
    have := (content_prefix x).length_le
    rw [e] at this
    rw [List.drop_append_of_le_length this]
  unfold swapLines
  rw [cutLines_line h, List.map_cons, List.flatten_cons, swapLine, swapped]
  split
  · rename_i e; rw [key e]; simp
  · split
    · rename_i e; rw [key e]; simp
    · simp

theorem swapped_noLf (hB : NoLf B') (hE : NoLf E') {x : Str} (h : NoLf x) : NoLf (swapped B B' E E' x) := by
  unfold swapped
  split
  · exact fun e => (List.mem_append.1 e).elim hB (fun e => h (List.mem_of_mem_drop e))
  · split
    · exact fun e => (List.mem_append.1 e).elim hE (fun e => h (List.mem_of_mem_drop e))
    · exact h

theorem swapped_undecided {x : Str} (hB : ¬ x <+: B ++ ['\r']) (hE : ¬ x <+: E ++ ['\r']) (t : Str) :
    swapped B B' E E' (x ++ t) = x ++ t := by
  unfold swapped
  rw [if_neg (undecided_content hB t), if_neg (undecided_content hE t)]

theorem swapped_continued {x : Str} (hB : ¬ lineContent (x ++ ['\n']) <+: B ++ ['\r'])
    (hE : ¬ lineContent (x ++ ['\n']) <+: E ++ ['\r']) : swapped B B' E E' x = x := by
  unfold swapped
  rw [if_neg (fun e => hB ⟨['\r'], by rw [e]⟩), if_neg (fun e => hE ⟨['\r'], by rw [e]⟩)]

theorem noIndent_head {a : Str} (h : a ≠ []) (hi : NoIndent a) (t : Str) : NoIndent (a ++ t) := by
  cases a with
  | nil => exact absurd rfl h
  | cons c a => simpa [NoIndent] using hi

theorem swapLines_noIndent (hB : B' ≠ [] ∧ NoIndent B') (hE : E' ≠ [] ∧ NoIndent E') {s : Str} (h : NoIndent s) :
    NoIndent (swapLines B B' E E' s) := by
  rcases cut_first s with hx | ⟨x, r, hx, rfl⟩
  · rw [swapLines_last hx]
    split
    · exact noIndent_nil
    · split
      · exact hB.2
      · split
        · exact hE.2
        · exact h
  · rw [swapLines_line hx, swapped]
    split
    · rw [List.append_assoc]; exact noIndent_head hB.1 hB.2 _
    · split
      · rw [List.append_assoc]; exact noIndent_head hE.1 hE.2 _
      · cases x with
        | nil => simp [NoIndent]
        | cons c x => simpa [NoIndent] using h

/-- replacing lines and unfolding can be exchanged -/
theorem swapLines_unfold (hB : ∀ c ∈ B, c ≠ ' ' ∧ c ≠ '\t') (hE : ∀ c ∈ E, c ≠ ' ' ∧ c ≠ '\t') (hB' : B' ≠ [] ∧ NoIndent B')
    (hE' : E' ≠ [] ∧ NoIndent E') (lB : NoLf B') (lE : NoLf E') (n : Nat) : ∀ s : Str, s.length ≤ n →
    NotCut (B ++ ['\r']) (cutLines s) → NotCut (E ++ ['\r']) (cutLines s) →
    unfoldSpec (swapLines B B' E E' s) = swapLines B B' E E' (unfoldSpec s) ∧
    ∀ acc b r, NoLf acc → ¬ acc <+: B ++ ['\r'] → ¬ acc <+: E ++ ['\r'] → (b = ' ' ∨ b = '\t') → s = b :: r →
      ∃ r', swapLines B B' E E' s = b :: r' ∧ swapLines B B' E E' (acc ++ unfoldSpec r) = acc ++ unfoldSpec r' := by
  induction n with
  | zero =>
    intro s hs _ _
    obtain rfl : s = [] := List.length_eq_zero_iff.1 (by omega)
    exact ⟨rfl, fun _ _ _ _ _ _ _ h => by cases h⟩
  | succ n ih =>
    intro s hs nB nE
    constructor
    · rcases cut_first s with hx | ⟨x, r, hx, rfl⟩
      · rw [noLf_unfold hx, swapLines_last hx]
        split
        · rfl
        · split
          · exact noLf_unfold lB
          · split
            · exact noLf_unfold lE
            · exact noLf_unfold hx
      · have hlen : r.length ≤ n := by simp at hs; omega
        have nB' := notCut_tail hx nB
        have nE' := notCut_tail hx nE
        obtain ⟨i1, i2⟩ := ih r hlen nB' nE'
        rcases noIndent_cases r with hr | ⟨b, r, hb, rfl⟩
        · rw [unfold_next hx hr, swapLines_line hx, swapLines_line hx,
            unfold_next (swapped_noLf lB lE hx) (swapLines_noIndent hB' hE' hr), i1]
        · have hdB := notCut_head hx hb nB
          have hdE := notCut_head hx hb nE
          have hc : NoLf (lineContent (x ++ ['\n'])) := fun e => hx ((content_prefix x).subset e)
          obtain ⟨r', j2, j3⟩ := i2 _ b r hc hdB hdE hb rfl
          rw [unfold_continued hx hb, swapLines_line hx, swapped_continued hdB hdE, j2, unfold_continued hx hb, j3]
    · rintro acc b r ha hdB hdE hb rfl
      have hbB := blank_undecided hB hb
      have hbE := blank_undecided hE hb
      have hane : acc ≠ [] := by rintro rfl; exact hdB (List.nil_prefix)
      rcases cut_first r with hx | ⟨x, r, hx, rfl⟩
      · have hax : NoLf (acc ++ r) := by simpa [NoLf] using ⟨ha, hx⟩
        have hbx : NoLf (b :: r) := by
          rcases hb with rfl | rfl <;> simpa [NoLf] using hx
        rw [noLf_unfold hx, swapLines_last hax, swapLines_last hbx, if_neg (show acc ++ r ≠ [] by simp [hane]), if_neg (show b :: r ≠ [] by simp),
          if_neg (undecided_last hdB r), if_neg (show b :: r ≠ B from undecided_last hbB r), if_neg (undecided_last hdE r),
          if_neg (show b :: r ≠ E from undecided_last hbE r)]
        exact ⟨r, rfl, by rw [noLf_unfold hx]⟩
      · have hbx : NoLf (b :: x) := by
          rcases hb with rfl | rfl <;> simpa [NoLf] using hx
        have hax : NoLf (acc ++ x) := by simpa [NoLf] using ⟨ha, hx⟩
        rw [← List.cons_append] at nB nE hs ⊢
        have hlen : r.length ≤ n := by simp at hs; omega
        have nB' := notCut_tail hbx nB
        have nE' := notCut_tail hbx nE
        obtain ⟨i1, i2⟩ := ih r hlen nB' nE'
        have c1 : swapped B B' E E' (b :: x) = b :: x := swapped_undecided (x := [b]) hbB hbE x
        rw [swapLines_line hbx, c1]
        rcases noIndent_cases r with hr | ⟨b', r, hb', rfl⟩
        · rw [unfold_next hx hr, ← List.append_assoc, swapLines_line hax, swapped_undecided hdB hdE]
          refine ⟨x ++ '\n' :: swapLines B B' E E' r, by simp, ?_⟩
          rw [unfold_next hx (swapLines_noIndent hB' hE' hr), i1, List.append_assoc]
        · have hc : NoLf (lineContent (x ++ ['\n'])) := fun e => hx ((content_prefix x).subset e)
          obtain ⟨r', j2, j3⟩ := i2 (acc ++ lineContent (x ++ ['\n'])) b' r (by simpa [NoLf] using ⟨ha, hc⟩)
            (undecided_append hdB _) (undecided_append hdE _) hb' rfl
          rw [unfold_continued hx hb', ← List.append_assoc]
          refine ⟨x ++ '\n' :: b' :: r', by rw [j2]; simp, ?_⟩
          rw [unfold_continued hx hb', j3, List.append_assoc]

theorem swapLines_mem {s : Str} {c : Char} (h : c ∈ swapLines B B' E E' s) : c ∈ s ∨ c ∈ B' ∨ c ∈ E' := by
  obtain ⟨y, hy, hc⟩ := List.mem_flatten.1 h
  obtain ⟨x, hx, rfl⟩ := List.mem_map.1 hy
  have hin : ∀ {c : Char}, c ∈ x → c ∈ s := fun h => by
    rw [← cutLines_flatten s]
    exact List.mem_flatten.2 ⟨x, hx, h⟩
  unfold swapLine at hc
  split at hc
  · exact (List.mem_append.1 hc).elim (fun h => .inr (.inl h)) (fun h => .inl (hin (List.mem_of_mem_drop h)))
  · split at hc
    · exact (List.mem_append.1 hc).elim (fun h => .inr (.inr h)) (fun h => .inl (hin (List.mem_of_mem_drop h)))
    · exact .inl (hin hc)

/-- another line for two given ones -/
def swappedTo (B B' E E' x : Str) : Str := if x = B then B' else if x = E then E' else x

theorem swapLines_break {x : Str} (h : NoLf x) (hr : '\r' ∉ x) (br : Break) (r : Str) :
    swapLines B B' E E' (x ++ (br.text ++ r)) = swappedTo B B' E E' x ++ (br.text ++ swapLines B B' E E' r) := by
  have hc := content_break hr br
  obtain ⟨q, hq, e⟩ := break_cases br
  have := swapLines_line (B := B) (B' := B') (E := E) (E' := E') (x := x ++ q) (by simpa [NoLf] using ⟨h, hq⟩) r
  rw [e, ← List.append_assoc] at hc
  rw [swapped, hc] at this
  rw [e, swappedTo]
  split
  · rename_i ex
    subst ex
    simpa using this
  · rename_i ex
    rw [if_neg ex] at this
    split
    · rename_i ey
      subst ey
      simpa using this
    · rename_i ey
      rw [if_neg ey] at this
      simpa using this

theorem swapLines_blank (hB : B ≠ []) (hE : E ≠ []) {bl : Str} (h : Blank bl) (r : Str) :
    swapLines B B' E E' (bl ++ r) = bl ++ swapLines B B' E E' r := by
  obtain ⟨bs, rfl⟩ := h
  induction bs with
  | nil => rfl
  | cons b bs ih =>
    have h1 := swapLines_break (B := B) (B' := B') (E := E) (E' := E') (x := []) (by decide) (by simp) b ((bs.map Break.text).flatten ++ r)
    rw [swappedTo, if_neg (Ne.symm hB), if_neg (Ne.symm hE), List.nil_append, List.nil_append, ih] at h1
    rw [List.map_cons, List.flatten_cons, List.append_assoc, h1]
    simp

end

/-! ### documents -/

section

variable [Uni] {k k' : Str}

omit [Uni] in
theorem retitle_break {x : Str} (h : NoLf x) (hr : '\r' ∉ x) (br : Break) (r : Str) :
    retitleBlocks k k' (x ++ (br.text ++ r)) =
      swappedTo (c!"BEGIN:" ++ k) (c!"BEGIN:" ++ k') (c!"END:" ++ k) (c!"END:" ++ k') x ++ (br.text ++ retitleBlocks k k' r) :=
  swapLines_break h hr br r

omit [Uni] in
theorem retitle_blank {bl : Str} (h : Blank bl) (r : Str) : retitleBlocks k k' (bl ++ r) = bl ++ retitleBlocks k k' r :=
  swapLines_blank (by simp) (by simp) h r

omit [Uni] in
theorem swapped_begin {b n : Str} (hb : b.map lowerAscii = c!"begin:") (h : n = k → b = c!"BEGIN:") :
    swappedTo (c!"BEGIN:" ++ k) (c!"BEGIN:" ++ k') (c!"END:" ++ k) (c!"END:" ++ k') (b ++ n) = b ++ (if n = k then k' else n) := by
  unfold swappedTo
  by_cases hn : n = k
  · rw [h hn, hn, if_pos rfl, if_pos rfl]
  · rw [if_neg (fun e => hn (keyword_eq hb (by decide) e)), if_neg (begin_not_end hb), if_neg hn]

omit [Uni] in
theorem swapped_end {e n : Str} (he : e.map lowerAscii = c!"end:") (h : n = k → e = c!"END:") :
    swappedTo (c!"BEGIN:" ++ k) (c!"BEGIN:" ++ k') (c!"END:" ++ k) (c!"END:" ++ k') (e ++ n) = e ++ (if n = k then k' else n) := by
  unfold swappedTo
  rw [if_neg (end_not_begin he)]
  by_cases hn : n = k
  · rw [h hn, hn, if_pos rfl, if_pos rfl]
  · rw [if_neg (fun x => hn (keyword_eq he (by decide) x)), if_neg hn]

/-- the lines of elements with other names present the elements with other names -/
theorem spaced_retitled {br : Break} : (l : List Item) → ItemsOk br l → ItemsUnbroken l → CapitalBlocks k l → {s : Str} → SpacedAll br l s →
    ∃ s', SpacedAll br (retitledItems k k' l) s' ∧ ∀ t, retitleBlocks k k' (s ++ t) = s' ++ retitleBlocks k k' t
  | [], _, _, _, s, hs => by
    simp only [SpacedAll] at hs
    subst hs
    exact ⟨[], by simp [retitledItems, SpacedAll], fun t => rfl⟩
  | .prop key params val :: l, h, hu, hn, s, hs => by
    simp only [SpacedAll, Spaced] at hs
    obtain ⟨s1, s2, ⟨bl, hb, rfl⟩, h2, rfl⟩ := hs
    simp only [ItemsOk, Item.Ok] at h
    simp only [ItemsUnbroken, Item.Unbroken] at hu
    obtain ⟨s', hs', e⟩ := spaced_retitled l h.2 hu.2 (by simpa only [CapitalBlocks] using hn) h2
    refine ⟨(Item.prop key params val).text br ++ bl ++ s', ?_, fun t => ?_⟩
    · rw [retitledItems]
      simp only [SpacedAll, Spaced]
      exact ⟨_, s', ⟨bl, hb, rfl⟩, hs', rfl⟩
    · have := retitle_break (k := k) (k' := k') hu.1.2 hu.1.1 br (bl ++ (s2 ++ t))
      rw [swappedTo, if_neg (prop_not_keyword h.1.1 params val).1, if_neg (prop_not_keyword h.1.1 params val).2, retitle_blank hb,
        e] at this
      simp only [Item.text, List.append_assoc] at this ⊢
      exact this
  | .comp b e' n items :: l, h, hu, hn, s, hs => by
    simp only [SpacedAll, Spaced] at hs
    obtain ⟨s1, s2, ⟨bl, body, bl', hb, hb', hbody, rfl⟩, h2, rfl⟩ := hs
    simp only [ItemsOk] at h
    obtain ⟨⟨c1, c2⟩, c3, c4⟩ := comp_lines h.1
    simp only [Item.Ok] at h
    simp only [ItemsUnbroken, Item.Unbroken] at hu
    rw [CapitalBlocks] at hn
    obtain ⟨hn1, hn2, hn3⟩ := hn
    obtain ⟨sr, hsr, er⟩ := spaced_retitled l h.2 hu.2 hn3 h2
    obtain ⟨si, hsi, ei⟩ := spaced_retitled items h.1.2.2.2 hu.1 hn2 hbody
    refine ⟨b ++ ((if n = k then k' else n) ++ (br.text ++ bl ++ (si ++ (e' ++ ((if n = k then k' else n) ++ (br.text ++ bl')))))) ++ sr,
      ?_, fun t => ?_⟩
    · rw [retitledItems]
      simp only [SpacedAll, Spaced]
      exact ⟨_, sr, ⟨bl, si, bl', hb, hb', hsi, rfl⟩, hsr, rfl⟩
    · have e1 := retitle_break (k := k) (k' := k') c1 c2 br
        (bl ++ (body ++ (e' ++ (n ++ (br.text ++ (bl' ++ (s2 ++ t)))))))
      have e2 := retitle_break (k := k) (k' := k') c3 c4 br (bl' ++ (s2 ++ t))
      rw [swapped_end h.1.2.1 (fun x => (hn1 x).2), retitle_blank hb', er, List.append_assoc] at e2
      rw [swapped_begin h.1.1 (fun x => (hn1 x).1), retitle_blank hb, ei, e2] at e1
      simp only [List.append_assoc] at e1 ⊢
      exact e1

theorem retitledItems_ok (hk' : IsName k') {br : Break} : (l : List Item) → ItemsOk br l → ItemsOk br (retitledItems k k' l)
  | [], _ => by simp [retitledItems, ItemsOk]
  | .prop key params val :: l, h => by
    simp only [ItemsOk] at h
    rw [retitledItems]
    simp only [ItemsOk]
    exact ⟨h.1, retitledItems_ok hk' l h.2⟩
  | .comp b e name items :: l, h => by
    simp only [ItemsOk, Item.Ok] at h
    rw [retitledItems]
    simp only [ItemsOk, Item.Ok]
    refine ⟨⟨h.1.1, h.1.2.1, ?_, retitledItems_ok hk' items h.1.2.2.2⟩, retitledItems_ok hk' l h.2⟩
    split
    · exact hk'
    · exact h.1.2.2.1

/-- **C156.** If no line that ends within the first or last line of a component of the name is continued, then it does not
matter whether the lines are replaced before or after unfolding. -/
theorem retitled_unfold (hk : IsName k) (hk' : IsName k') {s : Str} (h : BlocksWhole k (cutLines s)) :
    unfold (retitleBlocks k k' s) = retitleBlocks k k' (unfold s) := by
  have h1 := fun c hc => ((name_plain hk).2.2.2 c hc).2
  have h2 := (name_plain hk').2.2.2
  rw [unfold_eq_spec, unfold_eq_spec]
  refine (swapLines_unfold (B := c!"BEGIN:" ++ k) (E := c!"END:" ++ k) ?_ ?_ ⟨by simp, by simp [NoIndent]⟩ ⟨by simp, by simp [NoIndent]⟩
    ?_ ?_ _ s (Nat.le_refl _) h.1 h.2).1
  · intro c hc
    rcases List.mem_append.1 hc with hc | hc
    · exact (by decide : ∀ c ∈ c!"BEGIN:", c ≠ ' ' ∧ c ≠ '\t') c hc
    · exact h1 c hc
  · intro c hc
    rcases List.mem_append.1 hc with hc | hc
    · exact (by decide : ∀ c ∈ c!"END:", c ≠ ' ' ∧ c ≠ '\t') c hc
    · exact h1 c hc
  · exact fun hc => (List.mem_append.1 hc).elim (by decide) (fun hc => (h2 _ hc).1 rfl)
  · exact fun hc => (List.mem_append.1 hc).elim (by decide) (fun hc => (h2 _ hc).1 rfl)

/-- **C156.** Replacing the lines that begin and end the components of a name in a file that presents a document gives a file
that presents the document with another name for these components, at any depth. -/
theorem retitled_document (hk : IsName k) (hk' : IsName k') {br : Break} {b e n : Str} {l : List Item} (h : (Item.comp b e n l).Ok br)
    (hu : (Item.comp b e n l).Unbroken) (hne : n ≠ k) (hcap : CapitalBlocks k l) {file : Str} (hp : Presents br (.comp b e n l) file)
    (hw : BlocksWhole k (cutLines file)) :
    (Item.comp b e n (retitledItems k k' l)).Ok br ∧ Presents br (.comp b e n (retitledItems k k' l)) (retitleBlocks k k' file) := by
  have hunf := retitled_unfold hk hk' hw
  obtain ⟨⟨c1, c2⟩, c3, c4⟩ := comp_lines h
  simp only [Item.Ok] at h
  simp only [Item.Unbroken] at hu
  simp only [Presents] at hp
  obtain ⟨lead, bl, body, tail, hl, hb, ht, hbody, hcr, hfold⟩ := hp
  obtain ⟨si, hsi, ei⟩ := spaced_retitled (k' := k') l h.2.2.2 hu hcap hbody
  have hfu := foldedForm_unfold hfold
  rw [hfu] at hunf
  have hend := swapped_end (k' := k') h.2.1 (fun x => absurd x hne)
  rw [if_neg hne] at hend
  have hlast : retitleBlocks k k' (e ++ (n ++ tail)) = e ++ (n ++ tail) := by
    obtain ⟨bs, rfl⟩ := ht
    cases bs with
    | nil =>
      have : retitleBlocks k k' (e ++ n) = _ := swapLines_last (B := c!"BEGIN:" ++ k) (E := c!"END:" ++ k) c3
      change _ = if e ++ n = [] then [] else swappedTo _ _ _ _ _ at this
      rw [hend] at this
      rw [if_neg (fun h0 => by
        have he := h.2.1
        rw [(List.append_eq_nil_iff.1 h0).1] at he
        cases he)] at this
      simpa using this
    | cons br' bs =>
      have := retitle_break (k := k) (k' := k') c3 c4 br' (bs.map Break.text).flatten
      have hbl := retitle_blank (k := k) (k' := k') ⟨bs, rfl⟩ []
      have hnil : retitleBlocks k k' [] = [] := rfl
      rw [List.append_nil, hnil, List.append_nil] at hbl
      rw [hend, hbl] at this
      simpa using this
  have hbegin := retitle_break (k := k) (k' := k') c1 c2 br (bl ++ (body ++ (e ++ (n ++ tail))))
  rw [swapped_begin h.1 (fun x => absurd x hne), if_neg hne, retitle_blank hb, ei, hlast] at hbegin
  have hmem := hunf
  rw [retitle_blank hl] at hunf
  simp only [List.append_assoc] at hunf hbegin
  rw [hbegin] at hunf
  have hform := foldedForm_self (retitleBlocks k k' file)
  refine ⟨by simp only [Item.Ok]; exact ⟨h.1, h.2.1, h.2.2.1, retitledItems_ok hk' l h.2.2.2⟩, ?_⟩
  simp only [Presents]
  refine ⟨lead, bl, si, tail, hl, hb, ht, hsi, fun hlf hc => ?_, ?_⟩
  · have hin := swapLines_mem (B := c!"BEGIN:" ++ k) (B' := c!"BEGIN:" ++ k') (E := c!"END:" ++ k) (E' := c!"END:" ++ k')
      (show '\r' ∈ retitleBlocks k k' _ by
        rw [← hmem, hunf]
        simpa only [List.append_assoc] using hc)
    have hno := (name_plain hk').2.2.1
    rcases hin with hin | hin | hin
    · exact hcr hlf hin
    · exact (List.mem_append.1 hin).elim (by decide) hno
    · exact (List.mem_append.1 hin).elim (by decide) hno
  · rw [← unfold_eq_spec, hunf] at hform
    simpa only [List.append_assoc] using hform

/-! ### calendars -/

omit [Uni] in
theorem itemsProps_retitled (l : List Item) : itemsProps (retitledItems k k' l) = itemsProps l := by
  induction l with
  | nil => rw [retitledItems]
  | cons i l ih =>
    cases i with
    | prop key params val => rw [retitledItems, itemsProps, itemsProps, ih]
    | comp b e n items => rw [retitledItems, itemsProps_comp, itemsProps_comp, ih]

omit [Uni] in
theorem itemsComps_retitled : (l : List Item) → toOthers (itemsComps (retitledItems k k' l)) = retitledComps k k' (toOthers (itemsComps l))
  | [] => by simp [retitledItems, itemsComps, toOthers, retitledComps]
  | .prop key params val :: l => by
    rw [retitledItems, itemsComps, itemsComps]
    exact itemsComps_retitled l
  | .comp b e n items :: l => by
    have ih := itemsComps_retitled l
    have ih' := itemsComps_retitled items
    rw [retitledItems, itemsComps_comp, toOthers, toOther_readAs, itemsComps_comp, toOthers, toOther_readAs, retitledComps, ih, ih',
      itemsProps_retitled]
    rw [(innerOfProps_comps _ _ (toOthers (itemsComps items))).1, (innerOfProps_comps _ _ (toOthers (itemsComps items))).2]

/-- **C156.** Replacing the lines that begin and end the components of a name in a file gives these components another name in
the calendar that is read, at any depth, and changes nothing else. -/
theorem retitled_calendar (hk : IsName k) (hk' : IsName k') (hv : k ≠ c!"VCALENDAR") {br : Break} {b e : Str} {l : List Item}
    (h : (Item.comp b e c!"VCALENDAR" l).Ok br) (hu : (Item.comp b e c!"VCALENDAR" l).Unbroken) (hcap : CapitalBlocks k l) {file : Str}
    (hp : Presents br (.comp b e c!"VCALENDAR" l) file) (hw : BlocksWhole k (cutLines file)) :
    ∃ c d, Calendar.fromStr file = some c ∧ Calendar.fromStr (retitleBlocks k k' file) = some d ∧ CalendarRetitled k k' c d := by
  obtain ⟨h', hp'⟩ := retitled_document hk hk' h hu (Ne.symm hv) hcap hp hw
  refine ⟨_, _, calendar_presented h hp, calendar_presented h' hp', ?_, ?_, ?_⟩
  · rw [itemsProps_retitled]
  · have key : ∀ l : List PComp, (l.map PComp.toCalComp).map CalComp.toOther = toOthers l := by
      intro l
      rw [toOthers_map, List.map_map]
      exact List.map_congr_left (fun x _ => toOther_toCalComp x)
    rw [key, key]
    exact itemsComps_retitled l
  · intro x hx
    obtain ⟨y, -, rfl⟩ := List.mem_map.1 hx
    rw [toOther_toCalComp, toOther_name]
    exact kindFor_toCalComp y

omit [Uni] in
theorem capital_skip {pre : List Item} (h : ∀ i ∈ pre, ∃ a b c, i = .prop a b c) {l : List Item} (hl : CapitalBlocks k l) :
    CapitalBlocks k (pre ++ l) := by
  induction pre with
  | nil => exact hl
  | cons i pre ih =>
    obtain ⟨a, b, c, rfl⟩ := h i (by simp)
    rw [List.cons_append, CapitalBlocks]
    exact ih (fun j hj => h j (by simp [hj]))

theorem capital_items : (l : List Other) → (w : World) → CapitalBlocks k (otherItems l w)
  | [], _ => by simp [otherItems, CapitalBlocks]
  | .mk n props multi comps :: l, w => by
    rw [otherItems, Other.item, CapitalBlocks]
    exact ⟨fun _ => ⟨rfl, rfl⟩, capital_skip (lines_only props multi _) (capital_items comps _), capital_items l _⟩

/-- **C156.** A written calendar is read, with other lines for those that begin and end the components of a name, as the
calendar with another name for these components. -/
theorem retitled_written (hk : IsName k) (hk' : IsName k') (hv : k ≠ c!"VCALENDAR") {c : Calendar} (hc : CalendarOk c) (hs : CalendarSafe c)
    (hst : ∀ x ∈ c.comps, HasStamps x.toOther) (hu : UnbrokenCal c) (hf : ∀ p ∈ calendarProps c, Findable p)
    {w : World} (hw : World.Ok w) {out : Str} (h : c.fmtWrite w = .ok out) :
    ∃ d, Calendar.fromStr (retitleBlocks k k' out) = some d ∧ CalendarRetitled k k' c d := by
  have hok := calendar_item_ok (calendarOk_writable hc) hw
  have hi := calendar_unbroken hc hu hw
  have hp := presents_written hc hw h
  unfold Calendar.item at hok hi hp
  have hcap : CapitalBlocks k (propItems c.props (w.sub 0) ++ compItems c.comps (w.sub 1)) := by
    rw [compItems_others]
    exact capital_skip (propItems_only _ _) (capital_items _ _)
  have hwhole : BlocksWhole k (cutLines out) :=
    ⟨written_uncut (keyword_apart (.inl rfl) hk) hc hu hf hw h, written_uncut (keyword_apart (.inr rfl) hk) hc hu hf hw h⟩
  obtain ⟨c', d, e1, e2, e3⟩ := retitled_calendar hk hk' hv hok hi hcap hp hwhole
  rw [calendar_roundtrip c hc hs hst w hw out h] at e1
  cases e1
  exact ⟨d, e2, e3⟩

end

/-- A calendar file in which the first line of a component is folded behind what is another name. -/
def cutTitle : Str := c!"BEGIN:VCALENDAR\r\nBEGIN:VTODO\r\n S\r\nEND:VTODOS\r\nEND:VCALENDAR\r\n"

/-- **C156 (violated).** Where a line that begins with the replaced one is continued, the file cannot be read any more: the
begin of a component of another name is replaced, its end is not. -/
theorem retitled_violated : letI := Uni.ascii
    (Calendar.fromStr cutTitle).map (fun c => c.comps.map (fun x => x.toOther.name)) = some [c!"VTODOS"] ∧
    Calendar.fromStr (retitleBlocks c!"VTODO" c!"VEVENT" cutTitle) = none := by
  letI := Uni.ascii
  exact ⟨by decide +kernel, by decide +kernel⟩

end Ical
