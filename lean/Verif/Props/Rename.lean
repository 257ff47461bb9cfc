import Verif.Spec.Rename
import Verif.Props.AddLines
import Verif.Props.Grep
import Verif.Props.Injective

/-!
C153: giving the lines of a property another name in the file of a calendar.
-/

namespace Ical

open Nom Spec

/-! ### lines -/

section

variable {k k' : Str}

theorem renameLines_nil : renameLines k k' [] = [] := rfl

theorem renameLines_last {x : Str} (h : NoLf x) : renameLines k k' x = renameLine k k' x := by
  unfold renameLines
  rw [cutLines_last h]
  by_cases hx : x = []
  · subst hx
    rw [if_pos rfl, renameLine, if_neg]
    · rfl
    · rintro (h | h) <;> simp at h
  · rw [if_neg hx]
    simp

/-- a line is known to be of the name or not to be, however it goes on -/
def Settled (k x : Str) : Prop := NamedLine k x ∨ Decided k x

theorem named_length {x : Str} (h : NamedLine k x) : k.length ≤ x.length := by
  rcases h with ⟨t, rfl⟩ | ⟨t, rfl⟩ <;> simp <;> omega

theorem renameLine_append {x : Str} (h : Settled k x) (t : Str) : renameLine k k' (x ++ t) = renameLine k k' x ++ t := by
  unfold renameLine
  rcases h with h | h
  · rw [if_pos h, if_pos (named_append t h), List.drop_append_of_le_length (named_length h), List.append_assoc]
  · rw [if_neg (h t), if_neg (fun hc => h [] (by rwa [List.append_nil]))]

theorem renameLine_behind {d : Char} (hd : d ∉ k) (hd1 : d ≠ ':') (hd2 : d ≠ ';') (x y : Str) :
    renameLine k k' (x ++ d :: y) = renameLine k k' x ++ d :: y := by
  have hn : NamedLine k (x ++ d :: y) ↔ NamedLine k x := by
    unfold NamedLine
    rw [prefix_before (by simpa using ⟨hd, hd1⟩), prefix_before (by simpa using ⟨hd, hd2⟩)]
  unfold renameLine
  by_cases h : NamedLine k x
  · rw [if_pos h, if_pos (hn.2 h), List.drop_append_of_le_length (named_length h), List.append_assoc]
  · rw [if_neg h, if_neg (fun hc => h (hn.1 hc))]

theorem renameLines_line (hk : NoLf k) {x : Str} (h : NoLf x) (r : Str) :
    renameLines k k' (x ++ '\n' :: r) = renameLine k k' x ++ '\n' :: renameLines k k' r := by
  unfold renameLines
  rw [cutLines_line h, List.map_cons, List.flatten_cons, renameLine_behind hk (by decide) (by decide)]
  simp

theorem renameLine_noLf (hk' : NoLf k') {x : Str} (h : NoLf x) : NoLf (renameLine k k' x) := by
  unfold renameLine
  split
  · intro hc
    rcases List.mem_append.1 hc with hc | hc
    · exact hk' hc
    · exact h (List.mem_of_mem_drop hc)
  · exact h

theorem renameLine_noIndent (hi' : NoIndent k') {x : Str} (y : Str) (h : NoIndent (x ++ y)) : NoIndent (renameLine k k' x ++ y) := by
  unfold renameLine
  split
  · rename_i hn
    have : ∃ d t, (d = ':' ∨ d = ';') ∧ x.drop k.length = d :: t := by
      rcases hn with ⟨t, rfl⟩ | ⟨t, rfl⟩
      · exact ⟨':', t, .inl rfl, by simp⟩
      · exact ⟨';', t, .inr rfl, by simp⟩
    obtain ⟨d, t, hd, e⟩ := this
    rw [e]
    cases k' with
    | nil => rcases hd with rfl | rfl <;> simp [NoIndent]
    | cons c k' => simpa [NoIndent] using hi'
  · exact h

theorem renameLine_content (hr : '\r' ∉ k) (x : Str) :
    lineContent (renameLine k k' x ++ ['\n']) = renameLine k k' (lineContent (x ++ ['\n'])) := by
  by_cases h : ['\r'] <:+ x
  · obtain ⟨y, rfl⟩ := h
    have := renameLine_behind (k := k) (k' := k') hr (by decide) (by decide) y []
    rw [this, lineContent_crlf, lineContent_crlf]
  · rw [lineContent_lf h, lineContent_lf]
    rintro ⟨t, ht⟩
    unfold renameLine at ht
    split at ht
    · rename_i hn
      rcases List.eq_nil_or_concat (x.drop k.length) with hx | ⟨y, c, hx⟩
      · have : (x.drop k.length).length = 0 := by rw [hx]; rfl
        rw [List.length_drop] at this
        have : k.length < x.length := by
          rcases hn with ⟨t, rfl⟩ | ⟨t, rfl⟩ <;> simp <;> omega
        omega
      · rw [hx, List.concat_eq_append, ← List.append_assoc] at ht
        have hc := (List.append_inj' ht rfl).2
        apply h
        rw [List.concat_eq_append, ← hc] at hx
        exact ⟨x.take k.length ++ y, by rw [List.append_assoc, ← hx, List.take_append_drop]⟩
    · exact h ⟨t, ht⟩

theorem notCut_tail {x r : Str} (h : NoLf x) (hn : NotCut k (cutLines (x ++ '\n' :: r))) : NotCut k (cutLines r) := by
  rw [cutLines_line h] at hn
  cases hr : cutLines r with
  | nil => trivial
  | cons b l => rw [hr] at hn; exact hn.2

theorem notCut_head {x r : Str} {b : Char} (h : NoLf x) (hb : b = ' ' ∨ b = '\t')
    (hn : NotCut k (cutLines (x ++ '\n' :: b :: r))) : ¬ lineContent (x ++ ['\n']) <+: k := by
  rw [cutLines_line h] at hn
  obtain ⟨line, l, e⟩ := cutLines_head (b := b) (r := r)
  rw [e] at hn
  refine hn.1 ?_
  rcases hb with rfl | rfl
  · exact .inl ⟨line, rfl⟩
  · exact .inr ⟨line, rfl⟩

theorem renameLines_noIndent (hk : NoLf k) (hi' : NoIndent k') {s : Str} (h : NoIndent s) : NoIndent (renameLines k k' s) := by
  rcases cut_first s with hx | ⟨x, r, hx, rfl⟩
  · rw [renameLines_last hx]
    have := renameLine_noIndent (k := k) hi' (x := s) [] (by rwa [List.append_nil])
    rwa [List.append_nil] at this
  · rw [renameLines_line hk hx]
    refine renameLine_noIndent hi' _ ?_
    cases x with
    | nil => simp [NoIndent]
    | cons c x => simpa [NoIndent] using h

/-- renaming lines and unfolding can be exchanged -/
theorem rename_unfold (hk : NoLf k) (hr : '\r' ∉ k) (hi : NoIndent k) (hk' : NoLf k') (hi' : NoIndent k') (n : Nat) :
    ∀ s : Str, s.length ≤ n → NotCut k (cutLines s) →
    unfoldSpec (renameLines k k' s) = renameLines k k' (unfoldSpec s) ∧
    ∀ acc b r, NoLf acc → Settled k acc → (b = ' ' ∨ b = '\t') → s = b :: r →
      ∃ r', renameLines k k' s = b :: r' ∧ renameLines k k' (acc ++ unfoldSpec r) = renameLine k k' acc ++ unfoldSpec r' := by
  induction n with
  | zero =>
    intro s hs _
    obtain rfl : s = [] := List.length_eq_zero_iff.1 (by omega)
    exact ⟨rfl, fun _ _ _ _ _ _ h => by cases h⟩
  | succ n ih =>
    intro s hs hn
    constructor
    · rcases cut_first s with hx | ⟨x, r, hx, rfl⟩
      · rw [noLf_unfold hx, renameLines_last hx, noLf_unfold (renameLine_noLf hk' hx)]
      · have hlen : r.length ≤ n := by simp at hs; omega
        have hn' := notCut_tail hx hn
        rw [renameLines_line hk hx]
        rcases noIndent_cases r with hr' | ⟨b, r, hb, rfl⟩
        · rw [unfold_next hx hr', renameLines_line hk hx, ← (ih r hlen hn').1,
            unfold_next (renameLine_noLf hk' hx) (renameLines_noIndent hk hi' hr')]
        · have h2 := notCut_head hx hb hn
          have hc : NoLf (lineContent (x ++ ['\n'])) := fun e => hx ((content_prefix x).subset e)
          have hd : Settled k (lineContent (x ++ ['\n'])) := by
            by_cases h : NamedLine k (lineContent (x ++ ['\n']))
            · exact .inl h
            · exact .inr (decided_of h h2)
          obtain ⟨r', e1, e2⟩ := (ih _ hlen hn').2 _ b r hc hd hb rfl
          rw [e1, unfold_continued (renameLine_noLf hk' hx) hb, unfold_continued hx hb, e2, renameLine_content hr]
    · rintro acc b r ha hd hb rfl
      have hnb : ∀ y, renameLine k k' (b :: y) = b :: y := by
        intro y
        unfold renameLine
        rw [if_neg]
        intro hy
        have := named_noIndent hi hy
        rcases hb with rfl | rfl <;> simp [NoIndent] at this
      rcases cut_first r with hx | ⟨x, r, hx, rfl⟩
      · refine ⟨r, ?_, ?_⟩
        · have hbx : NoLf (b :: r) := by
            rcases hb with rfl | rfl <;> simpa [NoLf] using hx
          rw [renameLines_last hbx, hnb r]
        · rw [noLf_unfold hx, renameLines_last (by simpa [NoLf] using ⟨ha, hx⟩), renameLine_append hd]
      · have hbx : NoLf (b :: x) := by
          rcases hb with rfl | rfl <;> simpa [NoLf] using hx
        rw [← List.cons_append] at hn hs ⊢
        have hlen : r.length ≤ n := by simp at hs; omega
        have hn' := notCut_tail hbx hn
        refine ⟨x ++ '\n' :: renameLines k k' r, ?_, ?_⟩
        · rw [renameLines_line hk hbx, hnb x]
          simp
        · have hd' : ∀ t, Settled k (acc ++ t) := by
            intro t
            rcases hd with h | h
            · exact .inl (named_append t h)
            · exact .inr (fun u => by rw [List.append_assoc]; exact h _)
          rcases noIndent_cases r with hr' | ⟨b', r, hb', rfl⟩
          · rw [unfold_next hx hr', unfold_next hx (renameLines_noIndent hk hi' hr'),
              ← List.append_assoc, renameLines_line hk (by simpa [NoLf] using ⟨ha, hx⟩), renameLine_append hd, (ih r hlen hn').1]
            simp
          · have hc : NoLf (lineContent (x ++ ['\n'])) := fun e => hx ((content_prefix x).subset e)
            obtain ⟨r', e1, e2⟩ := (ih _ hlen hn').2 (acc ++ lineContent (x ++ ['\n'])) b' r
              (by simpa [NoLf] using ⟨ha, hc⟩) (hd' _) hb' rfl
            rw [e1, unfold_continued hx hb', unfold_continued hx hb', ← List.append_assoc, e2, renameLine_append hd, List.append_assoc]

theorem noIndent_plain (hk : ∀ c ∈ k, c ≠ '\n' ∧ c ≠ '\r' ∧ c ≠ ' ' ∧ c ≠ '\t') : NoIndent k := by
  constructor
  · intro h; exact (hk _ (List.mem_of_mem_head? (by rw [h]; rfl))).2.2.1 rfl
  · intro h; exact (hk _ (List.mem_of_mem_head? (by rw [h]; rfl))).2.2.2 rfl

/-- **C153.** If no line is continued that ends within the name, then it does not matter whether the lines are renamed in
the file or in the unfolded file. -/
theorem renamed_unfold (hk : ∀ c ∈ k, c ≠ '\n' ∧ c ≠ '\r' ∧ c ≠ ' ' ∧ c ≠ '\t')
    (hk' : ∀ c ∈ k', c ≠ '\n' ∧ c ≠ '\r' ∧ c ≠ ' ' ∧ c ≠ '\t') {s : Str} (hn : NotCut k (cutLines s)) :
    unfold (renameLines k k' s) = renameLines k k' (unfold s) := by
  rw [unfold_eq_spec, unfold_eq_spec]
  exact (rename_unfold (fun h => (hk _ h).1 rfl) (fun h => (hk _ h).2.1 rfl) (noIndent_plain hk) (fun h => (hk' _ h).1 rfl)
    (noIndent_plain hk') _ s (Nat.le_refl _) hn).1

/-! ### documents -/

theorem renameLines_break (hk : NoLf k) (hr : '\r' ∉ k) {x : Str} (h : NoLf x) (br : Break) (r : Str) :
    renameLines k k' (x ++ (br.text ++ r)) = renameLine k k' x ++ (br.text ++ renameLines k k' r) := by
  cases br
  · have := renameLines_line (k' := k') hk (x := x ++ ['\r']) (by simpa [NoLf] using h) r
    rw [renameLine_behind hr (by decide) (by decide)] at this
    simpa [Break.text] using this
  · exact renameLines_line hk h r

theorem renameLines_blank (hk : NoLf k) (hr : '\r' ∉ k) {bl : Str} (h : Blank bl) (r : Str) :
    renameLines k k' (bl ++ r) = bl ++ renameLines k k' r := by
  obtain ⟨bs, rfl⟩ := h
  induction bs with
  | nil => rfl
  | cons b bs ih =>
    have := renameLines_break (k' := k') hk hr (x := []) (by decide) b ((bs.map Break.text).flatten ++ r)
    rw [List.nil_append] at this
    have hnil : renameLine k k' [] = [] := by
      unfold renameLine
      rw [if_neg]
      rintro (h | h) <;> simp at h
    rw [List.map_cons, List.flatten_cons, List.append_assoc, this, ih, hnil]
    simp

theorem renameLines_mem {c : Char} {s : Str} (h : c ∈ renameLines k k' s) : c ∈ s ∨ c ∈ k' := by
  have key : ∀ n, ∀ s : Str, s.length ≤ n → (cutLines s).flatten = s := by
    intro n
    induction n with
    | zero =>
      intro s hs
      obtain rfl : s = [] := List.length_eq_zero_iff.1 (by omega)
      rfl
    | succ n ih =>
      intro s hs
      rcases cut_first s with hx | ⟨x, r, hx, rfl⟩
      · rw [cutLines_last hx]
        split
        · rename_i h; subst h; rfl
        · simp
      · rw [cutLines_line hx, List.flatten_cons, ih r (by simp at hs; omega)]
        simp
  unfold renameLines at h
  obtain ⟨y, hy, hc⟩ := List.mem_flatten.1 h
  obtain ⟨x, hx, rfl⟩ := List.mem_map.1 hy
  have hs : ∀ d ∈ x, d ∈ s := fun d hd => by
    rw [← key _ s (Nat.le_refl _)]
    exact List.mem_flatten.2 ⟨x, hx, hd⟩
  unfold renameLine at hc
  split at hc
  · rcases List.mem_append.1 hc with hc | hc
    · exact .inr hc
    · exact .inl (hs _ (List.mem_of_mem_drop hc))
  · exact .inl (hs _ hc)

end

section

variable [Uni] {k k' : Str}

/-- the lines of elements with some renamed present the elements with these renamed -/
theorem spaced_renamed (hk : KeyOk k) {br : Break} : (l : List Item) → ItemsOk br l → ItemsUnbroken l → {s : Str} → SpacedAll br l s →
    ∃ bl s', Blank bl ∧ SpacedAll br (withRenamed k k' l) s' ∧ ∀ t, renameLines k k' (s ++ t) = bl ++ (s' ++ renameLines k k' t)
  | [], _, _, s, hs => by
    simp only [SpacedAll] at hs
    subst hs
    exact ⟨[], [], blank_nil, by simp [withRenamed, SpacedAll], fun t => rfl⟩
  | .prop key params val :: l, h, hu, s, hs => by
    obtain ⟨⟨hkc, hks⟩, hk1, hk2, -⟩ := name_plain hk.name
    simp only [SpacedAll, Spaced] at hs
    obtain ⟨s1, s2, ⟨bl, hb, rfl⟩, h2, rfl⟩ := hs
    simp only [ItemsOk, Item.Ok] at h
    simp only [ItemsUnbroken, Item.Unbroken] at hu
    obtain ⟨bl', s', hb', hs', e⟩ := spaced_renamed hk l h.2 hu.2 h2
    have hline := fun t => renameLines_break (k' := k') hk1 hk2 hu.1.2 br t
    have hname : renameLine k k' (key ++ (params.map DParam.text).flatten ++ [':'] ++ val) =
        (if key = k then k' else key) ++ (params.map DParam.text).flatten ++ [':'] ++ val := by
      obtain ⟨d, t, hd, ht⟩ := params_start params val
      rw [List.append_assoc, List.append_assoc, List.append_assoc _ [':'], List.append_assoc, ht]
      have := named_key (t := t) ⟨hkc, hks⟩ (name_plain h.1.1.name).1 hd
      unfold renameLine
      by_cases hkey : key = k
      · rw [if_pos (this.2 hkey), if_pos hkey, hkey]
        simp
      · rw [if_neg (fun h => hkey (this.1 h)), if_neg hkey]
    refine ⟨[], (Item.prop (if key = k then k' else key) params val).text br ++ (bl ++ bl') ++ s', blank_nil, ?_, fun t => ?_⟩
    · rw [withRenamed]
      simp only [SpacedAll, Spaced]
      exact ⟨_, s', ⟨bl ++ bl', blank_append hb hb', rfl⟩, hs', rfl⟩
    · have := hline (bl ++ (s2 ++ t))
      rw [hname, renameLines_blank hk1 hk2 hb, e] at this
      simp only [Item.text, List.append_assoc, List.nil_append] at this ⊢
      exact this
  | .comp b e' name items :: l, h, hu, s, hs => by
    obtain ⟨⟨hkc, hks⟩, hk1, hk2, -⟩ := name_plain hk.name
    simp only [SpacedAll, Spaced] at hs
    obtain ⟨s1, s2, ⟨bl, body, bl', hb, hb', hbody, rfl⟩, h2, rfl⟩ := hs
    simp only [ItemsOk, Item.Ok] at h
    simp only [ItemsUnbroken, Item.Unbroken] at hu
    obtain ⟨blr, sr, hbr, hsr, er⟩ := spaced_renamed hk l h.2 hu.2 h2
    obtain ⟨bli, si, hbi, hsi, ei⟩ := spaced_renamed hk items h.1.2.2.2 hu.1 hbody
    have hbn : NoLf (b ++ name) := by
      have := (keyword_unbroken h.1.1 (by decide) (by decide)).2
      simpa [NoLf] using ⟨this, (name_plain h.1.2.2.1).2.1⟩
    have hen : NoLf (e' ++ name) := by
      have := (keyword_unbroken h.1.2.1 (by decide) (by decide)).2
      simpa [NoLf] using ⟨this, (name_plain h.1.2.2.1).2.1⟩
    have hbnm : renameLine k k' (b ++ name) = b ++ name := if_neg (by simpa using keyword_not_named (name := name) hk (.inl h.1.1) [])
    have henm : renameLine k k' (e' ++ name) = e' ++ name := if_neg (by simpa using keyword_not_named (name := name) hk (.inr h.1.2.1) [])
    refine ⟨[], b ++ (name ++ (br.text ++ (bl ++ bli) ++ (si ++ (e' ++ (name ++ (br.text ++ (bl' ++ blr))))))) ++ sr, blank_nil, ?_, fun t => ?_⟩
    · rw [withRenamed]
      simp only [SpacedAll, Spaced]
      exact ⟨_, sr, ⟨bl ++ bli, si, bl' ++ blr, blank_append hb hbi, blank_append hb' hbr, hsi, rfl⟩, hsr, rfl⟩
    · have e1 := renameLines_break (k' := k') hk1 hk2 hbn br (bl ++ (body ++ (e' ++ (name ++ (br.text ++ (bl' ++ (s2 ++ t)))))))
      have e2 := renameLines_break (k' := k') hk1 hk2 hen br (bl' ++ (s2 ++ t))
      rw [henm, renameLines_blank hk1 hk2 hb', er] at e2
      simp only [List.append_assoc] at e2
      rw [hbnm, renameLines_blank hk1 hk2 hb, ei, e2] at e1
      simp only [List.append_assoc, List.nil_append] at e1 ⊢
      exact e1

theorem renamed_ok (hk' : KeyOk k') {br : Break} : (l : List Item) → ItemsOk br l → ItemsOk br (withRenamed k k' l)
  | [], _ => by simp [withRenamed, ItemsOk]
  | .prop key params val :: l, h => by
    simp only [ItemsOk, Item.Ok] at h
    rw [withRenamed]
    simp only [ItemsOk, Item.Ok]
    refine ⟨⟨?_, h.1.2⟩, renamed_ok hk' l h.2⟩
    split
    · exact hk'
    · exact h.1.1
  | .comp b e name items :: l, h => by
    simp only [ItemsOk, Item.Ok] at h
    rw [withRenamed]
    simp only [ItemsOk]
    refine ⟨?_, renamed_ok hk' l h.2⟩
    rw [Item.Ok]
    exact ⟨h.1.1, h.1.2.1, h.1.2.2.1, renamed_ok hk' items h.1.2.2.2⟩

/-- **C153.** Renaming lines in a file that presents a document gives a file that presents the document with the content lines
of this name renamed, at any depth. -/
theorem renamed_document (hk : KeyOk k) (hk' : KeyOk k') {br : Break} {b e n : Str} {l : List Item} (h : (Item.comp b e n l).Ok br)
    (hu : (Item.comp b e n l).Unbroken) {file : Str} (hp : Presents br (.comp b e n l) file) (hn : NotCut k (cutLines file)) :
    (Item.comp b e n (withRenamed k k' l)).Ok br ∧ Presents br (.comp b e n (withRenamed k k' l)) (renameLines k k' file) := by
  obtain ⟨-, hk1, hk2, hk3⟩ := name_plain hk.name
  obtain ⟨-, hk1', hk2', hk3'⟩ := name_plain hk'.name
  have hunf := renamed_unfold (k := k) (k' := k') (fun c hc => ⟨(hk3 c hc).1, fun e => hk2 (e ▸ hc), (hk3 c hc).2⟩)
    (fun c hc => ⟨(hk3' c hc).1, fun e => hk2' (e ▸ hc), (hk3' c hc).2⟩) hn
  simp only [Item.Ok] at h
  simp only [Item.Unbroken] at hu
  simp only [Presents] at hp
  obtain ⟨lead, bl, body, tail, hl, hb, ht, hbody, hcr, hfold⟩ := hp
  obtain ⟨bli, si, hbi, hsi, ei⟩ := spaced_renamed (k' := k') hk l h.2.2.2 hu hbody
  have hfu := foldedForm_unfold hfold
  rw [hfu, unfold_eq_spec] at hunf
  have hbn : NoLf (b ++ n) := by
    have := (keyword_unbroken h.1 (by decide) (by decide)).2
    simpa [NoLf] using ⟨this, (name_plain h.2.2.1).2.1⟩
  have hbnm : renameLine k k' (b ++ n) = b ++ n := if_neg (by simpa using keyword_not_named (name := n) hk (.inl h.1) [])
  have hlast : renameLines k k' (e ++ (n ++ tail)) = e ++ (n ++ tail) := by
    have hen : NoLf (e ++ n) := by
      have := (keyword_unbroken h.2.1 (by decide) (by decide)).2
      simpa [NoLf] using ⟨this, (name_plain h.2.2.1).2.1⟩
    have henm : renameLine k k' (e ++ n) = e ++ n := if_neg (by simpa using keyword_not_named (name := n) hk (.inr h.2.1) [])
    obtain ⟨bs, rfl⟩ := ht
    cases bs with
    | nil => simpa [henm] using renameLines_last (k' := k') (k := k) hen
    | cons br' bs =>
      have := renameLines_break (k' := k') hk1 hk2 hen br' (bs.map Break.text).flatten
      have hbl := renameLines_blank (k' := k') hk1 hk2 (k := k) ⟨bs, rfl⟩ []
      rw [List.append_nil, renameLines_nil, List.append_nil] at hbl
      rw [henm, hbl] at this
      simpa using this
  have hbegin := renameLines_break (k' := k') hk1 hk2 hbn br (bl ++ (body ++ (e ++ (n ++ tail))))
  rw [hbnm, renameLines_blank hk1 hk2 hb, ei, hlast] at hbegin
  have hmem := hunf
  rw [renameLines_blank hk1 hk2 hl] at hunf
  simp only [List.append_assoc] at hunf hbegin
  rw [hbegin] at hunf
  have hform := foldedForm_self (renameLines k k' file)
  refine ⟨by simp only [Item.Ok]; exact ⟨h.1, h.2.1, h.2.2.1, renamed_ok hk' l h.2.2.2⟩, ?_⟩
  simp only [Presents]
  refine ⟨lead, bl ++ bli, si, tail, hl, blank_append hb hbi, ht, hsi, fun hlf hc => ?_, ?_⟩
  · have hc' : '\r' ∈ renameLines k k'
        (lead ++ (b ++ (n ++ (br.text ++ bl ++ (body ++ (e ++ (n ++ tail))))))) := by
      rw [← hmem, hunf]
      simpa only [List.append_assoc] using hc
    rcases renameLines_mem hc' with hc | hc
    · exact hcr hlf hc
    · exact hk2' hc
  · rw [hunf] at hform
    simpa only [List.append_assoc] using hform

/-! ### calendars -/

omit [Uni] in
theorem linesNamed_unnamed : (l : List Item) → Unnamed k l → linesNamed k l = []
  | [], _ => by simp [linesNamed]
  | .prop key params val :: l, h => by
    rw [Unnamed] at h
    rw [linesNamed, if_neg h.1, linesNamed_unnamed l h.2]
  | .comp b e n items :: l, h => by
    rw [Unnamed] at h
    rw [linesNamed, linesNamed_unnamed l h.2]

omit [Uni] in
theorem linesNamed_renamed (x : Str) : (l : List Item) → Unnamed k' l →
    linesNamed x (withRenamed k k' l) = if x = k' then linesNamed k l else if x = k then [] else linesNamed x l
  | [], _ => by simp [withRenamed, linesNamed]
  | .prop key params val :: l, h => by
    rw [Unnamed] at h
    have ih := linesNamed_renamed x l h.2
    rw [withRenamed, linesNamed, ih]
    by_cases hkey : key = k
    · subst hkey
      rw [if_pos rfl]
      by_cases hx : x = k'
      · subst hx
        simp [linesNamed]
      · have hx' : ¬ k' = x := fun e => hx e.symm
        by_cases hxk : x = key
        · subst hxk; simp [hx, hx']
        · have hxk' : ¬ key = x := fun e => hxk e.symm
          simp [hx, hx', hxk, hxk', linesNamed]
    · rw [if_neg hkey]
      by_cases hx : x = k'
      · subst hx
        simp [linesNamed, hkey, h.1]
      · by_cases hxk : x = k
        · subst hxk
          simp [hx, hkey]
        · simp [hx, hxk, linesNamed]
  | .comp b e n items :: l, h => by
    rw [Unnamed] at h
    rw [withRenamed, linesNamed, linesNamed, linesNamed, linesNamed_renamed x l h.2]

omit [Uni] in
theorem counting_renamed (hu : SameUse k k') (x : Str) (l : List Item) (h : Unnamed k' l) :
    counting x (withRenamed k k' l) = if x = k' then counting k l else if x = k then [] else counting x l := by
  have hr := hu.1
  unfold counting
  rw [linesNamed_renamed x l h]
  by_cases hx : x = k'
  · subst hx
    simp [hr]
  · by_cases hxk : x = k
    · subst hxk; simp [hx]
    · simp [hx, hxk]

omit [Uni] in
theorem meaning_renamed (hu : SameUse k k') (params : List DParam) (val : Str) :
    (meaningProp k' params val).toProperty = { (meaningProp k params val).toProperty with key := k' } := by
  have ht : ∀ v, IsTextFor k' v ↔ IsTextFor k v := by
    intro v
    unfold IsTextFor
    have := hu.2
    cases v <;> simp [this]
  simp only [meaningProp, PProp.toProperty, ht]

omit [Uni] in
theorem props_renamed (hu : SameUse k k') (l : List Item) :
    (itemsProps (withRenamed k k' l)).map PProp.toProperty =
      ((itemsProps l).map PProp.toProperty).map (fun p => if p.key = k then { p with key := k' } else p) := by
  induction l with
  | nil => simp [withRenamed, itemsProps]
  | cons i l ih =>
    cases i with
    | prop key params val =>
      have e : (meaningProp key params val).toProperty.key = key := rfl
      rw [withRenamed, itemsProps, itemsProps, List.map_cons, List.map_cons, List.map_cons, ih, e]
      by_cases h : key = k
      · rw [if_pos h, if_pos h, h, meaning_renamed hu]
      · rw [if_neg h, if_neg h]
    | comp b e n items => rw [withRenamed, itemsProps_comp, itemsProps_comp, ih]

omit [Uni] in
theorem read_renamed (hu : SameUse k k') (b e n : Str) (l : List Item) (hl : Unnamed k' l)
    (h : WithRenamedAll k k' (toOthers (itemsComps l)) (toOthers (itemsComps (withRenamed k k' l)))) :
    WithRenamed k k' (readAs (.comp b e n l)).toOther (readAs (.comp b e n (withRenamed k k' l))).toOther := by
  have hr := hu.1
  have hm : (fun x : List DParam × Str => (meaningProp k' x.1 x.2).toProperty) =
      (fun p : Property => ({ p with key := k' } : Property)) ∘ (fun x => (meaningProp k x.1 x.2).toProperty) := by
    funext x
    exact meaning_renamed hu x.1 x.2
  rw [toOther_readAs, toOther_readAs]
  simp only [WithRenamed]
  refine ⟨trivial, fun x => ?_, fun x => ?_, h⟩
  · simp only [lookup_eq_get, inner_props_counting, counting_renamed hu _ _ hl]
    by_cases hx : x = k'
    · subst hx
      simp only [if_true, hm, ← hr]
      by_cases hk : k ∈ repeatable
      · simp [hk]
      · simp only [if_neg hk]
        cases counting k l <;> rfl
    · by_cases hxk : x = k
      · subst hxk; simp [hx]
      · simp only [if_neg hx, if_neg hxk]
  · simp only [lookup_eq_get, inner_multi_counting, counting_renamed hu _ _ hl]
    by_cases hx : x = k'
    · subst hx
      simp only [if_true, hm, ← hr]
      by_cases hk : k ∈ repeatable ∧ counting k l ≠ []
      · simp only [if_pos hk, Option.map_some, List.map_map]
      · simp only [if_neg hk, Option.map_none]
    · by_cases hxk : x = k
      · subst hxk; simp [hx]
      · simp only [if_neg hx, if_neg hxk]

omit [Uni] in
theorem comps_renamed (hu : SameUse k k') : (l : List Item) → Unnamed k' l →
    WithRenamedAll k k' (toOthers (itemsComps l)) (toOthers (itemsComps (withRenamed k k' l)))
  | [], _ => by simp [withRenamed, itemsComps, toOthers, WithRenamedAll]
  | .prop key params val :: l, h => by
    rw [Unnamed] at h
    rw [withRenamed, itemsComps, itemsComps]
    exact comps_renamed hu l h.2
  | .comp b e n items :: l, h => by
    rw [Unnamed] at h
    rw [withRenamed, itemsComps_comp, itemsComps_comp, toOthers, toOthers]
    simp only [WithRenamedAll]
    exact ⟨read_renamed hu b e n items h.1 (comps_renamed hu items h.1), comps_renamed hu l h.2⟩

omit [Uni] in
theorem kinds_renamed (hu : SameUse k k') : (l : List Item) → Unnamed k' l →
    CompsWithRenamed k k' ((itemsComps l).map PComp.toCalComp) ((itemsComps (withRenamed k k' l)).map PComp.toCalComp)
  | [], _ => by simp [withRenamed, itemsComps, CompsWithRenamed]
  | .prop key params val :: l, h => by
    rw [Unnamed] at h
    rw [withRenamed, itemsComps, itemsComps]
    exact kinds_renamed hu l h.2
  | .comp b e n items :: l, h => by
    rw [Unnamed] at h
    rw [withRenamed, itemsComps_comp, itemsComps_comp, List.map_cons, List.map_cons]
    simp only [CompsWithRenamed]
    refine ⟨⟨n, kindFor_toCalComp (readAs (.comp b e n items)), kindFor_toCalComp (readAs (.comp b e n _))⟩, ?_, kinds_renamed hu l h.2⟩
    rw [toOther_toCalComp, toOther_toCalComp]
    exact read_renamed hu b e n items h.1 (comps_renamed hu items h.1)

/-- **C153.** Renaming the lines of a name in a file renames the properties of this name in the calendar that is read, at
any depth, and changes nothing else. -/
theorem renamed_calendar (hk : KeyOk k) (hk' : KeyOk k') (hs : SameUse k k') {br : Break} {b e : Str} {l : List Item}
    (h : (Item.comp b e c!"VCALENDAR" l).Ok br) (hu : (Item.comp b e c!"VCALENDAR" l).Unbroken) (hnew : Unnamed k' l) {file : Str}
    (hp : Presents br (.comp b e c!"VCALENDAR" l) file) (hn : NotCut k (cutLines file)) :
    ∃ c d, Calendar.fromStr file = some c ∧ Calendar.fromStr (renameLines k k' file) = some d ∧ CalendarWithRenamed k k' c d := by
  obtain ⟨h', hp'⟩ := renamed_document hk hk' h hu hp hn
  exact ⟨_, _, calendar_presented h hp, calendar_presented h' hp', props_renamed hs l, kinds_renamed hs l hnew⟩

/-! ### written calendars -/

omit [Uni] in
/-- a text in which no line that ends within the name is continued, whatever follows -/
def Intact (k out : Str) : Prop :=
  ∀ t, NoIndent t → NotCut k (cutLines t) → NotCut k (cutLines (out ++ t)) ∧ NoIndent (out ++ t)

omit [Uni] in
theorem intact_nil (k : Str) : Intact k [] := fun _ h h' => ⟨h', h⟩

omit [Uni] in
theorem intact_append {k a b : Str} (ha : Intact k a) (hb : Intact k b) : Intact k (a ++ b) := by
  intro t ht hn
  obtain ⟨h1, h2⟩ := hb t ht hn
  rw [List.append_assoc]
  exact ha _ h2 h1

omit [Uni] in
theorem notCut_cons {k x t : Str} (hx : NoLf x) (ht : NoIndent t) (hn : NotCut k (cutLines t)) :
    NotCut k (cutLines (x ++ '\n' :: t)) := by
  rw [cutLines_line hx]
  cases t with
  | nil => trivial
  | cons c t =>
    obtain ⟨line, l, e⟩ := cutLines_head (b := c) (r := t)
    rw [e] at hn ⊢
    refine ⟨fun hc => ?_, hn⟩
    have := continues_iff.1 hc
    exact absurd ht this

omit [Uni] in
theorem intact_line {k l : Str} (hn : NoLf l) (hi : NoIndent (l ++ crlf)) : Intact k (l ++ crlf) := by
  intro t ht hc
  refine ⟨?_, ?_⟩
  · have := notCut_cons (k := k) (x := l ++ ['\r']) (by simpa [NoLf] using hn) ht hc
    simpa [crlf] using this
  · cases l with
    | nil => exact noIndent_cons (by decide) (by decide)
    | cons c l => simpa [NoIndent] using hi

omit [Uni] in
theorem intact_folded {k : Str} (hk : ∀ c ∈ k, c ≠ '\n' ∧ c ≠ ' ' ∧ c ≠ '\t') (q : Str) (qs : List Str)
    (hl : NoLf (q :: qs).flatten) (hq : qs ≠ [] → ¬ q <+: k) {t : Str} (ht : NoIndent t)
    (hn : NotCut k (cutLines t)) : NotCut k (cutLines (joinFold (q :: qs) ++ (crlf ++ t))) := by
  induction qs generalizing q with
  | nil =>
    have := notCut_cons (k := k) (x := q ++ ['\r']) (by simpa [NoLf] using hl) ht hn
    simpa [joinFold, crlf] using this
  | cons x qs ih =>
    have e : joinFold (q :: x :: qs) ++ (crlf ++ t) = (q ++ ['\r']) ++ '\n' :: (joinFold ((' ' :: x) :: qs) ++ (crlf ++ t)) := by
      cases qs <;> simp [joinFold]
    have hq1 : NoLf (q ++ ['\r']) := by
      simp [NoLf] at hl ⊢
      exact hl.1
    have hsk : ¬ ' ' :: x <+: k := by
      rintro ⟨u, rfl⟩
      exact (hk ' ' (by simp)).2.1 rfl
    have hrec := ih (' ' :: x) (by simp [NoLf] at hl ⊢; exact hl.2) (fun _ => hsk)
    rw [e, cutLines_line hq1]
    have h2 := hq (by simp)
    have e2 : ∃ z, joinFold ((' ' :: x) :: qs) ++ (crlf ++ t) = ' ' :: z := by
      cases qs <;> exact ⟨_, rfl⟩
    obtain ⟨z, e2⟩ := e2
    rw [e2] at hrec ⊢
    obtain ⟨line, l, e3⟩ := cutLines_head (b := ' ') (r := z)
    rw [e3] at hrec ⊢
    refine ⟨fun _ => ?_, hrec⟩
    rw [lineContent_crlf]
    exact h2

/-- a text without blanks that does not start with the name of a property -/
def Apart (k : Str) : Prop := (∀ c ∈ k, c ≠ '\n' ∧ c ≠ ' ' ∧ c ≠ '\t') ∧ ∀ key, KeyOk key → ¬ NamedLine key k

theorem apart_key {k : Str} (hk : KeyOk k) : Apart k := by
  obtain ⟨hk0, -, -, hk3⟩ := name_plain hk.name
  refine ⟨hk3, ?_⟩
  rintro key - (h | h)
  · exact hk0.1 (h.subset (by simp))
  · exact hk0.2 (h.subset (by simp))

theorem intact_property {k : Str} (hk : Apart k) {p : Property} (hp : PropOk p) (hu : UnbrokenProp p) (hs : Findable p)
    {w : World} (hw : World.Ok w) {out : Str} (h : p.fmtWrite w = .ok out) : Intact k out := by
  obtain ⟨hk3, hk0⟩ := hk
  obtain ⟨hp0, hp1, hp2, hp3⟩ := name_plain hp.key.name
  unfold Property.fmtWrite at h
  cases hf : foldLine (p.line w) with
  | error e => rw [hf] at h; cases h
  | ok s =>
    rw [hf] at h
    cases h
    have hpar := noLf_params (w.order [] p.params) (fun x hx => by
      have hx := (hw.order [] p.params).mem_iff.1 hx
      exact ⟨(name_plain (hp.params.name x hx)).2.1, (hu.params x hx).2⟩)
    have hn : NoLf (p.line w) := by
      have := valueText_unbroken hu
      unfold Property.line NoLf at *
      simp only [List.mem_append, not_or]
      exact ⟨⟨⟨hp1, hpar⟩, by decide⟩, this.2⟩
    have hshape : ∃ d t, (d = ':' ∨ d = ';') ∧ p.line w = p.key ++ d :: t := by
      unfold Property.line
      cases w.order [] p.params with
      | nil => exact ⟨':', p.valueText, .inl rfl, by simp [paramsText]⟩
      | cons x l =>
        obtain ⟨a, b⟩ := x
        exact ⟨';', _, .inr rfl, by simp only [paramsText, List.append_assoc, List.cons_append, List.nil_append]; rfl⟩
    obtain ⟨d, t, hd, hline⟩ := hshape
    have hi : ∀ r, NoIndent (p.line w ++ r) := by
      intro r
      rw [hline]
      cases hkey : p.key with
      | nil => rcases hd with rfl | rfl <;> exact noIndent_cons (by decide) (by decide)
      | cons c key => exact noIndent_cons (hp3 c (by simp [hkey])).2.1 (hp3 c (by simp [hkey])).2.2
    have hcl := line_contentLine p hw
    have hwhole : NamedLine p.key (p.line w) := by rw [hline]; exact (named_key hp0 hp0 hd).2 rfl
    have hpieces : ∃ q qs, p.line w = (q :: qs).flatten ∧ s = joinFold (q :: qs) ∧ (Findable p → NamedLine p.key q) ∧
        (blen (p.line w) ≤ 75 → q = p.line w) := by
      by_cases hle : blen (p.line w) ≤ 75
      · rw [fold_short _ hle] at hf
        cases hf
        exact ⟨p.line w, [], by simp, rfl, fun _ => hwhole, fun _ => rfl⟩
      · by_cases hfi : Findable p
        · rcases hfi _ hcl with h | ⟨h1, h2, h3⟩
          · exact absurd h hle
          · rw [hline] at hf h3 hle
            cases t with
            | nil =>
              exfalso
              have hkb := blen_ascii (fun c hc => utf8Size_ascii (h1 c hc))
              apply hle
              have hd1 : blen [d] = 1 := by rcases hd with rfl | rfl <;> decide
              rw [blen_append, hkb, hd1]
              omega
            | cons x t =>
              have hx : isWhitespace x = false := h3 x (by simp)
              have e : p.key ++ d :: x :: t = (p.key ++ [d]) ++ x :: t := by simp
              rw [e] at hf
              obtain ⟨q, qs, e1, e2, e3⟩ := name_not_cut hf (by
                intro c hc
                rcases List.mem_append.1 hc with hc | hc
                · exact h1 c hc
                · rw [List.mem_singleton] at hc
                  subst hc
                  unfold IsAscii
                  rcases hd with rfl | rfl <;> decide) (by simp; omega) hx
              refine ⟨q, qs, by rw [hline, e, e1], e2, fun _ => ?_, fun h => absurd (by rw [← hline]; exact h) hle⟩
              rcases hd with rfl | rfl
              · exact .inl e3
              · exact .inr e3
        · obtain ⟨q, qs, e1, e2, -⟩ := fold_pieces _ _ hf
          exact ⟨q, qs, e1, e2, fun h => absurd h hfi, fun h => absurd h hle⟩
    obtain ⟨q, qs, e1, rfl, e3, -⟩ := hpieces
    have hq := e3 hs
    have hqk : ¬ q <+: k := by
      rintro ⟨u, rfl⟩
      exact hk0 p.key hp.key (named_append u hq)
    intro r hr hc
    refine ⟨?_, ?_⟩
    · rw [List.append_assoc]
      exact intact_folded hk3 q qs (by rw [← e1]; exact hn) (fun _ => hqk) hr hc
    · have hqi : NoIndent q := named_noIndent (noIndent_plain (fun c hc => ⟨(hp3 c hc).1, fun e => hp2 (e ▸ hc), (hp3 c hc).2⟩)) hq
      have hne : q ≠ [] := by rintro rfl; exact hqk List.nil_prefix
      cases q with
      | nil => exact absurd rfl hne
      | cons c q => cases qs <;> simpa [joinFold, NoIndent] using hqi

theorem intact_props {k : Str} (hk : Apart k) {l : List Property} (hl : ∀ p ∈ l, PropOk p ∧ UnbrokenProp p ∧ Findable p)
    {w : World} (hw : World.Ok w) {out : Str} (h : fmtProps l w = .ok out) : Intact k out := by
  induction l generalizing w out with
  | nil => cases h; exact intact_nil k
  | cons p l ih =>
    unfold fmtProps at h
    cases ha : p.fmtWrite (w.sub 0) with
    | error e => rw [ha] at h; cases h
    | ok a =>
      rw [ha] at h
      cases hb : fmtProps l (w.sub 1) with
      | error e => rw [hb] at h; cases h
      | ok b =>
        rw [hb] at h
        cases h
        obtain ⟨h1, h2, h3⟩ := hl p (by simp)
        exact intact_append (intact_property hk h1 h2 h3 (worldOk_sub hw 0) ha)
          (ih (fun q hq => hl q (by simp [hq])) (worldOk_sub hw 1) hb)

omit [Uni] in
theorem intact_component {k name body : Str} (hn : NoLf name) (hb : Intact k body) :
    Intact k (c!"BEGIN:" ++ name ++ crlf ++ body ++ (c!"END:" ++ name ++ crlf)) := by
  have e1 : Intact k (c!"BEGIN:" ++ name ++ crlf) :=
    intact_line (by simpa [NoLf] using hn) (noIndent_cons (by decide) (by decide))
  have e2 : Intact k (c!"END:" ++ name ++ crlf) :=
    intact_line (by simpa [NoLf] using hn) (noIndent_cons (by decide) (by decide))
  exact intact_append (intact_append e1 hb) e2

mutual
theorem intact_other {k : Str} (hk : Apart k) (o : Other) (ho : OtherOk o) (hu : UnbrokenOther o)
    (hs : ∀ p ∈ propsWithin o, Findable p) {w : World} (hw : World.Ok w) {out : Str} (h : o.fmtWrite w = .ok out) :
    Intact k out := by
  match o, ho, hu, hs with
  | .mk name props multi comps, ho, hu, hs =>
    obtain ⟨hn, hi, hc⟩ := ho
    obtain ⟨hu1, hu2, hu3⟩ := hu
    have hi := innerOk_writable hi
    simp only [propsWithin, List.mem_append] at hs
    unfold Other.fmtWrite at h
    cases hps : fmtProps props.values (w.sub 0) with
    | error e => simp only [hps] at h; cases h
    | ok ps =>
      cases hms : fmtProps multi.values.flatten (w.sub 1) with
      | error e => simp only [hps, hms] at h; cases h
      | ok ms =>
        cases hcs : fmtOthers comps (w.sub 2) with
        | error e => simp only [hps, hms, hcs] at h; cases h
        | ok cs =>
          simp only [hps, hms, hcs] at h
          cases h
          have b1 : Intact k ps := by
            refine intact_props hk ?_ (worldOk_sub hw 0) hps
            intro p hp
            refine ⟨(values_ok hi).1 p hp, ?_, hs p (.inl hp)⟩
            obtain ⟨x, hx, rfl⟩ := List.mem_map.1 hp
            exact hu1 x hx
          have b2 : Intact k ms := by
            refine intact_props hk ?_ (worldOk_sub hw 1) hms
            intro p hp
            refine ⟨(values_ok hi).2 p hp, ?_, hs p (.inr (.inl (by rw [List.flatMap_def]; exact hp)))⟩
            obtain ⟨g, hg, hpg⟩ := List.mem_flatten.1 hp
            obtain ⟨x, hx, rfl⟩ := List.mem_map.1 hg
            exact hu2 x hx p hpg
          have b3 := intact_others hk comps hc hu3 (fun p hp => hs p (.inr (.inr hp))) (worldOk_sub hw 2) hcs
          have b4 : Intact k (if props.containsKey c!"DTSTAMP" then [] else c!"DTSTAMP:" ++ fmtUtc (w.now []) ++ crlf) := by
            split
            · exact intact_nil k
            · refine intact_line ?_ (noIndent_cons (by decide) (by decide))
              have := fmtUtc_not_mem (w.now []) (x := '\n') (by decide) (by decide)
              simpa [NoLf] using this
          have b5 : Intact k (if props.containsKey c!"UID" then [] else c!"UID:" ++ w.uuid [] ++ crlf) := by
            split
            · exact intact_nil k
            · refine intact_line ?_ (noIndent_cons (by decide) (by decide))
              have := uuid_not_mem hw (x := '\n') (by decide) []
              simpa [NoLf] using this
          have := intact_component (k := k) (name_plain hn).2.1
            (intact_append (intact_append (intact_append (intact_append b4 b1) b5) b2) b3)
          simpa only [List.append_assoc, List.nil_append, List.append_nil] using this
theorem intact_others {k : Str} (hk : Apart k) (l : List Other) (hl : OthersOk l) (hu : UnbrokenOthers l)
    (hs : ∀ p ∈ propsWithinAll l, Findable p) {w : World} (hw : World.Ok w) {out : Str} (h : fmtOthers l w = .ok out) :
    Intact k out := by
  match l, hl, hu, hs with
  | [], _, _, _ =>
    simp only [fmtOthers] at h
    cases h
    exact intact_nil k
  | o :: l, hl, hu, hs =>
    obtain ⟨ho, hl⟩ := hl
    obtain ⟨hu1, hu2⟩ := hu
    simp only [propsWithinAll, List.mem_append] at hs
    unfold fmtOthers at h
    cases ha : o.fmtWrite (w.sub 0) with
    | error e => rw [ha] at h; cases h
    | ok a =>
      rw [ha] at h
      cases hb : fmtOthers l (w.sub 1) with
      | error e => rw [hb] at h; cases h
      | ok b =>
        rw [hb] at h
        cases h
        exact intact_append (intact_other hk o ho hu1 (fun p hp => hs p (.inl hp)) (worldOk_sub hw 0) ha)
          (intact_others hk l hl hu2 (fun p hp => hs p (.inr hp)) (worldOk_sub hw 1) hb)
end

theorem intact_comps {k : Str} (hk : Apart k) (l : List CalComp) (hl : ∀ x ∈ l, CalCompOk x) (hu : ∀ x ∈ l, UnbrokenOther x.toOther)
    (hs : ∀ p ∈ propsWithinAll (l.map CalComp.toOther), Findable p) {w : World} (hw : World.Ok w) {out : Str}
    (h : fmtComps l w = .ok out) : Intact k out := by
  induction l generalizing w out with
  | nil => cases h; exact intact_nil k
  | cons x l ih =>
    simp only [List.map_cons, propsWithinAll, List.mem_append] at hs
    unfold fmtComps at h
    rw [calComp_fmtWrite] at h
    cases ha : x.toOther.fmtWrite (w.sub 0) with
    | error e => rw [ha] at h; cases h
    | ok a =>
      rw [ha] at h
      cases hb : fmtComps l (w.sub 1) with
      | error e => rw [hb] at h; cases h
      | ok b =>
        rw [hb] at h
        cases h
        exact intact_append (intact_other hk _ (calCompOk_other (hl x (by simp))) (hu x (by simp)) (fun p hp => hs p (.inl hp)) (worldOk_sub hw 0) ha)
          (ih (fun y hy => hl y (by simp [hy])) (fun y hy => hu y (by simp [hy])) (fun p hp => hs p (.inr hp)) (worldOk_sub hw 1) hb)

theorem written_uncut {k : Str} (hk : Apart k) {c : Calendar} (hc : CalendarOk c) (hu : UnbrokenCal c)
    (hs : ∀ p ∈ calendarProps c, Findable p) {w : World} (hw : World.Ok w) {out : Str} (h : c.fmtWrite w = .ok out) :
    NotCut k (cutLines out) := by
  simp only [calendarProps, List.mem_append] at hs
  unfold Calendar.fmtWrite at h
  cases hps : fmtProps c.props (w.sub 0) with
  | error e => simp only [hps] at h; cases h
  | ok ps =>
    cases hcs : fmtComps c.comps (w.sub 1) with
    | error e => simp only [hps, hcs] at h; cases h
    | ok cs =>
      simp only [hps, hcs] at h
      cases h
      have b1 : Intact k ps := intact_props hk (fun p hp => ⟨hc.props p hp, hu.props p hp, hs p (.inl hp)⟩) (worldOk_sub hw 0) hps
      have b2 : Intact k cs := intact_comps hk _ hc.comps hu.comps (fun p hp => hs p (.inr hp)) (worldOk_sub hw 1) hcs
      have := (intact_component (k := k) (name := c!"VCALENDAR") (by decide) (intact_append b1 b2) [] noIndent_nil trivial).1
      simpa only [List.append_assoc, List.append_nil, List.cons_append, List.nil_append] using this

/-- **C153.** In a written calendar no line that ends within a name is continued if no name has more than 73 characters or is
followed by white space. -/
theorem written_notCut {k : Str} (hk : KeyOk k) {c : Calendar} (hc : CalendarOk c) (hu : UnbrokenCal c)
    (hs : ∀ p ∈ calendarProps c, Findable p) {w : World} (hw : World.Ok w) {out : Str} (h : c.fmtWrite w = .ok out) :
    NotCut k (cutLines out) :=
  written_uncut (apart_key hk) hc hu hs hw h

omit [Uni] in
theorem unnamed_append : (l l' : List Item) → Unnamed k' l → Unnamed k' l' → Unnamed k' (l ++ l')
  | [], _, _, h' => h'
  | .prop key params val :: l, l', h, h' => by
    rw [Unnamed] at h
    rw [List.cons_append, Unnamed]
    exact ⟨h.1, unnamed_append l l' h.2 h'⟩
  | .comp b e n items :: l, l', h, h' => by
    rw [Unnamed] at h
    rw [List.cons_append, Unnamed]
    exact ⟨h.1, unnamed_append l l' h.2 h'⟩

theorem unnamed_props : (l : List Property) → (∀ p ∈ l, p.key ≠ k') → (w : World) → Unnamed k' (propItems l w)
  | [], _, _ => by simp [propItems, Unnamed]
  | p :: l, h, w => by
    rw [propItems, propItem, Unnamed]
    exact ⟨h p (by simp), unnamed_props l (fun q hq => h q (by simp [hq])) _⟩

mutual
theorem unnamed_other : (o : Other) → HasStamps o → (∀ p ∈ propsWithin o, p.key ≠ k') → (w : World) → Unnamed k' [o.item w]
  | .mk n props multi comps, hs, h, w => by
    rw [HasStamps] at hs
    simp only [propsWithin, List.mem_append] at h
    rw [Other.item, missing_stamped hs.1, missing_stamped hs.2.1, Unnamed, Unnamed]
    refine ⟨unnamed_append _ _ (unnamed_append _ _ (unnamed_append _ _ (unnamed_append _ _ (by simp [Unnamed])
      (unnamed_props _ ?_ _)) (by simp [Unnamed])) (unnamed_props _ ?_ _)) (unnamed_others comps hs.2.2 (fun p hp => h p (.inr (.inr hp))) _),
      trivial⟩
    · exact fun p hp => h p (.inl hp)
    · exact fun p hp => h p (.inr (.inl (by rw [List.flatMap_def]; exact hp)))
theorem unnamed_others : (l : List Other) → HaveStamps l → (∀ p ∈ propsWithinAll l, p.key ≠ k') → (w : World) → Unnamed k' (otherItems l w)
  | [], _, _, _ => by simp [otherItems, Unnamed]
  | o :: l, hs, h, w => by
    rw [HaveStamps] at hs
    simp only [propsWithinAll, List.mem_append] at h
    rw [otherItems]
    exact unnamed_append [_] _ (unnamed_other o hs.1 (fun p hp => h p (.inl hp)) _) (unnamed_others l hs.2 (fun p hp => h p (.inr hp)) _)
end

theorem unnamed_comps : (l : List CalComp) → (∀ x ∈ l, HasStamps x.toOther) →
    (∀ p ∈ propsWithinAll (l.map CalComp.toOther), p.key ≠ k') → (w : World) → Unnamed k' (compItems l w)
  | [], _, _, _ => by simp [compItems, Unnamed]
  | x :: l, hs, h, w => by
    simp only [List.map_cons, propsWithinAll, List.mem_append] at h
    rw [compItems]
    exact unnamed_append [_] _ (unnamed_other _ (hs x (by simp)) (fun p hp => h p (.inl hp)) _)
      (unnamed_comps l (fun y hy => hs y (by simp [hy])) (fun p hp => h p (.inr hp)) _)

omit [Uni] in
/-- **C153.** The name of a property is not separated from what follows if it has at most 73 ASCII characters and neither
the value nor the name of a parameter begins with white space. -/
theorem plain_findable {p : Property} (ha : ∀ c ∈ p.key, c.toNat < 128) (hl : p.key.length ≤ 73)
    (hv : ∀ c, p.val.head? = some c → isWhitespace c = false)
    (hp : ∀ x ∈ p.params, ∀ c, x.1.head? = some c → isWhitespace c = false) : Findable p := by
  rintro line ⟨params, forms, hperm, hf, rfl⟩
  refine .inr ⟨ha, hl, fun x hx => ?_⟩
  rw [List.append_assoc, List.getElem?_append_right (by omega), show p.key.length + 1 - p.key.length = 1 by omega] at hx
  cases params with
  | nil =>
    cases forms with
    | cons f fs => cases hf
    | nil =>
      have hraw : (rawText p).head? = some x := by
        simpa [List.head?_eq_getElem?] using hx
      unfold rawText at hraw
      split at hraw
      · cases hval : p.val with
        | nil => rw [hval] at hraw; cases hraw
        | cons c v =>
          rw [hval, List.flatMap_cons] at hraw
          have hc := hv c (by rw [hval]; rfl)
          have he : escaped c = ['\\', 'N'] ∨ escaped c = ['\\', c] ∨ escaped c = [c] := by
            unfold escaped
            split
            · exact .inl rfl
            · split
              · exact .inr (.inl rfl)
              · exact .inr (.inr rfl)
          rcases he with e | e | e
          all_goals
            rw [e] at hraw
            simp at hraw
            subst hraw
            first | decide | exact hc
      · exact hv x hraw
  | cons kv params =>
    cases forms with
    | nil => cases hf
    | cons f fs =>
      obtain ⟨hform, -⟩ := hf
      unfold ParamForm at hform
      subst hform
      have hmem := hperm.mem_iff.1 (List.mem_cons_self (a := kv) (l := params))
      cases hk : kv.1 with
      | nil =>
        rw [hk] at hx
        simp at hx
        subst hx
        decide
      | cons c n =>
        rw [hk] at hx
        simp at hx
        subst hx
        exact hp kv hmem c (by rw [hk]; rfl)

/-- **C153.** A written calendar is read, with the lines of a name renamed, as the calendar with the properties of this name
renamed; the lines may be folded. -/
theorem renamed_written (hk : KeyOk k) (hk' : KeyOk k') (hsame : SameUse k k') {c : Calendar} (hc : CalendarOk c) (hs : CalendarSafe c)
    (hst : ∀ x ∈ c.comps, HasStamps x.toOther) (hu : UnbrokenCal c) (hf : ∀ p ∈ calendarProps c, Findable p)
    (hnew : ∀ p ∈ calendarProps c, p.key ≠ k') {w : World} (hw : World.Ok w) {out : Str} (h : c.fmtWrite w = .ok out) :
    ∃ d, Calendar.fromStr (renameLines k k' out) = some d ∧ CalendarWithRenamed k k' c d := by
  have hok := calendar_item_ok (calendarOk_writable hc) hw
  have hi := calendar_unbroken hc hu hw
  have hp := presents_written hc hw h
  simp only [calendarProps, List.mem_append] at hnew
  unfold Calendar.item at hok hi hp
  obtain ⟨c', d, e1, e2, e3⟩ := renamed_calendar hk hk' hsame hok hi
    (unnamed_append _ _ (unnamed_props _ (fun p hp => hnew p (.inl hp)) _) (unnamed_comps _ hst (fun p hp => hnew p (.inr hp)) _)) hp
    (written_notCut hk hc hu hf hw h)
  rw [calendar_roundtrip c hc hs hst w hw out h] at e1
  cases e1
  exact ⟨d, e2, e3⟩

end

/-- a calendar whose name begins with no-break spaces -/
def blankName : Calendar := ⟨[⟨c!"NAME", List.replicate 71 '\u00a0' ++ c!"x", []⟩], []⟩

/-- what is written for it -/
def blankNameText : Str :=
  c!"BEGIN:VCALENDAR\r\nNAME\r\n :" ++ List.replicate 36 '\u00a0' ++ c!"\r\n " ++ List.replicate 35 '\u00a0' ++ c!"x\r\nEND:VCALENDAR\r\n"

/-- **C153 (violated).** Renaming the lines of a name does not always rename the property: before a value that begins with
no-break spaces the line is cut behind the name, so that the name is not found. -/
theorem renamed_violated : letI := Uni.ascii
    CalendarOk blankName ∧ CalendarSafe blankName ∧ UnbrokenCal blankName ∧ SameUse c!"NAME" c!"X-NAME" ∧
    (∃ w, World.Ok w ∧ blankName.fmtWrite w = .ok blankNameText) ∧
    renameLines c!"NAME" c!"X-NAME" blankNameText = blankNameText := by
  letI := Uni.ascii
  let w : World := ⟨fun _ => ⟨⟨⟨2026, 1, 1⟩, 0, 0, 0, 0⟩⟩, fun _ => c!"01234567-89ab-cdef-0123-456789abcdef", fun _ l => l⟩
  have hw : World.Ok w := ⟨fun _ _ => .refl _, fun _ => by simp only [w]; decide, fun _ => by simp only [w]; decide⟩
  have ht : blankName.fmtWrite w = .ok blankNameText := by decide +kernel
  refine ⟨⟨?_, fun _ h => by cases h⟩, ⟨by decide +kernel, fun _ h => by cases h⟩, ⟨?_, fun _ h => by cases h⟩, by decide, ⟨w, hw, ht⟩,
    by decide +kernel⟩
  · intro p hp
    simp only [blankName, List.mem_cons, List.not_mem_nil, or_false] at hp
    subst hp
    decide +kernel
  · intro p hp
    simp only [blankName, List.mem_cons, List.not_mem_nil, or_false] at hp
    subst hp
    exact ⟨by decide, by decide +kernel, fun h => absurd h (by decide +kernel)⟩

end Ical
