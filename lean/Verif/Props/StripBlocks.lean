import Verif.Spec.StripBlocks
import Verif.Props.Rename
import Verif.Props.Blocks

/-!
C155: removing the components of a name from a file by removing ranges of lines.
-/

namespace Ical

open Nom Spec

/-! ### lines -/

section

variable {B E : Str}

/-- what is left of a text, also within a range -/
def leftover (B E : Str) (drop : Bool) (s : Str) : Str := (outside B E drop (cutLines s)).flatten

theorem content_last {x : Str} (h : NoLf x) : lineContent x = x := by
  unfold lineContent
  rw [if_neg, if_neg]
  · rintro ⟨t, rfl⟩; exact h (by simp)
  · rintro ⟨t, rfl⟩; exact h (by simp)

theorem leftover_last {x : Str} (h : NoLf x) : leftover B E false x = if x = B then [] else x := by
  unfold leftover
  rw [cutLines_last h]
  by_cases hx : x = []
  · subst hx; simp [outside]
  · rw [if_neg hx, outside, content_last h]
    by_cases hb : x = B <;> simp [hb, outside]

theorem leftover_last_true {x : Str} (h : NoLf x) : leftover B E true x = [] := by
  unfold leftover
  rw [cutLines_last h]
  by_cases hx : x = []
  · subst hx; simp [outside]
  · rw [if_neg hx, outside]
    split <;> simp [outside]

theorem leftover_line {x : Str} (h : NoLf x) (r : Str) :
    leftover B E false (x ++ '\n' :: r) =
      if lineContent (x ++ ['\n']) = B then leftover B E true r else x ++ '\n' :: leftover B E false r := by
  unfold leftover
  rw [cutLines_line h, outside]
  split <;> simp

theorem leftover_line_true {x : Str} (h : NoLf x) (r : Str) :
    leftover B E true (x ++ '\n' :: r) =
      if lineContent (x ++ ['\n']) = E then leftover B E false r else leftover B E true r := by
  unfold leftover
  rw [cutLines_line h, outside]
  split <;> simp

/-- a line that starts like this is not the given one -/
theorem undecided_content {x : Str} (h : ¬ x <+: B ++ ['\r']) (t : Str) : lineContent ((x ++ t) ++ ['\n']) ≠ B := by
  intro e
  apply h
  by_cases hr : ['\r'] <:+ x ++ t
  · obtain ⟨y, hy⟩ := hr
    rw [← hy, lineContent_crlf] at e
    rw [← e, hy]
    exact ⟨t, rfl⟩
  · rw [lineContent_lf hr] at e
    rw [← e]
    exact ⟨t ++ ['\r'], by simp⟩

theorem undecided_last {x : Str} (h : ¬ x <+: B ++ ['\r']) (t : Str) : x ++ t ≠ B := by
  rintro rfl
  exact h ⟨t ++ ['\r'], by simp⟩

theorem undecided_append {x : Str} (h : ¬ x <+: B ++ ['\r']) (t : Str) : ¬ x ++ t <+: B ++ ['\r'] :=
  fun h' => h (List.IsPrefix.trans ⟨t, rfl⟩ h')

theorem blank_undecided (hB : ∀ c ∈ B, c ≠ ' ' ∧ c ≠ '\t') {b : Char} (hb : b = ' ' ∨ b = '\t') : ¬ [b] <+: B ++ ['\r'] := by
  intro h
  have : b ∈ B ++ ['\r'] := h.subset (by simp)
  rcases List.mem_append.1 this with h | h
  · have := hB b h
    rcases hb with rfl | rfl
    · exact this.1 rfl
    · exact this.2 rfl
  · rcases hb with rfl | rfl <;> simp at h

theorem leftover_noIndent (n : Nat) : ∀ s : Str, s.length ≤ n → NotCut (B ++ ['\r']) (cutLines s) → NotCut (E ++ ['\r']) (cutLines s) →
    NoIndent (leftover B E true s) ∧ (NoIndent s → NoIndent (leftover B E false s)) := by
  induction n with
  | zero =>
    intro s hs _ _
    obtain rfl : s = [] := List.length_eq_zero_iff.1 (by omega)
    exact ⟨noIndent_nil, fun _ => noIndent_nil⟩
  | succ n ih =>
    intro s hs hB hE
    rcases cut_first s with hx | ⟨x, r, hx, rfl⟩
    · rw [leftover_last hx, leftover_last_true hx]
      refine ⟨noIndent_nil, fun h => ?_⟩
      split
      · exact noIndent_nil
      · exact h
    · obtain ⟨i1, i2⟩ := ih r (by simp at hs; omega) (notCut_tail hx hB) (notCut_tail hx hE)
      rw [leftover_line hx, leftover_line_true hx]
      refine ⟨?_, fun h => ?_⟩
      · split
        · rename_i he
          refine i2 ?_
          rcases noIndent_cases r with hr | ⟨b, r', hb, rfl⟩
          · exact hr
          · exact absurd ⟨['\r'], by rw [he]⟩ (notCut_head hx hb hE)
        · exact i1
      · split
        · exact i1
        · cases x with
          | nil => simp [NoIndent]
          | cons c x => simpa [NoIndent] using h

/-- removing ranges and unfolding can be exchanged -/
theorem leftover_unfold (hB : ∀ c ∈ B, c ≠ ' ' ∧ c ≠ '\t') (hE : ∀ c ∈ E, c ≠ ' ' ∧ c ≠ '\t') (n : Nat) : ∀ s : Str, s.length ≤ n →
    NotCut (B ++ ['\r']) (cutLines s) → NotCut (E ++ ['\r']) (cutLines s) →
    (∀ drop, unfoldSpec (leftover B E drop s) = leftover B E drop (unfoldSpec s)) ∧
    ∀ acc b r, NoLf acc → ¬ acc <+: B ++ ['\r'] → ¬ acc <+: E ++ ['\r'] → (b = ' ' ∨ b = '\t') → s = b :: r →
      leftover B E true (acc ++ unfoldSpec r) = unfoldSpec (leftover B E true s) ∧
      ∃ r', leftover B E false s = b :: r' ∧ leftover B E false (acc ++ unfoldSpec r) = acc ++ unfoldSpec r' := by
  induction n with
  | zero =>
    intro s hs _ _
    obtain rfl : s = [] := List.length_eq_zero_iff.1 (by omega)
    exact ⟨fun drop => by cases drop <;> rfl, fun _ _ _ _ _ _ _ h => by cases h⟩
  | succ n ih =>
    intro s hs nB nE
    constructor
    · rcases cut_first s with hx | ⟨x, r, hx, rfl⟩
      · rintro (_ | _)
        · rw [noLf_unfold hx, leftover_last hx]
          split
          · rfl
          · exact noLf_unfold hx
        · rw [noLf_unfold hx, leftover_last_true hx]
          rfl
      · have hlen : r.length ≤ n := by simp at hs; omega
        have nB' := notCut_tail hx nB
        have nE' := notCut_tail hx nE
        obtain ⟨i1, i2⟩ := ih r hlen nB' nE'
        rcases noIndent_cases r with hr | ⟨b, r, hb, rfl⟩
        · have hni := (leftover_noIndent (B := B) (E := E) _ r (Nat.le_refl _) nB' nE').2 hr
          rintro (_ | _)
          · rw [unfold_next hx hr, leftover_line hx, leftover_line hx]
            split
            · exact i1 true
            · rw [unfold_next hx hni, i1 false]
          · rw [unfold_next hx hr, leftover_line_true hx, leftover_line_true hx]
            split
            · exact i1 false
            · exact i1 true
        · have hdB := notCut_head hx hb nB
          have hdE := notCut_head hx hb nE
          have hc : NoLf (lineContent (x ++ ['\n'])) := fun e => hx ((content_prefix x).subset e)
          obtain ⟨j1, r', j2, j3⟩ := i2 _ b r hc hdB hdE hb rfl
          rintro (_ | _)
          · rw [unfold_continued hx hb, leftover_line hx, if_neg (fun e => hdB ⟨['\r'], by rw [e]⟩), j2, unfold_continued hx hb, j3]
          · rw [unfold_continued hx hb, leftover_line_true hx, if_neg (fun e => hdE ⟨['\r'], by rw [e]⟩), j1]
    · rintro acc b r ha hdB hdE hb rfl
      have hbB := blank_undecided hB hb
      have hbE := blank_undecided hE hb
      rcases cut_first r with hx | ⟨x, r, hx, rfl⟩
      · have hax : NoLf (acc ++ r) := by simpa [NoLf] using ⟨ha, hx⟩
        have hbx : NoLf (b :: r) := by
          rcases hb with rfl | rfl <;> simpa [NoLf] using hx
        rw [noLf_unfold hx, leftover_last_true hax, leftover_last_true hbx, leftover_last hax, leftover_last hbx,
          if_neg (undecided_last hdB r), if_neg (show b :: r ≠ B from undecided_last hbB r)]
        exact ⟨rfl, r, rfl, by rw [noLf_unfold hx]⟩
      · have hbx : NoLf (b :: x) := by
          rcases hb with rfl | rfl <;> simpa [NoLf] using hx
        have hax : NoLf (acc ++ x) := by simpa [NoLf] using ⟨ha, hx⟩
        rw [← List.cons_append] at nB nE hs ⊢
        have hlen : r.length ≤ n := by simp at hs; omega
        have nB' := notCut_tail hbx nB
        have nE' := notCut_tail hbx nE
        obtain ⟨i1, i2⟩ := ih r hlen nB' nE'
        have c1 : lineContent (b :: x ++ ['\n']) ≠ B := undecided_content hbB x
        have c2 : lineContent (b :: x ++ ['\n']) ≠ E := undecided_content hbE x
        rw [leftover_line hbx, leftover_line_true hbx, if_neg c1, if_neg c2]
        rcases noIndent_cases r with hr | ⟨b', r, hb', rfl⟩
        · have hni := (leftover_noIndent (B := B) (E := E) _ r (Nat.le_refl _) nB' nE').2 hr
          rw [unfold_next hx hr, ← List.append_assoc, leftover_line hax, leftover_line_true hax, if_neg (undecided_content hdB x),
            if_neg (undecided_content hdE x)]
          refine ⟨(i1 true).symm, x ++ '\n' :: leftover B E false r, by simp, ?_⟩
          rw [unfold_next hx hni, i1 false, List.append_assoc]
        · have hc : NoLf (lineContent (x ++ ['\n'])) := fun e => hx ((content_prefix x).subset e)
          obtain ⟨j1, r', j2, j3⟩ := i2 (acc ++ lineContent (x ++ ['\n'])) b' r (by simpa [NoLf] using ⟨ha, hc⟩)
            (undecided_append hdB _) (undecided_append hdE _) hb' rfl
          rw [unfold_continued hx hb', ← List.append_assoc]
          refine ⟨j1, x ++ '\n' :: b' :: r', by rw [j2]; simp, ?_⟩
          rw [unfold_continued hx hb', j3, List.append_assoc]

theorem leftover_mem {drop : Bool} {s : Str} {c : Char} (h : c ∈ leftover B E drop s) : c ∈ s := by
  have key : ∀ (l : List Str) (drop : Bool), ∀ x ∈ outside B E drop l, x ∈ l := by
    intro l
    induction l with
    | nil => intro drop x hx; cases drop <;> cases hx
    | cons y l ih =>
      intro drop x hx
      cases drop <;> rw [outside] at hx <;> split at hx
      · exact List.mem_cons_of_mem _ (ih _ _ hx)
      · rcases List.mem_cons.1 hx with rfl | hx
        · simp
        · exact List.mem_cons_of_mem _ (ih _ _ hx)
      · exact List.mem_cons_of_mem _ (ih _ _ hx)
      · exact List.mem_cons_of_mem _ (ih _ _ hx)
  obtain ⟨x, hx, hc⟩ := List.mem_flatten.1 h
  rw [← cutLines_flatten s]
  exact List.mem_flatten.2 ⟨x, key _ _ x hx, hc⟩

theorem content_break {x : Str} (h : '\r' ∉ x) (br : Break) : lineContent (x ++ br.text) = x := by
  cases br
  · have := lineContent_crlf x
    rw [List.append_assoc] at this
    exact this
  · exact lineContent_lf (fun ⟨t, e⟩ => h (by rw [← e]; simp))

theorem leftover_break {x : Str} (h : NoLf x) (hr : '\r' ∉ x) (br : Break) (r : Str) :
    leftover B E false (x ++ (br.text ++ r)) = if x = B then leftover B E true r else x ++ (br.text ++ leftover B E false r) := by
  have hc := content_break hr br
  obtain ⟨q, hq, e⟩ := break_cases br
  have := leftover_line (B := B) (E := E) (x := x ++ q) (by simpa [NoLf] using ⟨h, hq⟩) r
  rw [e, ← List.append_assoc] at hc
  rw [hc] at this
  rw [e]
  simpa using this

theorem leftover_break_true {x : Str} (h : NoLf x) (hr : '\r' ∉ x) (br : Break) (r : Str) :
    leftover B E true (x ++ (br.text ++ r)) = if x = E then leftover B E false r else leftover B E true r := by
  have hc := content_break hr br
  obtain ⟨q, hq, e⟩ := break_cases br
  have := leftover_line_true (B := B) (E := E) (x := x ++ q) (by simpa [NoLf] using ⟨h, hq⟩) r
  rw [e, ← List.append_assoc] at hc
  rw [hc] at this
  rw [e]
  simpa using this

theorem leftover_blank (hB : B ≠ []) (hE : E ≠ []) {bl : Str} (h : Blank bl) (r : Str) :
    leftover B E false (bl ++ r) = bl ++ leftover B E false r ∧ leftover B E true (bl ++ r) = leftover B E true r := by
  obtain ⟨bs, rfl⟩ := h
  induction bs with
  | nil => exact ⟨rfl, rfl⟩
  | cons b bs ih =>
    have h1 := leftover_break (B := B) (E := E) (x := []) (by decide) (by simp) b ((bs.map Break.text).flatten ++ r)
    have h2 := leftover_break_true (B := B) (E := E) (x := []) (by decide) (by simp) b ((bs.map Break.text).flatten ++ r)
    rw [if_neg (Ne.symm hB), List.nil_append, List.nil_append, ih.1] at h1
    rw [if_neg (Ne.symm hE), List.nil_append, ih.2] at h2
    rw [List.map_cons, List.flatten_cons, List.append_assoc, h1, h2]
    exact ⟨by simp, rfl⟩

end

/-! ### documents -/

section

variable [Uni] {k : Str}

omit [Uni] in
theorem keyword_cr {b t : Str} (h : b.map lowerAscii = t) (ht : '\r' ∉ t) : '\r' ∉ b := fun hm => by
  subst h
  exact ht (List.mem_map.2 ⟨_, hm, by decide⟩)

/-- the lines of properties do not begin or end components -/
theorem prop_not_keyword {key : Str} (hk : KeyOk key) (params : List DParam) (val : Str) :
    key ++ (params.map DParam.text).flatten ++ [':'] ++ val ≠ c!"BEGIN:" ++ k ∧
    key ++ (params.map DParam.text).flatten ++ [':'] ++ val ≠ c!"END:" ++ k := by
  obtain ⟨d, t, hd, ht⟩ := params_start params val
  rw [List.append_assoc, List.append_assoc, ht]
  have hp := (name_plain hk.name).1
  constructor
  · intro e
    have h : NamedLine c!"BEGIN" (key ++ d :: t) := .inl ⟨k, by rw [e]; simp⟩
    rw [named_key (by decide) hp hd] at h
    exact hk.notBeginAnyCase (by rw [h]; decide)
  · intro e
    have h : NamedLine c!"END" (key ++ d :: t) := .inl ⟨k, by rw [e]; simp⟩
    rw [named_key (by decide) hp hd] at h
    exact hk.notEndAnyCase (by rw [h]; decide)

omit [Uni] in
theorem keyword_eq {b n t : Str} {w : Str} (hb : b.map lowerAscii = w) (hw : t.map lowerAscii = w) (h : b ++ n = t ++ k) : n = k := by
  have : b.length = t.length := by
    rw [← List.length_map (f := lowerAscii), hb, ← hw, List.length_map]
  exact (List.append_inj h this).2

omit [Uni] in
theorem begin_not_end {b n : Str} (hb : b.map lowerAscii = c!"begin:") : b ++ n ≠ c!"END:" ++ k := by
  intro e
  have := congrArg (fun s => (s.map lowerAscii).head?) e
  simp [hb, lowerAscii] at this

omit [Uni] in
theorem end_not_begin {b n : Str} (hb : b.map lowerAscii = c!"end:") : b ++ n ≠ c!"BEGIN:" ++ k := by
  intro e
  have := congrArg (fun s => (s.map lowerAscii).head?) e
  simp [hb, lowerAscii] at this

/-- what `withoutBlocks` leaves -/
def left (k : Str) (drop : Bool) (s : Str) : Str := leftover (c!"BEGIN:" ++ k) (c!"END:" ++ k) drop s

omit [Uni] in
theorem left_blank {bl : Str} (h : Blank bl) (r : Str) : left k false (bl ++ r) = bl ++ left k false r ∧ left k true (bl ++ r) = left k true r :=
  leftover_blank (by simp) (by simp) h r

omit [Uni] in
theorem left_break {x : Str} (h : NoLf x) (hr : '\r' ∉ x) (br : Break) (r : Str) :
    left k false (x ++ (br.text ++ r)) = if x = c!"BEGIN:" ++ k then left k true r else x ++ (br.text ++ left k false r) :=
  leftover_break h hr br r

omit [Uni] in
theorem left_break_true {x : Str} (h : NoLf x) (hr : '\r' ∉ x) (br : Break) (r : Str) :
    left k true (x ++ (br.text ++ r)) = if x = c!"END:" ++ k then left k false r else left k true r :=
  leftover_break_true h hr br r

theorem comp_lines {br : Break} {b e n : Str} {items : List Item} (h : (Item.comp b e n items).Ok br) :
    (NoLf (b ++ n) ∧ '\r' ∉ b ++ n) ∧ NoLf (e ++ n) ∧ '\r' ∉ e ++ n := by
  simp only [Item.Ok] at h
  obtain ⟨-, n1, n2, -⟩ := name_plain h.2.2.1
  have b1 := (keyword_unbroken h.1 (by decide) (by decide)).2
  have e1 := (keyword_unbroken h.2.1 (by decide) (by decide)).2
  have b2 := keyword_cr h.1 (by decide)
  have e2 := keyword_cr h.2.1 (by decide)
  exact ⟨⟨by simpa [NoLf] using ⟨b1, n1⟩, by simpa using ⟨b2, n2⟩⟩, by simpa [NoLf] using ⟨e1, n1⟩, by simpa using ⟨e2, n2⟩⟩

/-- nothing is left of elements within a range -/
theorem spaced_dropped {br : Break} : (l : List Item) → ItemsOk br l → ItemsUnbroken l → NoBlock k l → {s : Str} → SpacedAll br l s →
    ∀ t, left k true (s ++ t) = left k true t
  | [], _, _, _, s, hs, t => by
    simp only [SpacedAll] at hs
    subst hs
    rfl
  | .prop key params val :: l, h, hu, hn, s, hs, t => by
    simp only [SpacedAll, Spaced] at hs
    obtain ⟨s1, s2, ⟨bl, hb, rfl⟩, h2, rfl⟩ := hs
    simp only [ItemsOk, Item.Ok] at h
    simp only [ItemsUnbroken, Item.Unbroken] at hu
    have e := spaced_dropped l h.2 hu.2 (by simpa only [NoBlock] using hn) h2 t
    have := left_break_true (k := k) hu.1.2 hu.1.1 br (bl ++ (s2 ++ t))
    rw [if_neg (prop_not_keyword h.1.1 params val).2, (left_blank hb _).2, e] at this
    simp only [Item.text, List.append_assoc] at this ⊢
    exact this
  | .comp b e' n items :: l, h, hu, hn, s, hs, t => by
    simp only [SpacedAll, Spaced] at hs
    obtain ⟨s1, s2, ⟨bl, body, bl', hb, hb', hbody, rfl⟩, h2, rfl⟩ := hs
    simp only [ItemsOk] at h
    obtain ⟨⟨c1, c2⟩, c3, c4⟩ := comp_lines h.1
    simp only [Item.Ok] at h
    simp only [ItemsUnbroken, Item.Unbroken] at hu
    rw [NoBlock] at hn
    have er := spaced_dropped l h.2 hu.2 hn.2.2 h2 t
    have ei := spaced_dropped items h.1.2.2.2 hu.1 hn.2.1 hbody
    have e1 := left_break_true (k := k) c1 c2 br
      (bl ++ (body ++ (e' ++ (n ++ (br.text ++ (bl' ++ (s2 ++ t)))))))
    have e2 := left_break_true (k := k) c3 c4 br (bl' ++ (s2 ++ t))
    rw [if_neg (fun e => hn.1 (keyword_eq h.1.2.1 (by decide) e)), (left_blank hb' _).2, er, List.append_assoc] at e2
    rw [if_neg (begin_not_end h.1.1), (left_blank hb _).2, ei, e2] at e1
    simp only [List.append_assoc] at e1 ⊢
    exact e1

/-- what is left of the lines of elements presents what is left of the elements -/
theorem spaced_left {br : Break} : (l : List Item) → ItemsOk br l → ItemsUnbroken l → FlatBlocks k l → {s : Str} → SpacedAll br l s →
    ∃ bl s', Blank bl ∧ SpacedAll br (withoutItems k l) s' ∧ ∀ t, left k false (s ++ t) = bl ++ (s' ++ left k false t)
  | [], _, _, _, s, hs => by
    simp only [SpacedAll] at hs
    subst hs
    exact ⟨[], [], blank_nil, by simp [withoutItems, SpacedAll], fun t => rfl⟩
  | .prop key params val :: l, h, hu, hn, s, hs => by
    simp only [SpacedAll, Spaced] at hs
    obtain ⟨s1, s2, ⟨bl, hb, rfl⟩, h2, rfl⟩ := hs
    simp only [ItemsOk, Item.Ok] at h
    simp only [ItemsUnbroken, Item.Unbroken] at hu
    obtain ⟨bl', s', hb', hs', e⟩ := spaced_left l h.2 hu.2 (by simpa only [FlatBlocks] using hn) h2
    refine ⟨[], (Item.prop key params val).text br ++ (bl ++ bl') ++ s', blank_nil, ?_, fun t => ?_⟩
    · rw [withoutItems]
      simp only [SpacedAll, Spaced]
      exact ⟨_, s', ⟨bl ++ bl', blank_append hb hb', rfl⟩, hs', rfl⟩
    · have := left_break (k := k) hu.1.2 hu.1.1 br (bl ++ (s2 ++ t))
      rw [if_neg (prop_not_keyword h.1.1 params val).1, (left_blank hb _).1, e] at this
      simp only [Item.text, List.append_assoc, List.nil_append] at this ⊢
      exact this
  | .comp b e' n items :: l, h, hu, hn, s, hs => by
    simp only [SpacedAll, Spaced] at hs
    obtain ⟨s1, s2, ⟨bl, body, bl', hb, hb', hbody, rfl⟩, h2, rfl⟩ := hs
    simp only [ItemsOk] at h
    obtain ⟨⟨c1, c2⟩, c3, c4⟩ := comp_lines h.1
    simp only [Item.Ok] at h
    simp only [ItemsUnbroken, Item.Unbroken] at hu
    rw [FlatBlocks] at hn
    obtain ⟨hn1, hn2⟩ := hn
    obtain ⟨blr, sr, hbr, hsr, er⟩ := spaced_left l h.2 hu.2 hn2 h2
    by_cases hk : n = k
    · rw [if_pos hk] at hn1
      obtain ⟨rfl, rfl, hno⟩ := hn1
      subst hk
      have ei := spaced_dropped items h.1.2.2.2 hu.1 hno hbody
      refine ⟨bl' ++ blr, sr, blank_append hb' hbr, by rw [withoutItems, if_pos rfl]; exact hsr, fun t => ?_⟩
      have e1 := left_break (k := n) c1 c2 br
        (bl ++ (body ++ (c!"END:" ++ (n ++ (br.text ++ (bl' ++ (s2 ++ t)))))))
      have e2 := left_break_true (k := n) c3 c4 br (bl' ++ (s2 ++ t))
      rw [if_pos rfl, (left_blank hb' _).1, er, List.append_assoc] at e2
      rw [if_pos rfl, (left_blank hb _).2, ei, e2] at e1
      simp only [List.append_assoc] at e1 ⊢
      exact e1
    · rw [if_neg hk] at hn1
      obtain ⟨bli, si, hbi, hsi, ei⟩ := spaced_left items h.1.2.2.2 hu.1 hn1 hbody
      refine ⟨[], b ++ (n ++ (br.text ++ (bl ++ bli) ++ (si ++ (e' ++ (n ++ (br.text ++ (bl' ++ blr))))))) ++ sr, blank_nil, ?_, fun t => ?_⟩
      · rw [withoutItems, if_neg hk]
        simp only [SpacedAll, Spaced]
        exact ⟨_, sr, ⟨bl ++ bli, si, bl' ++ blr, blank_append hb hbi, blank_append hb' hbr, hsi, rfl⟩, hsr, rfl⟩
      · have e1 := left_break (k := k) c1 c2 br
          (bl ++ (body ++ (e' ++ (n ++ (br.text ++ (bl' ++ (s2 ++ t)))))))
        have e2 := left_break (k := k) c3 c4 br (bl' ++ (s2 ++ t))
        rw [if_neg (end_not_begin h.1.2.1), (left_blank hb' _).1, er, List.append_assoc] at e2
        rw [if_neg (fun e => hk (keyword_eq h.1.1 (by decide) e)), (left_blank hb _).1, ei, e2] at e1
        simp only [List.append_assoc, List.nil_append] at e1 ⊢
        exact e1

theorem withoutItems_ok {br : Break} : (l : List Item) → ItemsOk br l → ItemsOk br (withoutItems k l)
  | [], _ => by simp [withoutItems, ItemsOk]
  | .prop key params val :: l, h => by
    simp only [ItemsOk] at h
    rw [withoutItems]
    simp only [ItemsOk]
    exact ⟨h.1, withoutItems_ok l h.2⟩
  | .comp b e name items :: l, h => by
    simp only [ItemsOk, Item.Ok] at h
    rw [withoutItems]
    split
    · exact withoutItems_ok l h.2
    · simp only [ItemsOk, Item.Ok]
      exact ⟨⟨h.1.1, h.1.2.1, h.1.2.2.1, withoutItems_ok items h.1.2.2.2⟩, withoutItems_ok l h.2⟩

omit [Uni] in
/-- **C155.** If no line that ends within the first or last line of a component of the name is continued, then it does not
matter whether the components are removed from the file or from the unfolded file. -/
theorem unblocked_unfold (hk : ∀ c ∈ k, c ≠ ' ' ∧ c ≠ '\t') {s : Str} (h : BlocksWhole k (cutLines s)) :
    unfold (withoutBlocks k s) = withoutBlocks k (unfold s) := by
  rw [unfold_eq_spec, unfold_eq_spec]
  refine (leftover_unfold (B := c!"BEGIN:" ++ k) (E := c!"END:" ++ k) ?_ ?_ _ s (Nat.le_refl _) h.1 h.2).1 false
  · intro c hc
    rcases List.mem_append.1 hc with hc | hc
    · exact (by decide : ∀ c ∈ c!"BEGIN:", c ≠ ' ' ∧ c ≠ '\t') c hc
    · exact hk c hc
  · intro c hc
    rcases List.mem_append.1 hc with hc | hc
    · exact (by decide : ∀ c ∈ c!"END:", c ≠ ' ' ∧ c ≠ '\t') c hc
    · exact hk c hc

/-- **C155.** Removing the lines of the components of a name from a file that presents a document gives a file that presents
the document without these components, at any depth. -/
theorem unblocked_document (hk : IsName k) {br : Break} {b e n : Str} {l : List Item} (h : (Item.comp b e n l).Ok br)
    (hu : (Item.comp b e n l).Unbroken) (hne : n ≠ k) (hflat : FlatBlocks k l) {file : Str} (hp : Presents br (.comp b e n l) file)
    (hw : BlocksWhole k (cutLines file)) :
    (Item.comp b e n (withoutItems k l)).Ok br ∧ Presents br (.comp b e n (withoutItems k l)) (withoutBlocks k file) := by
  have hunf := unblocked_unfold (fun c hc => ((name_plain hk).2.2.2 c hc).2) hw
  obtain ⟨⟨c1, c2⟩, c3, c4⟩ := comp_lines h
  simp only [Item.Ok] at h
  simp only [Item.Unbroken] at hu
  simp only [Presents] at hp
  obtain ⟨lead, bl, body, tail, hl, hb, ht, hbody, hcr, hfold⟩ := hp
  obtain ⟨bli, si, hbi, hsi, ei⟩ := spaced_left l h.2.2.2 hu hflat hbody
  have hfu := foldedForm_unfold hfold
  rw [hfu] at hunf
  change unfold (withoutBlocks k file) = left k false _ at hunf
  have hlast : left k false (e ++ (n ++ tail)) = e ++ (n ++ tail) := by
    obtain ⟨bs, rfl⟩ := ht
    cases bs with
    | nil =>
      have : left k false (e ++ n) = _ := leftover_last (B := c!"BEGIN:" ++ k) (E := c!"END:" ++ k) c3
      rw [if_neg (end_not_begin h.2.1)] at this
      simpa using this
    | cons br' bs =>
      have := left_break (k := k) c3 c4 br' (bs.map Break.text).flatten
      have hbl := (left_blank (k := k) ⟨bs, rfl⟩ []).1
      have hnil : left k false [] = [] := rfl
      rw [List.append_nil, hnil, List.append_nil] at hbl
      rw [if_neg (end_not_begin h.2.1), hbl] at this
      simpa using this
  have hbegin := left_break (k := k) c1 c2 br (bl ++ (body ++ (e ++ (n ++ tail))))
  rw [if_neg (fun e => hne (keyword_eq h.1 (by decide) e)), (left_blank hb _).1, ei, hlast] at hbegin
  have hmem := hunf
  rw [(left_blank hl _).1] at hunf
  simp only [List.append_assoc] at hunf hbegin
  rw [hbegin] at hunf
  have hform := foldedForm_self (withoutBlocks k file)
  refine ⟨by simp only [Item.Ok]; exact ⟨h.1, h.2.1, h.2.2.1, withoutItems_ok l h.2.2.2⟩, ?_⟩
  simp only [Presents]
  refine ⟨lead, bl ++ bli, si, tail, hl, blank_append hb hbi, ht, hsi, fun hlf hc => ?_, ?_⟩
  · refine hcr hlf (leftover_mem (B := c!"BEGIN:" ++ k) (E := c!"END:" ++ k) (drop := false) ?_)
    have : _ = leftover (c!"BEGIN:" ++ k) (c!"END:" ++ k) false _ := hmem
    rw [← this, hunf]
    simpa only [List.append_assoc] using hc
  · rw [← unfold_eq_spec, hunf] at hform
    simpa only [List.append_assoc] using hform

/-! ### calendars -/

omit [Uni] in
theorem itemsProps_withoutItems (l : List Item) : itemsProps (withoutItems k l) = itemsProps l := by
  induction l with
  | nil => rw [withoutItems]
  | cons i l ih =>
    cases i with
    | prop key params val => rw [withoutItems, itemsProps, itemsProps, ih]
    | comp b e n items =>
      rw [withoutItems, itemsProps_comp]
      split
      · exact ih
      · rw [itemsProps_comp, ih]

omit [Uni] in
theorem itemsComps_withoutItems : (l : List Item) → toOthers (itemsComps (withoutItems k l)) = withoutComps k (toOthers (itemsComps l))
  | [] => by simp [withoutItems, itemsComps, toOthers, withoutComps]
  | .prop key params val :: l => by
    rw [withoutItems, itemsComps, itemsComps]
    exact itemsComps_withoutItems l
  | .comp b e n items :: l => by
    have ih := itemsComps_withoutItems l
    have ih' := itemsComps_withoutItems items
    rw [withoutItems, itemsComps_comp, toOthers, toOther_readAs, withoutComps]
    split
    · exact ih
    · rw [itemsComps_comp, toOthers, toOther_readAs, ih, ih', itemsProps_withoutItems]
      rw [(innerOfProps_comps _ _ (toOthers (itemsComps items))).1, (innerOfProps_comps _ _ (toOthers (itemsComps items))).2]

/-- **C155.** Removing the lines of the components of a name from a file removes these components from the calendar that is
read, at any depth, and changes nothing else. -/
theorem unblocked_calendar (hk : IsName k) (hv : k ≠ c!"VCALENDAR") {br : Break} {b e : Str} {l : List Item}
    (h : (Item.comp b e c!"VCALENDAR" l).Ok br) (hu : (Item.comp b e c!"VCALENDAR" l).Unbroken) (hflat : FlatBlocks k l) {file : Str}
    (hp : Presents br (.comp b e c!"VCALENDAR" l) file) (hw : BlocksWhole k (cutLines file)) :
    ∃ c d, Calendar.fromStr file = some c ∧ Calendar.fromStr (withoutBlocks k file) = some d ∧ CalendarWithoutComps k c d := by
  obtain ⟨h', hp'⟩ := unblocked_document hk h hu (Ne.symm hv) hflat hp hw
  refine ⟨_, _, calendar_presented h hp, calendar_presented h' hp', ?_, ?_, ?_⟩
  · rw [itemsProps_withoutItems]
  · have key : ∀ l : List PComp, (l.map PComp.toCalComp).map CalComp.toOther = toOthers l := by
      intro l
      rw [toOthers_map, List.map_map]
      exact List.map_congr_left (fun x _ => toOther_toCalComp x)
    rw [key, key]
    exact itemsComps_withoutItems l
  · intro x hx
    obtain ⟨y, -, rfl⟩ := List.mem_map.1 hx
    rw [toOther_toCalComp, toOther_name]
    exact kindFor_toCalComp y

omit [Uni] in
theorem noBlock_skip {pre : List Item} (h : ∀ i ∈ pre, ∃ a b c, i = .prop a b c) {l : List Item} (hl : NoBlock k l) : NoBlock k (pre ++ l) := by
  induction pre with
  | nil => exact hl
  | cons i pre ih =>
    obtain ⟨a, b, c, rfl⟩ := h i (by simp)
    rw [List.cons_append, NoBlock]
    exact ih (fun j hj => h j (by simp [hj]))

omit [Uni] in
theorem flat_skip {pre : List Item} (h : ∀ i ∈ pre, ∃ a b c, i = .prop a b c) {l : List Item} (hl : FlatBlocks k l) : FlatBlocks k (pre ++ l) := by
  induction pre with
  | nil => exact hl
  | cons i pre ih =>
    obtain ⟨a, b, c, rfl⟩ := h i (by simp)
    rw [List.cons_append, FlatBlocks]
    exact ih (fun j hj => h j (by simp [hj]))

theorem propItems_only : (l : List Property) → (w : World) → ∀ i ∈ propItems l w, ∃ a b c, i = .prop a b c
  | [], _, i, hi => by cases hi
  | p :: l, w, i, hi => by
    rw [propItems] at hi
    rcases List.mem_cons.1 hi with rfl | hi
    · exact ⟨_, _, _, rfl⟩
    · exact propItems_only l _ i hi

theorem lines_only (props : BMap Property) (multi : BMap (List Property)) (w : World) :
    ∀ i ∈ missing props c!"DTSTAMP" (fmtUtc (w.now [])) ++ propItems props.values (w.sub 0) ++
      missing props c!"UID" (w.uuid []) ++ propItems multi.values.flatten (w.sub 1), ∃ a b c, i = .prop a b c := by
  have hm : ∀ (k v : Str), ∀ i ∈ missing props k v, ∃ a b c, i = .prop a b c := by
    intro k v i hi
    unfold missing at hi
    split at hi
    · cases hi
    · rw [List.mem_singleton] at hi
      exact ⟨_, _, _, hi⟩
  intro i hi
  simp only [List.mem_append] at hi
  rcases hi with ((hi | hi) | hi) | hi
  · exact hm _ _ i hi
  · exact propItems_only _ _ i hi
  · exact hm _ _ i hi
  · exact propItems_only _ _ i hi

theorem noneNamed_items : (l : List Other) → NoneNamed k l → (w : World) → NoBlock k (otherItems l w)
  | [], _, _ => by simp [otherItems, NoBlock]
  | .mk n props multi comps :: l, h, w => by
    rw [NoneNamed] at h
    rw [otherItems, Other.item, NoBlock]
    exact ⟨h.1, noBlock_skip (lines_only props multi _) (noneNamed_items comps h.2.1 _), noneNamed_items l h.2.2 _⟩

theorem unnested_items : (l : List Other) → Unnested k l → (w : World) → FlatBlocks k (otherItems l w)
  | [], _, _ => by simp [otherItems, FlatBlocks]
  | .mk n props multi comps :: l, h, w => by
    rw [Unnested] at h
    rw [otherItems, Other.item, FlatBlocks]
    refine ⟨?_, unnested_items l h.2 _⟩
    by_cases hn : n = k
    · rw [if_pos hn] at h ⊢
      exact ⟨rfl, rfl, noBlock_skip (lines_only props multi _) (noneNamed_items comps h.1 _)⟩
    · rw [if_neg hn] at h ⊢
      exact flat_skip (lines_only props multi _) (unnested_items comps h.1 _)

theorem compItems_others : (l : List CalComp) → (w : World) → compItems l w = otherItems (l.map CalComp.toOther) w
  | [], _ => by simp [compItems, otherItems]
  | x :: l, w => by rw [compItems, List.map_cons, otherItems, compItems_others l]

theorem keyword_apart {t : Str} (ht : t = c!"BEGIN" ∨ t = c!"END") (hk : IsName k) : Apart (t ++ c!":" ++ k ++ c!"\r") := by
  obtain ⟨-, -, -, h3⟩ := name_plain hk
  have h1 : ∀ c ∈ t, c ≠ '\n' ∧ c ≠ ' ' ∧ c ≠ '\t' := by rcases ht with rfl | rfl <;> decide
  have h2 : ':' ∉ t ∧ ';' ∉ t := by rcases ht with rfl | rfl <;> decide
  refine ⟨fun c hc => ?_, fun key hkey hn => ?_⟩
  · simp only [List.mem_append, List.mem_singleton] at hc
    rcases hc with ((hc | rfl) | hc) | rfl
    · exact h1 c hc
    · decide
    · exact h3 c hc
    · decide
  · rw [List.append_assoc, List.append_assoc, List.singleton_append, named_key (name_plain hkey.name).1 h2 (.inl rfl)] at hn
    subst hn
    rcases ht with rfl | rfl
    · exact hkey.notBeginAnyCase (by decide)
    · exact hkey.notEndAnyCase (by decide)

/-- **C155.** A written calendar is read, without the lines of the components of a name, as the calendar without these
components. -/
theorem unblocked_written (hk : IsName k) (hv : k ≠ c!"VCALENDAR") {c : Calendar} (hc : CalendarOk c) (hs : CalendarSafe c)
    (hst : ∀ x ∈ c.comps, HasStamps x.toOther) (hu : UnbrokenCal c) (hf : ∀ p ∈ calendarProps c, Findable p)
    (hn : Unnested k (c.comps.map CalComp.toOther)) {w : World} (hw : World.Ok w) {out : Str} (h : c.fmtWrite w = .ok out) :
    ∃ d, Calendar.fromStr (withoutBlocks k out) = some d ∧ CalendarWithoutComps k c d := by
  have hok := calendar_item_ok (calendarOk_writable hc) hw
  have hi := calendar_unbroken hc hu hw
  have hp := presents_written hc hw h
  unfold Calendar.item at hok hi hp
  have hflat : FlatBlocks k (propItems c.props (w.sub 0) ++ compItems c.comps (w.sub 1)) := by
    rw [compItems_others]
    exact flat_skip (propItems_only _ _) (unnested_items _ hn _)
  have hwhole : BlocksWhole k (cutLines out) :=
    ⟨written_uncut (keyword_apart (.inl rfl) hk) hc hu hf hw h, written_uncut (keyword_apart (.inr rfl) hk) hc hu hf hw h⟩
  obtain ⟨c', d, e1, e2, e3⟩ := unblocked_calendar hk hv hok hi hflat hp hwhole
  rw [calendar_roundtrip c hc hs hst w hw out h] at e1
  cases e1
  exact ⟨d, e2, e3⟩

end

/-- A calendar file in which a component of the name contains another one of the same name. -/
def nestedFile : Str := c!"BEGIN:VCALENDAR\r\nBEGIN:X\r\nBEGIN:X\r\nEND:X\r\nEND:X\r\nEND:VCALENDAR\r\n"

/-- **C155 (violated).** Where a component of the name contains another one of the same name, removing their lines does not
remove the components: the end of the outer one is left over, and the file cannot be read any more. -/
theorem unblocked_violated : letI := Uni.ascii
    BlocksWhole c!"X" (cutLines nestedFile) ∧ (Calendar.fromStr nestedFile).isSome = true ∧
    Calendar.fromStr (withoutBlocks c!"X" nestedFile) = none := by
  letI := Uni.ascii
  exact ⟨by decide +kernel, by decide +kernel, by decide +kernel⟩

end Ical
