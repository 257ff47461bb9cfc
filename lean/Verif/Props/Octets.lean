import Verif.Spec.Octets
import Verif.Props.Breaks
import Verif.Props.ContentLine
import Verif.Props.UnfoldTwice
import Verif.Props.Errors

/-!
C138: programs that work on octets see the same lines.
-/

namespace Ical

open Nom Spec

/-! ### Characters -/

theorem charNat_lt (c : Char) : c.toNat < 0x110000 := by
  have := c.valid
  unfold UInt32.isValidChar Nat.isValidChar at this
  show c.val.toNat < _
  omega

/-- Lean's own encoder gives the same octets -/
theorem charOctets_eq (c : Char) : charOctets c = (String.utf8EncodeChar c).map UInt8.toNat := by
  have hc := charNat_lt c
  unfold Char.toNat at hc
  unfold charOctets String.utf8EncodeChar Char.toNat
  generalize c.val.toNat = v at *
  have m : ∀ x, x < 256 → x % 2 ^ 8 = x := fun x hx => Nat.mod_eq_of_lt hx
  by_cases h1 : v < 0x80
  · simp only [if_pos h1, if_pos (show v ≤ 0x7f by omega), List.map_cons, List.map_nil, UInt8.toNat_ofNat']
    rw [m _ (by omega)]
  · by_cases h2 : v < 0x800
    · simp only [if_neg h1, if_pos h2, if_neg (show ¬ v ≤ 0x7f by omega), if_pos (show v ≤ 0x7ff by omega), List.map_cons,
        List.map_nil, UInt8.toNat_ofNat']
      rw [m _ (by omega), m _ (by omega)]
      simp only [List.cons.injEq, and_true]
      omega
    · by_cases h3 : v < 0x10000
      · simp only [if_neg h1, if_neg h2, if_pos h3, if_neg (show ¬ v ≤ 0x7f by omega), if_neg (show ¬ v ≤ 0x7ff by omega),
          if_pos (show v ≤ 0xffff by omega), List.map_cons, List.map_nil, UInt8.toNat_ofNat']
        rw [m _ (by omega), m _ (by omega), m _ (by omega)]
        simp only [List.cons.injEq, and_true]
        omega
      · simp only [if_neg h1, if_neg h2, if_neg h3, if_neg (show ¬ v ≤ 0x7f by omega), if_neg (show ¬ v ≤ 0x7ff by omega),
          if_neg (show ¬ v ≤ 0xffff by omega), List.map_cons, List.map_nil, UInt8.toNat_ofNat']
        rw [m _ (by omega), m _ (by omega), m _ (by omega), m _ (by omega)]
        simp only [List.cons.injEq, and_true]
        omega

/-- the number of octets after the first one -/
def more (x : Nat) : Nat := if x < 0xC0 then 0 else if x < 0xE0 then 1 else if x < 0xF0 then 2 else 3

theorem charOctets_shape (c : Char) : ∃ x t, charOctets c = x :: t ∧ x < 256 ∧ t.length = more x ∧ (∀ y ∈ t, 128 ≤ y ∧ y < 192) ∧
    (x < 128 ↔ c.toNat < 128) ∧ (t ≠ [] ↔ 128 ≤ x) := by
  have := charNat_lt c
  unfold charOctets
  simp only
  split
  · exact ⟨_, _, rfl, by omega, by rw [more, if_pos (by omega)]; rfl, by simp, by omega, by simp; omega⟩
  · split
    · refine ⟨_, _, rfl, by omega, by rw [more, if_neg (by omega), if_pos (by omega)]; rfl, ?_, by omega, by simp; omega⟩
      simp only [List.mem_cons, List.not_mem_nil, or_false, forall_eq]
      omega
    · split
      · refine ⟨_, _, rfl, by omega, by rw [more, if_neg (by omega), if_neg (by omega), if_pos (by omega)]; rfl, ?_, by omega,
          by simp; omega⟩
        simp only [List.mem_cons, List.not_mem_nil, or_false, forall_eq_or_imp, forall_eq]
        omega
      · refine ⟨_, _, rfl, by omega, by rw [more, if_neg (by omega), if_neg (by omega), if_neg (by omega)]; rfl, ?_, by omega,
          by simp; omega⟩
        simp only [List.mem_cons, List.not_mem_nil, or_false, forall_eq_or_imp, forall_eq]
        omega

theorem charNat_inj {c d : Char} (h : c.toNat = d.toNat) : c = d :=
  Char.ext (UInt32.toNat_inj.1 h)

theorem charOctets_inj {c d : Char} (h : charOctets c = charOctets d) : c = d := by
  apply charNat_inj
  have := charNat_lt c
  have := charNat_lt d
  unfold charOctets at h
  simp only at h
  split at h <;> split at h <;> (try split at h) <;> (try split at h) <;> (try split at h) <;> (try split at h) <;>
    simp only [List.cons.injEq, reduceCtorEq, and_false, and_true] at h <;> omega

theorem charOctets_prefix {c d : Char} {r r' : List Nat} (h : charOctets c ++ r = charOctets d ++ r') : c = d ∧ r = r' := by
  obtain ⟨x, t, h1, -, h2, -⟩ := charOctets_shape c
  obtain ⟨y, t', h3, -, h4, -⟩ := charOctets_shape d
  have he := h
  rw [h1, h3, List.cons_append, List.cons_append, List.cons.injEq] at h
  have hl : (charOctets c).length = (charOctets d).length := by rw [h1, h3, List.length_cons, List.length_cons, h2, h4, h.1]
  obtain ⟨e1, e2⟩ := List.append_inj he hl
  exact ⟨charOctets_inj e1, e2⟩

theorem charOctets_ascii {c : Char} (h : c.toNat < 128) : charOctets c = [c.toNat] := by
  unfold charOctets
  exact if_pos h

/-! ### Texts -/

theorem octets_cons (c : Char) (s : Str) : octets (c :: s) = charOctets c ++ octets s := rfl

theorem octets_append (s t : Str) : octets (s ++ t) = octets s ++ octets t := List.flatMap_append

theorem octets_prefix {a s : Str} {r : List Nat} (h : octets s = octets a ++ r) : ∃ t, s = a ++ t ∧ octets t = r := by
  induction a generalizing s with
  | nil => exact ⟨s, rfl, h⟩
  | cons c a ih =>
    cases s with
    | nil =>
      obtain ⟨x, t, h1, -⟩ := charOctets_shape c
      rw [octets_cons, h1] at h
      cases h
    | cons d s =>
      rw [octets_cons, octets_cons, List.append_assoc] at h
      obtain ⟨rfl, h'⟩ := charOctets_prefix h
      obtain ⟨t, rfl, h2⟩ := ih h'
      exact ⟨t, rfl, h2⟩

/-- the first octet of a text is an ASCII octet exactly if the first character is that ASCII character -/
theorem octets_ascii_cons {s : Str} {d : Char} (hd : d.toNat < 128) {r : List Nat} :
    octets s = d.toNat :: r ↔ ∃ t, s = d :: t ∧ octets t = r := by
  constructor
  · intro h
    have h' : octets s = octets [d] ++ r := by rw [octets_cons, charOctets_ascii hd]; simpa [octets] using h
    obtain ⟨t, rfl, h2⟩ := octets_prefix h'
    exact ⟨t, rfl, h2⟩
  · rintro ⟨t, rfl, rfl⟩
    rw [octets_cons, charOctets_ascii hd]
    rfl

/-! ### Cutting and unfolding octets -/

theorem unfold_octet {x : Nat} {r : List Nat} (h1 : x = 13 → ∀ t, r ≠ 10 :: 32 :: t ∧ r ≠ 10 :: 9 :: t)
    (h2 : x = 10 → ∀ t, r ≠ 32 :: t ∧ r ≠ 9 :: t) : octetUnfold (x :: r) = x :: octetUnfold r := by
  rw [octetUnfold]
  · rintro t rfl rfl; exact (h1 rfl t).1 rfl
  · rintro t rfl rfl; exact (h1 rfl t).2 rfl
  · rintro t rfl rfl; exact (h2 rfl t).1 rfl
  · rintro t rfl rfl; exact (h2 rfl t).2 rfl

theorem unfold_high {t r : List Nat} (h : ∀ y ∈ t, 128 ≤ y) : octetUnfold (t ++ r) = t ++ octetUnfold r := by
  induction t with
  | nil => rfl
  | cons y t ih =>
    have hy := h y (by simp)
    rw [List.cons_append, unfold_octet (by omega) (by omega), ih (fun z hz => h z (by simp [hz]))]
    rfl

theorem high_octets {c : Char} (h : ¬ c.toNat < 128) : ∀ y ∈ charOctets c, 128 ≤ y := by
  obtain ⟨x, t, h1, -, -, h3, h4, -⟩ := charOctets_shape c
  rw [h1]
  simp only [List.mem_cons, forall_eq_or_imp]
  exact ⟨by omega, fun y hy => (h3 y hy).1⟩

theorem octets_two {s : Str} {d e : Char} (hd : d.toNat < 128) (he : e.toNat < 128) {r : List Nat} :
    octets s = d.toNat :: e.toNat :: r ↔ ∃ t, s = d :: e :: t ∧ octets t = r := by
  rw [octets_ascii_cons hd]
  constructor
  · rintro ⟨t, rfl, h⟩
    obtain ⟨t, rfl, h'⟩ := (octets_ascii_cons he).1 h
    exact ⟨t, rfl, h'⟩
  · rintro ⟨t, rfl, h⟩
    exact ⟨_, rfl, (octets_ascii_cons he).2 ⟨t, rfl, h⟩⟩

theorem octetUnfold_octets (s : Str) : octetUnfold (octets s) = octets (unfoldSpec s) := by
  suffices H : ∀ n, ∀ s : Str, s.length ≤ n → octetUnfold (octets s) = octets (unfoldSpec s) from H _ s (Nat.le_refl _)
  intro n
  induction n with
  | zero =>
    intro s hs
    obtain rfl : s = [] := List.length_eq_zero_iff.1 (by omega)
    rfl
  | succ n ih =>
    intro s hs
    rcases marked_cases s with rfl | ⟨m, r, rfl⟩ | ⟨c, r, rfl, hm⟩
    · rfl
    · have hr : r.length ≤ n := by
        have : 0 < m.text.length := by cases m <;> simp [Marker.text]
        rw [List.length_append] at hs
        omega
      rw [(markers_marker m r).2.1, ← ih r hr]
      cases m <;> simp [Marker.text, octets_cons, charOctets, octetUnfold]
    · rw [(markers_cons hm).2, octets_cons, octets_cons, ← ih r (by simp at hs; omega)]
      by_cases hc : c.toNat < 128
      · rw [charOctets_ascii hc]
        refine unfold_octet (fun e t => ?_) (fun e t => ?_)
        · obtain rfl : c = '\r' := charNat_inj e
          constructor <;> intro h
          · obtain ⟨t, rfl, -⟩ := (octets_two (d := '\n') (e := ' ') (by decide) (by decide)).1 h
            exact hm .crlfSp ⟨t, rfl⟩
          · obtain ⟨t, rfl, -⟩ := (octets_two (d := '\n') (e := '\t') (by decide) (by decide)).1 h
            exact hm .crlfTab ⟨t, rfl⟩
        · obtain rfl : c = '\n' := charNat_inj e
          constructor <;> intro h
          · obtain ⟨t, rfl, -⟩ := (octets_ascii_cons (d := ' ') (by decide)).1 h
            exact hm .lfSp ⟨t, rfl⟩
          · obtain ⟨t, rfl, -⟩ := (octets_ascii_cons (d := '\t') (by decide)).1 h
            exact hm .lfTab ⟨t, rfl⟩
      · exact unfold_high (high_octets hc)

theorem octetLines_ne (s : List Nat) : octetLines s ≠ [] := by
  fun_induction octetLines s <;> simp

theorem octetLines_cons {x : Nat} {r : List Nat} (h : x = 13 → ∀ t, r ≠ 10 :: t) {l : List Nat} {ls : List (List Nat)}
    (hr : octetLines r = l :: ls) : octetLines (x :: r) = (x :: l) :: ls := by
  rw [octetLines, hr]
  rintro t rfl rfl
  exact h rfl t rfl

theorem octetLines_high {t r : List Nat} (h : ∀ y ∈ t, 128 ≤ y) {l : List Nat} {ls : List (List Nat)}
    (hr : octetLines r = l :: ls) : octetLines (t ++ r) = (t ++ l) :: ls := by
  induction t with
  | nil => exact hr
  | cons y t ih =>
    have hy := h y (by simp)
    exact octetLines_cons (by omega) (ih (fun z hz => h z (by simp [hz])))

theorem octetLines_octets (s : Str) : octetLines (octets s) = (physicalLines s).map octets := by
  fun_induction physicalLines s with
  | case1 => rfl
  | case2 s ih => rw [List.map_cons, ← ih]; simp [octets_cons, charOctets, octetLines]; rfl
  | case3 c s hx hp ih =>
    rw [hp] at ih
    exact absurd ih (octetLines_ne _)
  | case4 c s hx l ls hp ih =>
    rw [hp] at ih
    rw [List.map_cons, octets_cons, octets_cons]
    by_cases hc : c.toNat < 128
    · rw [charOctets_ascii hc]
      refine octetLines_cons (fun e t h => ?_) ih
      obtain rfl : c = '\r' := charNat_inj e
      obtain ⟨t, rfl, -⟩ := (octets_ascii_cons (d := '\n') (by decide)).1 h
      exact hx t rfl rfl
    · exact octetLines_high (high_octets hc) ih

/-! ### Folded octets -/

theorem folded_head {br : Break} {o f r : List Nat} {x : Nat} (hx : (breakOctets br).head? ≠ some x)
    (h : OctetFolded br o f) (hf : f = x :: r) : ∃ o', o = x :: o' ∧ OctetFolded br o' r := by
  cases h with
  | nil => cases hf
  | keep h => cases hf; exact ⟨_, rfl, h⟩
  | fold _ h =>
    cases br
    · cases hf; exact absurd rfl hx
    · cases hf; exact absurd rfl hx

theorem octetFolded_unfold {br : Break} {o f : List Nat} (h : OctetFolded br o f) (hm : octetUnfold o = o)
    (hq : br = .lf → 13 ∉ o) : octetUnfold f = o := by
  have hlen : ∀ l : List Nat, (octetUnfold l).length ≤ l.length := by
    intro l
    fun_induction octetUnfold l <;> simp_all <;> omega
  induction h with
  | nil => rfl
  | @keep x o f h ih =>
    have h1 : x = 13 → ∀ t, o ≠ 10 :: 32 :: t ∧ o ≠ 10 :: 9 :: t := by
      rintro rfl t
      constructor <;> rintro rfl <;>
      · have := congrArg List.length hm
        rw [octetUnfold] at this
        have := hlen t
        simp at *
        omega
    have h2 : x = 10 → ∀ t, o ≠ 32 :: t ∧ o ≠ 9 :: t := by
      rintro rfl t
      constructor <;> rintro rfl <;>
      · have := congrArg List.length hm
        rw [octetUnfold] at this
        have := hlen t
        simp at *
        omega
    have hm' : octetUnfold o = o := by
      rw [unfold_octet h1 h2] at hm
      exact (List.cons.inj hm).2
    rw [unfold_octet, ih hm' (fun e => fun hc => hq e (by simp [hc]))]
    · rintro rfl t
      have hbr : br = .crlf := by
        cases br
        · rfl
        · exact absurd (hq rfl) (by simp)
      subst hbr
      constructor <;> intro hf
      · obtain ⟨o1, rfl, h3⟩ := folded_head (by simp [breakOctets]) h hf
        obtain ⟨o2, rfl, -⟩ := folded_head (by simp [breakOctets]) h3 rfl
        exact (h1 rfl o2).1 rfl
      · obtain ⟨o1, rfl, h3⟩ := folded_head (by simp [breakOctets]) h hf
        obtain ⟨o2, rfl, -⟩ := folded_head (by simp [breakOctets]) h3 rfl
        exact (h1 rfl o2).2 rfl
    · rintro rfl t
      constructor <;> intro hf
      · obtain ⟨o1, rfl, h3⟩ := folded_head (by cases br <;> simp [breakOctets]) h hf
        exact (h2 rfl o1).1 rfl
      · obtain ⟨o1, rfl, h3⟩ := folded_head (by cases br <;> simp [breakOctets]) h hf
        exact (h2 rfl o1).2 rfl
  | @fold x o f hx h ih =>
    have := ih hm hq
    cases br <;> rcases hx with rfl | rfl <;> simp [breakOctets, octetUnfold, this]

/-! ### C138 -/

/-- **C138.** A text is determined by its octets, which are as many as the sizes of this model say. -/
theorem octets_text (s : Str) : (octets s).length = blen s ∧ (∀ x ∈ octets s, x < 256) ∧ ∀ t, octets t = octets s → t = s := by
  refine ⟨?_, ?_, ?_⟩
  · have : octets s = (s.flatMap String.utf8EncodeChar).map UInt8.toNat := by
      rw [List.map_flatMap]
      exact congrArg (fun f => s.flatMap f) (funext charOctets_eq)
    rw [this, List.length_map, blen_utf8]
  · intro x hx
    obtain ⟨c, -, hx⟩ := List.mem_flatMap.1 hx
    rw [charOctets_eq] at hx
    obtain ⟨y, -, rfl⟩ := List.mem_map.1 hx
    exact y.toNat_lt
  · intro t h
    obtain ⟨u, rfl, h2⟩ := octets_prefix (s := t) (a := s) (r := []) (by rw [List.append_nil]; exact h)
    cases u with
    | nil => exact List.append_nil _
    | cons c u =>
      obtain ⟨x, r, h1, -⟩ := charOctets_shape c
      rw [octets_cons, h1] at h2
      cases h2

/-- **C138.** A program that works on octets cuts a text into the same physical lines, each of which is a text by itself,
and unfolds it to the same text as the reader. -/
theorem octet_programs (s : Str) :
    octetLines (octets s) = (physicalLines s).map octets ∧ octetUnfold (octets s) = octets (unfold s) := by
  rw [unfold_eq_spec]
  exact ⟨octetLines_octets s, octetUnfold_octets s⟩

/-- **C138.** Octets folded inside of a character are not the octets of any text, so they never reach the reader as another
text. -/
theorem split_character {c : Char} {u v : List Nat} (h : charOctets c = u ++ v) (hu : u ≠ []) (hv : v ≠ []) (br : Break)
    (a : Str) (r : List Nat) (s : Str) : octets s ≠ octets a ++ (u ++ (breakOctets br ++ r)) := by
  intro hs
  obtain ⟨t, rfl, ht⟩ := octets_prefix hs
  obtain ⟨x, m, h1, -, h2, h3, -⟩ := charOctets_shape c
  rw [h1] at h
  cases u with
  | nil => exact hu rfl
  | cons y u =>
    rw [List.cons_append, List.cons.injEq] at h
    obtain ⟨rfl, rfl⟩ := h
    cases t with
    | nil => cases ht
    | cons d t =>
      obtain ⟨z, m', h4, -, h5, h6, -⟩ := charOctets_shape d
      rw [octets_cons, h4, List.cons_append, List.cons_append, List.cons.injEq] at ht
      obtain ⟨rfl, ht⟩ := ht
      have hl : u.length < m'.length := by
        rw [h5, ← h2, List.length_append]
        have := List.length_pos_iff.2 hv
        omega
      obtain ⟨b, w, hb, hlow⟩ : ∃ b w, breakOctets br ++ r = b :: w ∧ b < 128 := by
        cases br
        · exact ⟨13, _, rfl, by omega⟩
        · exact ⟨10, _, rfl, by omega⟩
      rw [hb] at ht
      have hget := congrArg (fun l => l[u.length]?) ht
      simp only [List.getElem?_append_left hl] at hget
      rw [List.getElem?_append_right (Nat.le_refl _)] at hget
      simp only [Nat.sub_self, List.getElem?_cons_zero] at hget
      have := h6 b (List.mem_of_getElem? hget)
      omega

/-- **C138.** Octets that were folded anywhere, also inside of characters, are those of the text again once a program has
unfolded them before it makes a text of them. -/
theorem octet_folded {br : Break} {t : Str} (hm : MarkerFree t) (hq : br = .lf → '\r' ∉ t) {file : List Nat}
    (h : OctetFolded br (octets t) file) : octetUnfold file = octets t ∧ ∀ s, octets s = octetUnfold file → s = t := by
  have h1 : octetUnfold file = octets t := by
    refine octetFolded_unfold h ?_ ?_
    · rw [octetUnfold_octets, unfoldSpec_markerFree t hm]
    · intro e hc
      obtain ⟨c, hc, hx⟩ := List.mem_flatMap.1 hc
      by_cases ha : c.toNat < 128
      · rw [charOctets_ascii ha, List.mem_singleton] at hx
        obtain rfl : '\r' = c := charNat_inj hx
        exact hq e hc
      · have := high_octets ha _ hx
        omega
  exact ⟨h1, fun s hs => (octets_text t).2.2 s (hs.trans h1)⟩

variable [Uni]

/-- **C138.** The octets of a written property: unfolding them gives those of its content line and CRLF; every physical
line is a text by itself and has at most 75 octets, the last one at most 76. -/
theorem written_octet_lines (p : Property) (hp : PropOk p) (hl : ∀ x ∈ p.params, '\n' ∉ x.2) (hv : IsText p ∨ '\n' ∉ p.val)
    (w : World) (hw : World.Ok w) (out : Str) (h : p.fmtWrite w = .ok out) :
    (∃ line, ContentLine p line ∧ octetUnfold (octets out) = octets line ++ [13, 10]) ∧
    ∃ (ls : List Str) (l : Str), octetLines (octets out) = ls.map octets ++ [octets l, []] ∧ (∀ x ∈ ls, (octets x).length ≤ 75) ∧
      (octets l).length ≤ 76 := by
  constructor
  · refine ⟨_, line_contentLine p hw, ?_⟩
    have h1 := unfold_property hw hp.key.name hp.params hp.value h (t := []) noIndent_nil
    rw [List.append_nil] at h1
    rw [octetUnfold_octets, h1, ← line_item p w]
    show octets (p.line w ++ crlf ++ []) = _
    rw [List.append_nil, octets_append]
    rfl
  · obtain ⟨ls, l, h1, h2, h3, -⟩ := written_octets_partial p (nameChar_unbroken hp.key.name).2
      (fun x hx => ⟨(nameChar_unbroken (hp.params.name x hx)).2, hl x hx⟩) hv w hw out h
    refine ⟨ls, l, ?_, fun x hx => ?_, ?_⟩
    · rw [octetLines_octets, h1]
      simp [octets]
    · rw [(octets_text x).1]; exact h2 x hx
    · rw [(octets_text l).1]; exact h3

/-- **C138.** If another program unfolds the octets of a written calendar and folds them again anywhere, even inside of
characters, then unfolding the octets gives the octets of a text, and it is read as the calendar. -/
theorem refolded_octets {c : Calendar} (hc : CalendarOk c) (hs : CalendarSafe c)
    (hst : ∀ x ∈ c.comps, HasStamps x.toOther) {w : World} (hw : World.Ok w) {out : Str} (h : c.fmtWrite w = .ok out)
    {file : List Nat} (hf : OctetFolded .crlf (octetUnfold (octets out)) file) :
    ∃ s, octets s = octetUnfold file ∧ Calendar.fromStr s = some c := by
  obtain ⟨h1, h2⟩ := unfold_written_partial c (calendarOk_writable hc) w hw out h
  refine ⟨unfold out, ?_, h2.trans (calendar_roundtrip c hc hs hst w hw out h)⟩
  rw [octetFolded_unfold hf ?_ nofun, (octet_programs out).2]
  rw [(octet_programs out).2, (octet_programs _).2, h1]

end Ical
