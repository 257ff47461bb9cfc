import Verif.Spec.Breaks
import Verif.Props.Passing
import Verif.Props.Unique
import Verif.Props.OwnLine

/-!
C137: the line breaks of calendar files can be converted.
-/

namespace Ical

open Nom Spec

/-! ### Converting -/

theorem toLf_keep {c : Char} {s : Str} (h : c ≠ '\r' ∨ s.head? ≠ some '\n') : toLf (c :: s) = c :: toLf s := by
  rw [toLf]
  rintro s' rfl rfl
  simp at h

theorem toCrlf_keep {c : Char} {s : Str} (h : c ≠ '\r') (h' : c ≠ '\n') : toCrlf (c :: s) = c :: toCrlf s := by
  rw [toCrlf, if_neg h']
  rintro s' rfl rfl
  exact h rfl

theorem toCrlf_lf (s : Str) : toCrlf ('\n' :: s) = '\r' :: '\n' :: toCrlf s := by
  rw [toCrlf, if_pos rfl]
  rintro s' h
  simp at h

/-- converting a text in front of any other text gives another one without CR -/
def ConvLf (s t : Str) : Prop := (∀ r, toLf (s ++ r) = t ++ toLf r) ∧ '\r' ∉ t

/-- converting a text in front of any other text gives another one -/
def ConvCrlf (s t : Str) : Prop := ∀ r, toCrlf (s ++ r) = t ++ toCrlf r

theorem ConvLf.append {a a' b b' : Str} (h : ConvLf a a') (h' : ConvLf b b') : ConvLf (a ++ b) (a' ++ b') :=
  ⟨fun r => by rw [List.append_assoc, h.1, h'.1, List.append_assoc], by
    rw [List.mem_append]; exact fun x => x.elim h.2 h'.2⟩

theorem ConvCrlf.append {a a' b b' : Str} (h : ConvCrlf a a') (h' : ConvCrlf b b') : ConvCrlf (a ++ b) (a' ++ b') :=
  fun r => by rw [List.append_assoc, h, h', List.append_assoc]

theorem convLf_nil : ConvLf [] [] := ⟨fun _ => rfl, by simp⟩

theorem convCrlf_nil : ConvCrlf [] [] := fun _ => rfl

theorem convLf_plain {s : Str} (h : '\r' ∉ s) : ConvLf s s := by
  refine ⟨fun r => ?_, h⟩
  induction s with
  | nil => rfl
  | cons c s ih =>
    simp only [List.mem_cons, not_or] at h
    rw [List.cons_append, toLf_keep (.inl (fun e => h.1 e.symm)), ih h.2]
    rfl

theorem convCrlf_plain {s : Str} (h : '\r' ∉ s) (h' : '\n' ∉ s) : ConvCrlf s s := by
  intro r
  induction s with
  | nil => rfl
  | cons c s ih =>
    simp only [List.mem_cons, not_or] at h h'
    rw [List.cons_append, toCrlf_keep (fun e => h.1 e.symm) (fun e => h'.1 e.symm), ih h.2 h'.2]
    rfl

theorem convLf_break (br : Break) : ConvLf br.text ['\n'] := by
  refine ⟨fun r => ?_, by simp⟩
  cases br
  · rfl
  · exact toLf_keep (.inl (by decide))

theorem convCrlf_break (br : Break) : ConvCrlf br.text ['\r', '\n'] := by
  intro r
  cases br
  · rfl
  · exact toCrlf_lf r

theorem convLf_blank {s : Str} (h : Blank s) : ∃ t, ConvLf s t ∧ Blank t := by
  obtain ⟨bs, rfl⟩ := h
  induction bs with
  | nil => exact ⟨[], convLf_nil, [], rfl⟩
  | cons b bs ih =>
    obtain ⟨t, h1, bs', rfl⟩ := ih
    exact ⟨_, (convLf_break b).append h1, .lf :: bs', rfl⟩

theorem convCrlf_blank {s : Str} (h : Blank s) : ∃ t, ConvCrlf s t ∧ Blank t := by
  obtain ⟨bs, rfl⟩ := h
  induction bs with
  | nil => exact ⟨[], convCrlf_nil, [], rfl⟩
  | cons b bs ih =>
    obtain ⟨t, h1, bs', rfl⟩ := ih
    exact ⟨_, (convCrlf_break b).append h1, .crlf :: bs', rfl⟩

/-! ### Unfolding before and after -/

theorem toLf_head {s : Str} {x : Char} (hx : x = ' ' ∨ x = '\t') (h : (toLf s).head? = some x) : s.head? = some x := by
  cases s with
  | nil => simp [toLf] at h
  | cons c s =>
    by_cases hc : c ≠ '\r' ∨ s.head? ≠ some '\n'
    · rw [toLf_keep hc] at h; exact h
    · simp only [ne_eq, not_or, Decidable.not_not] at hc
      obtain ⟨rfl, hs⟩ := hc
      cases s with
      | nil => cases hs
      | cons d s =>
        simp only [List.head?_cons, Option.some.injEq] at hs
        subst hs
        simp only [toLf, List.head?_cons, Option.some.injEq] at h
        subst h
        simp at hx

theorem toCrlf_head {s : Str} {x : Char} (hx : x = ' ' ∨ x = '\t') (h : (toCrlf s).head? = some x) : s.head? = some x := by
  cases s with
  | nil => simp [toCrlf] at h
  | cons c s =>
    by_cases hc : c = '\n'
    · subst hc
      rw [toCrlf_lf] at h
      simp only [List.head?_cons, Option.some.injEq] at h
      subst h
      simp at hx
    · by_cases hr : c = '\r' ∧ s.head? = some '\n'
      · obtain ⟨rfl, hs⟩ := hr
        cases s with
        | nil => cases hs
        | cons d s =>
          simp only [List.head?_cons, Option.some.injEq] at hs
          subst hs
          simp only [toCrlf, List.head?_cons, Option.some.injEq] at h
          subst h
          simp at hx
      · rw [toCrlf, if_neg hc] at h
        · exact h
        · rintro s' rfl rfl
          exact hr ⟨rfl, rfl⟩

theorem no_marker {c : Char} {s : Str} (hc : c ≠ '\r') (h : c = '\n' → s.head? ≠ some ' ' ∧ s.head? ≠ some '\t') (m : Marker) :
    ¬ m.text <+: c :: s := by
  rintro ⟨t, ht⟩
  cases m <;> simp only [Marker.text, List.cons_append, List.nil_append, List.cons.injEq] at ht
  · exact hc ht.1.symm
  · exact hc ht.1.symm
  · obtain ⟨rfl, rfl⟩ := ht; exact (h rfl).1 rfl
  · obtain ⟨rfl, rfl⟩ := ht; exact (h rfl).2 rfl

theorem unindented {s : Str} (h : ∀ m : Marker, ¬ m.text <+: '\n' :: s) : s.head? ≠ some ' ' ∧ s.head? ≠ some '\t' := by
  cases s with
  | nil => simp
  | cons d s =>
    simp only [List.head?_cons, ne_eq, Option.some.injEq]
    refine ⟨?_, ?_⟩ <;> rintro rfl
    · exact h .lfSp ⟨s, rfl⟩
    · exact h .lfTab ⟨s, rfl⟩

theorem unfold_toLf (s : Str) (h : '\r' ∉ toLf (unfoldSpec s)) : unfoldSpec (toLf s) = toLf (unfoldSpec s) := by
  suffices H : ∀ n, ∀ s : Str, s.length ≤ n → '\r' ∉ toLf (unfoldSpec s) → unfoldSpec (toLf s) = toLf (unfoldSpec s) from
    H _ s (Nat.le_refl _) h
  intro n
  induction n with
  | zero =>
    intro s hs _
    obtain rfl : s = [] := List.length_eq_zero_iff.1 (by omega)
    rfl
  | succ n ih =>
    intro s hs h
    have hmark : ∀ (m : Marker) (r : Str), ∃ m' : Marker, toLf (m.text ++ r) = m'.text ++ toLf r ∧ m'.isLf = true := by
      intro m r
      cases m
      · exact ⟨.lfSp, by simp [Marker.text, toLf], rfl⟩
      · exact ⟨.lfTab, by simp [Marker.text, toLf], rfl⟩
      · exact ⟨.lfSp, by simp [Marker.text, toLf], rfl⟩
      · exact ⟨.lfTab, by simp [Marker.text, toLf], rfl⟩
    rcases marked_cases s with rfl | ⟨m, r, rfl⟩ | ⟨c, r, rfl, hm⟩
    · rfl
    · have hr : r.length ≤ n := by
        have : 0 < m.text.length := by cases m <;> simp [Marker.text]
        rw [List.length_append] at hs
        omega
      obtain ⟨m', h1, -⟩ := hmark m r
      rw [(markers_marker m r).2.1] at h ⊢
      rw [h1, (markers_marker m' _).2.1, ih r hr h]
    · simp only [List.length_cons] at hs
      rw [(markers_cons hm).2] at h ⊢
      by_cases hc : c = '\r'
      · subst hc
        cases r with
        | nil => simp [unfoldSpec, toLf] at h
        | cons d r =>
          by_cases hd : d = '\n'
          · subst hd
            have hu : r.head? ≠ some ' ' ∧ r.head? ≠ some '\t' := by
              cases r with
              | nil => simp
              | cons d r =>
                simp only [List.head?_cons, ne_eq, Option.some.injEq]
                refine ⟨?_, ?_⟩ <;> rintro rfl
                · exact hm .crlfSp ⟨r, rfl⟩
                · exact hm .crlfTab ⟨r, rfl⟩
            have h1 := (markers_cons (no_marker (c := '\n') (s := r) (by decide) (fun _ => hu))).2
            have h2 := (markers_cons (no_marker (c := '\n') (s := toLf r) (by decide) (fun _ =>
              ⟨fun x => hu.1 (toLf_head (.inl rfl) x), fun x => hu.2 (toLf_head (.inr rfl) x)⟩))).2
            rw [h1] at h ⊢
            rw [toLf] at h ⊢
            rw [h2, toLf, ih r (by simp at hs; omega) (fun x => h (by simp [x]))]
          · rw [toLf_keep (.inr (by simpa using hd))]
            rcases marked_cases (d :: r) with hr | ⟨m, r2, hr⟩ | ⟨c', r', hr, hm'⟩
            · cases hr
            · have hm' : m.isLf = false := by
                cases m with
                | crlfSp => rfl
                | crlfTab => rfl
                | lfSp => simp only [Marker.text, List.cons_append, List.cons.injEq] at hr; exact absurd hr.1 hd
                | lfTab => simp only [Marker.text, List.cons_append, List.cons.injEq] at hr; exact absurd hr.1 hd
              have hr2 : r2.length ≤ n := by
                have := congrArg List.length hr
                simp only [List.length_cons, List.length_append] at this hs
                omega
              obtain ⟨m', h1, h2⟩ := hmark m r2
              rw [hr] at h ⊢
              rw [(markers_marker m r2).2.1] at h ⊢
              obtain ⟨u, hu⟩ : ∃ u, unfoldSpec r2 = '\n' :: u := by
                cases hx : unfoldSpec r2 with
                | nil => rw [hx] at h; simp [toLf] at h
                | cons x u =>
                  by_cases hxn : x = '\n'
                  · exact ⟨u, by rw [hxn]⟩
                  · rw [hx, toLf_keep (.inr (by simpa using hxn))] at h
                    simp at h
              have h3 := ih r2 hr2 (by
                rw [hu] at h ⊢
                rw [toLf] at h
                rw [toLf_keep (.inl (by decide))]
                exact h)
              rw [h1]
              have h4 : unfoldSpec ('\r' :: (m'.text ++ toLf r2)) = unfoldSpec (toLf r2) := by
                cases m' with
                | lfSp => simp [Marker.text, unfoldSpec]
                | lfTab => simp [Marker.text, unfoldSpec]
                | crlfSp => cases h2
                | crlfTab => cases h2
              rw [h4, h3, hu, toLf_keep (.inl (by decide)), toLf]
            · simp only [List.cons.injEq] at hr
              obtain ⟨rfl, rfl⟩ := hr
              rw [(markers_cons hm').2, toLf_keep (.inr (by simpa using hd))] at h
              simp at h
      · rw [toLf_keep (.inl hc)] at h ⊢
        rw [toLf_keep (.inl hc)]
        have hu : c = '\n' → (toLf r).head? ≠ some ' ' ∧ (toLf r).head? ≠ some '\t' := by
          rintro rfl
          have := unindented hm
          exact ⟨fun x => this.1 (toLf_head (.inl rfl) x), fun x => this.2 (toLf_head (.inr rfl) x)⟩
        rw [(markers_cons (no_marker hc hu)).2, ih r (by omega) (fun x => h (by simp [x]))]

theorem unfold_toCrlf (s : Str) (h : '\r' ∉ unfoldSpec s) : unfoldSpec (toCrlf s) = toCrlf (unfoldSpec s) := by
  suffices H : ∀ n, ∀ s : Str, s.length ≤ n → '\r' ∉ unfoldSpec s → unfoldSpec (toCrlf s) = toCrlf (unfoldSpec s) from
    H _ s (Nat.le_refl _) h
  intro n
  induction n with
  | zero =>
    intro s hs _
    obtain rfl : s = [] := List.length_eq_zero_iff.1 (by omega)
    rfl
  | succ n ih =>
    intro s hs h
    rcases marked_cases s with rfl | ⟨m, r, rfl⟩ | ⟨c, r, rfl, hm⟩
    · rfl
    · have hr : r.length ≤ n := by
        have : 0 < m.text.length := by cases m <;> simp [Marker.text]
        rw [List.length_append] at hs
        omega
      rw [(markers_marker m r).2.1] at h ⊢
      rw [← ih r hr h]
      cases m <;> simp [Marker.text, toCrlf, unfoldSpec]
    · simp only [List.length_cons] at hs
      rw [(markers_cons hm).2] at h ⊢
      simp only [List.mem_cons, not_or] at h
      have hc : c ≠ '\r' := fun e => h.1 e.symm
      by_cases hn : c = '\n'
      · subst hn
        have hu := unindented hm
        rw [toCrlf_lf, toCrlf_lf, ← ih r (by omega) h.2]
        have h1 : ∀ m : Marker, ¬ m.text <+: '\r' :: '\n' :: toCrlf r := by
          rintro m ⟨t, ht⟩
          cases m <;> simp only [Marker.text, List.cons_append, List.nil_append, List.cons.injEq] at ht
          · exact hu.1 (toCrlf_head (.inl rfl) (by rw [← ht.2.2]; rfl))
          · exact hu.2 (toCrlf_head (.inr rfl) (by rw [← ht.2.2]; rfl))
          · cases ht.1
          · cases ht.1
        rw [(markers_cons h1).2, (markers_cons (no_marker (by decide) (fun _ =>
          ⟨fun x => hu.1 (toCrlf_head (.inl rfl) x), fun x => hu.2 (toCrlf_head (.inr rfl) x)⟩))).2]
      · rw [toCrlf_keep hc hn, toCrlf_keep hc hn, (markers_cons (no_marker hc (fun e => absurd e hn))).2, ih r (by omega) h.2]

/-! ### Documents -/

variable [Uni]

theorem nameChar_unbroken {s : Str} (h : IsName s) : '\r' ∉ s ∧ '\n' ∉ s := by
  refine ⟨fun hc => ?_, fun hc => ?_⟩ <;>
  · have := h _ hc
    unfold NameChar isAlnum at this
    revert this
    simp

omit [Uni] in
theorem keyword_unbroken {b t : Str} (h : b.map lowerAscii = t) (hr : '\r' ∉ t) (hn : '\n' ∉ t) : '\r' ∉ b ∧ '\n' ∉ b := by
  subst h
  refine ⟨fun hc => hr ?_, fun hc => hn ?_⟩
  · exact List.mem_map.2 ⟨_, hc, rfl⟩
  · exact List.mem_map.2 ⟨_, hc, rfl⟩

mutual
theorem spaced_toLf : (i : Item) → i.Ok .crlf → i.Unbroken → {s : Str} → Spaced .crlf i s →
    i.Ok .lf ∧ ∃ t, ConvLf s t ∧ Spaced .lf i t
  | .prop key params val, h, hu, s, hs => by
    simp only [Spaced] at hs ⊢
    obtain ⟨bl, hb, rfl⟩ := hs
    obtain ⟨bl', h1, h2⟩ := convLf_blank hb
    simp only [Item.Ok, ValOk, Item.Unbroken] at h hu ⊢
    refine ⟨⟨h.1, h.2.1, fun x => hu.2 (by simp [x])⟩, _, ?_, bl', h2, rfl⟩
    simp only [Item.text]
    exact ((convLf_plain hu.1).append (convLf_break .crlf)).append h1
  | .comp b e n items, h, hu, s, hs => by
    simp only [Spaced] at hs ⊢
    obtain ⟨bl, body, bl', hb, hb', hbody, rfl⟩ := hs
    simp only [Item.Ok, Item.Unbroken] at h hu ⊢
    obtain ⟨t1, h1, h2⟩ := convLf_blank hb
    obtain ⟨t2, h3, h4⟩ := convLf_blank hb'
    obtain ⟨h5, t3, h6, h7⟩ := spacedAll_toLf items h.2.2.2 hu hbody
    have hk := (keyword_unbroken h.1 (by decide) (by decide)).1
    have he := (keyword_unbroken h.2.1 (by decide) (by decide)).1
    have hn := (nameChar_unbroken h.2.2.1).1
    refine ⟨⟨h.1, h.2.1, h.2.2.1, h5⟩, _, ?_, t1, t3, t2, h2, h4, h7, rfl⟩
    exact (convLf_plain hk).append ((convLf_plain hn).append (((convLf_break .crlf).append h1).append
      (h6.append ((convLf_plain he).append ((convLf_plain hn).append ((convLf_break .crlf).append h3))))))
theorem spacedAll_toLf : (l : List Item) → ItemsOk .crlf l → ItemsUnbroken l → {s : Str} → SpacedAll .crlf l s →
    ItemsOk .lf l ∧ ∃ t, ConvLf s t ∧ SpacedAll .lf l t
  | [], _, _, s, hs => by
    simp only [SpacedAll] at hs
    subst hs
    exact ⟨trivial, [], convLf_nil, rfl⟩
  | i :: l, h, hu, s, hs => by
    simp only [SpacedAll] at hs ⊢
    obtain ⟨s1, s2, h1, h2, rfl⟩ := hs
    obtain ⟨h3, t1, h4, h5⟩ := spaced_toLf i h.1 hu.1 h1
    obtain ⟨h6, t2, h7, h8⟩ := spacedAll_toLf l h.2 hu.2 h2
    exact ⟨⟨h3, h6⟩, _, h4.append h7, t1, t2, h5, h8, rfl⟩
end

mutual
theorem spaced_toCrlf : (i : Item) → i.Ok .lf → i.Unbroken → {s : Str} → Spaced .lf i s →
    i.Ok .crlf ∧ ∃ t, ConvCrlf s t ∧ Spaced .crlf i t
  | .prop key params val, h, hu, s, hs => by
    simp only [Spaced] at hs ⊢
    obtain ⟨bl, hb, rfl⟩ := hs
    obtain ⟨bl', h1, h2⟩ := convCrlf_blank hb
    simp only [Item.Ok, ValOk, Item.Unbroken] at h hu ⊢
    refine ⟨⟨h.1, h.2.1, fun x => hu.1 (by simp [x.mem (a := '\r') (by simp)])⟩, _, ?_, bl', h2, rfl⟩
    simp only [Item.text]
    exact ((convCrlf_plain hu.1 hu.2).append (convCrlf_break .lf)).append h1
  | .comp b e n items, h, hu, s, hs => by
    simp only [Spaced] at hs ⊢
    obtain ⟨bl, body, bl', hb, hb', hbody, rfl⟩ := hs
    simp only [Item.Ok, Item.Unbroken] at h hu ⊢
    obtain ⟨t1, h1, h2⟩ := convCrlf_blank hb
    obtain ⟨t2, h3, h4⟩ := convCrlf_blank hb'
    obtain ⟨h5, t3, h6, h7⟩ := spacedAll_toCrlf items h.2.2.2 hu hbody
    have hk := keyword_unbroken h.1 (by decide) (by decide)
    have he := keyword_unbroken h.2.1 (by decide) (by decide)
    have hn := nameChar_unbroken h.2.2.1
    refine ⟨⟨h.1, h.2.1, h.2.2.1, h5⟩, _, ?_, t1, t3, t2, h2, h4, h7, rfl⟩
    exact (convCrlf_plain hk.1 hk.2).append ((convCrlf_plain hn.1 hn.2).append (((convCrlf_break .lf).append h1).append
      (h6.append ((convCrlf_plain he.1 he.2).append ((convCrlf_plain hn.1 hn.2).append ((convCrlf_break .lf).append h3))))))
theorem spacedAll_toCrlf : (l : List Item) → ItemsOk .lf l → ItemsUnbroken l → {s : Str} → SpacedAll .lf l s →
    ItemsOk .crlf l ∧ ∃ t, ConvCrlf s t ∧ SpacedAll .crlf l t
  | [], _, _, s, hs => by
    simp only [SpacedAll] at hs
    subst hs
    exact ⟨trivial, [], convCrlf_nil, rfl⟩
  | i :: l, h, hu, s, hs => by
    simp only [SpacedAll] at hs ⊢
    obtain ⟨s1, s2, h1, h2, rfl⟩ := hs
    obtain ⟨h3, t1, h4, h5⟩ := spaced_toCrlf i h.1 hu.1 h1
    obtain ⟨h6, t2, h7, h8⟩ := spacedAll_toCrlf l h.2 hu.2 h2
    exact ⟨⟨h3, h6⟩, _, h4.append h7, t1, t2, h5, h8, rfl⟩
end

/-! ### Written calendars -/

omit [Uni] in
theorem itemsUnbroken_append {a b : List Item} : ItemsUnbroken (a ++ b) ↔ ItemsUnbroken a ∧ ItemsUnbroken b := by
  induction a with
  | nil => simp [ItemsUnbroken]
  | cons i a ih => simp [ItemsUnbroken, ih, and_assoc]

theorem valueText_unbroken {p : Property} (h : UnbrokenProp p) : '\r' ∉ p.valueText ∧ '\n' ∉ p.valueText := by
  rw [rawText_valueText]
  unfold rawText
  split
  · refine ⟨fun hc => ?_, fun hc => ?_⟩
    · obtain ⟨x, hx, hc⟩ := List.mem_flatMap.1 hc
      have : x = '\r' := by
        unfold escaped at hc
        split at hc
        · simp at hc
        · split at hc <;> simp at hc <;> exact hc.symm
      exact h.value.1 (this ▸ hx)
    · obtain ⟨x, hx, hc⟩ := List.mem_flatMap.1 hc
      unfold escaped at hc
      split at hc
      · simp at hc
      · rename_i hne
        split at hc <;> simp at hc <;> exact hne hc.symm
  · rename_i ht
    exact ⟨h.value.1, fun hc => ht (h.value.2 hc)⟩

theorem propItem_unbroken {p : Property} (hp : PropOk p) (h : UnbrokenProp p) {w : World} (hw : World.Ok w) :
    (propItem p w).Unbroken := by
  have hk := nameChar_unbroken hp.key.name
  have hv := valueText_unbroken h
  have hps : ∀ x : Char, x = '\r' ∨ x = '\n' → x ∉ (((w.order [] p.params).map dparam).map DParam.text).flatten := by
    rintro x hx hc
    simp only [List.mem_flatten, List.mem_map] at hc
    obtain ⟨t, ⟨d, ⟨y, hy, rfl⟩, rfl⟩, hc⟩ := hc
    have hy := (hw.order [] p.params).mem_iff.1 hy
    have h1 := nameChar_unbroken (hp.params.name y hy)
    have h2 := h.params y hy
    rw [dparam_text] at hc
    unfold quoteIfContainsColon at hc
    rcases hx with rfl | rfl
    all_goals
      split at hc <;> simp [h1, h2] at hc
  simp only [propItem, Item.Unbroken, List.mem_append, not_or]
  exact ⟨⟨⟨⟨hk.1, hps _ (.inl rfl)⟩, by decide⟩, hv.1⟩, ⟨⟨⟨hk.2, hps _ (.inr rfl)⟩, by decide⟩, hv.2⟩⟩

theorem propItems_unbroken {l : List Property} (hl : ∀ p ∈ l, PropOk p) (h : ∀ p ∈ l, UnbrokenProp p) {w : World}
    (hw : World.Ok w) : ItemsUnbroken (propItems l w) := by
  induction l generalizing w with
  | nil => trivial
  | cons p l ih =>
    exact ⟨propItem_unbroken (hl p (by simp)) (h p (by simp)) (worldOk_sub hw 0),
      ih (fun q hq => hl q (by simp [hq])) (fun q hq => h q (by simp [hq])) (worldOk_sub hw 1)⟩

theorem missing_unbroken (props : BMap Property) {k v : Str} (hk : IsName k) (hr : '\r' ∉ v) (hn : '\n' ∉ v) :
    ItemsUnbroken (missing props k v) := by
  unfold missing
  split
  · trivial
  · have := nameChar_unbroken hk
    simp only [ItemsUnbroken, genItem, Item.Unbroken]
    simp [this, hr, hn]

mutual
theorem other_unbroken : (o : Other) → OtherOk o → UnbrokenOther o → {w : World} → World.Ok w → (o.item w).Unbroken
  | .mk n props multi comps, h, hu, w, hw => by
    obtain ⟨h1, h2, h3⟩ := hu
    have hi := innerOk_writable h.2.1
    simp only [Other.item, Item.Unbroken, itemsUnbroken_append]
    refine ⟨⟨⟨⟨missing_unbroken _ isName_dtstamp (fmtUtc_not_mem _ (by decide) (by decide))
      (fmtUtc_not_mem _ (by decide) (by decide)), propItems_unbroken (values_ok hi).1 ?_ (worldOk_sub hw 0)⟩,
      missing_unbroken _ isName_uid (uuid_not_mem hw (by decide) []) (uuid_not_mem hw (by decide) [])⟩,
      propItems_unbroken (values_ok hi).2 ?_ (worldOk_sub hw 1)⟩, others_unbroken comps h.2.2 h3 (worldOk_sub hw 2)⟩
    · intro p hp
      obtain ⟨x, hx, rfl⟩ := List.mem_map.1 hp
      exact h1 x hx
    · intro p hp
      obtain ⟨ps, hps, hp⟩ := List.mem_flatten.1 hp
      obtain ⟨x, hx, rfl⟩ := List.mem_map.1 hps
      exact h2 x hx p hp
theorem others_unbroken : (l : List Other) → OthersOk l → UnbrokenOthers l → {w : World} → World.Ok w →
    ItemsUnbroken (otherItems l w)
  | [], _, _, _, _ => trivial
  | o :: l, h, hu, _, hw =>
    ⟨other_unbroken o h.1 hu.1 (worldOk_sub hw 0), others_unbroken l h.2 hu.2 (worldOk_sub hw 1)⟩
end

theorem calendar_unbroken {c : Calendar} (hc : CalendarOk c) (hu : UnbrokenCal c) {w : World} (hw : World.Ok w) :
    (c.item w).Unbroken := by
  simp only [Calendar.item, Item.Unbroken, itemsUnbroken_append]
  refine ⟨propItems_unbroken hc.props hu.props (worldOk_sub hw 0), ?_⟩
  have h1 := hc.comps
  have h2 := hu.comps
  have h3 := worldOk_sub hw 1
  generalize c.comps = l at h1 h2
  generalize w.sub 1 = w' at h3
  induction l generalizing w' with
  | nil => trivial
  | cons x l ih =>
    exact ⟨other_unbroken _ (calCompOk_other (h1 x (by simp))) (h2 x (by simp)) (worldOk_sub h3 0),
      ih (fun y hy => h1 y (by simp [hy])) (fun y hy => h2 y (by simp [hy])) (w'.sub 1) (worldOk_sub h3 1)⟩

/-! ### C137 -/

/-- **C137.** Replacing every CRLF of a file by LF gives a file with LF line breaks that presents the same document. -/
theorem to_lf {i : Item} (h : i.Ok .crlf) (hu : i.Unbroken) {file : Str} (hf : Presents .crlf i file) :
    i.Ok .lf ∧ Presents .lf i (toLf file) ∧ Calendar.fromStr (toLf file) = Calendar.fromStr file := by
  cases i with
  | prop => simp [Presents] at hf
  | comp b e n items =>
    have hf' := hf
    simp only [Presents] at hf
    obtain ⟨lead, bl, body, tail, hl, hb, ht, hbody, -, hfold⟩ := hf
    have hok := h
    simp only [Item.Ok] at hok
    simp only [Item.Unbroken] at hu
    obtain ⟨t1, h1, h2⟩ := convLf_blank hl
    obtain ⟨t2, h3, h4⟩ := convLf_blank hb
    obtain ⟨t3, h5, h6⟩ := convLf_blank ht
    obtain ⟨h7, t4, h8, h9⟩ := spacedAll_toLf items hok.2.2.2 hu hbody
    have hk := (keyword_unbroken hok.1 (by decide) (by decide)).1
    have he := (keyword_unbroken hok.2.1 (by decide) (by decide)).1
    have hn := (nameChar_unbroken hok.2.2.1).1
    have hconv := h1.append ((convLf_plain hk).append ((convLf_plain hn).append (((convLf_break .crlf).append h3).append
      (h8.append ((convLf_plain he).append ((convLf_plain hn).append h5))))))
    have htext := hconv.1 []
    rw [List.append_nil, toLf, List.append_nil] at htext
    have hunf := foldedForm_unfold hfold
    rw [unfold_eq_spec] at hunf
    have hfold' := foldedForm_self (toLf file)
    rw [unfold_toLf file (by rw [hunf, htext]; exact hconv.2), hunf, htext] at hfold'
    have hok' : (Item.comp b e n items).Ok .lf := by
      simp only [Item.Ok]
      exact ⟨hok.1, hok.2.1, hok.2.2.1, h7⟩
    have hp : Presents .lf (.comp b e n items) (toLf file) := by
      simp only [Presents]
      exact ⟨t1, t2, t4, t3, h2, h4, h6, h9, fun _ => hconv.2, hfold'⟩
    exact ⟨hok', hp, ((presentation_irrelevant hok' h hp hf').2.1)⟩

/-- **C137.** Replacing every LF of a file with LF line breaks by CRLF gives a file with CRLF line breaks that presents the
same document. -/
theorem to_crlf {i : Item} (h : i.Ok .lf) (hu : i.Unbroken) {file : Str} (hf : Presents .lf i file) :
    i.Ok .crlf ∧ Presents .crlf i (toCrlf file) ∧ Calendar.fromStr (toCrlf file) = Calendar.fromStr file := by
  cases i with
  | prop => simp [Presents] at hf
  | comp b e n items =>
    have hf' := hf
    simp only [Presents] at hf
    obtain ⟨lead, bl, body, tail, hl, hb, ht, hbody, hcr, hfold⟩ := hf
    have hok := h
    simp only [Item.Ok] at hok
    simp only [Item.Unbroken] at hu
    obtain ⟨t1, h1, h2⟩ := convCrlf_blank hl
    obtain ⟨t2, h3, h4⟩ := convCrlf_blank hb
    obtain ⟨t3, h5, h6⟩ := convCrlf_blank ht
    obtain ⟨h7, t4, h8, h9⟩ := spacedAll_toCrlf items hok.2.2.2 hu hbody
    have hk := keyword_unbroken hok.1 (by decide) (by decide)
    have he := keyword_unbroken hok.2.1 (by decide) (by decide)
    have hn := nameChar_unbroken hok.2.2.1
    have hconv := h1.append ((convCrlf_plain hk.1 hk.2).append ((convCrlf_plain hn.1 hn.2).append
      (((convCrlf_break .lf).append h3).append (h8.append ((convCrlf_plain he.1 he.2).append
        ((convCrlf_plain hn.1 hn.2).append h5))))))
    have htext := hconv []
    rw [List.append_nil, toCrlf, List.append_nil] at htext
    have hunf := foldedForm_unfold hfold
    rw [unfold_eq_spec] at hunf
    have hfold' := foldedForm_self (toCrlf file)
    rw [unfold_toCrlf file (by rw [hunf]; simpa using hcr), hunf, htext] at hfold'
    have hok' : (Item.comp b e n items).Ok .crlf := by
      simp only [Item.Ok]
      exact ⟨hok.1, hok.2.1, hok.2.2.1, h7⟩
    have hp : Presents .crlf (.comp b e n items) (toCrlf file) := by
      simp only [Presents]
      exact ⟨t1, t2, t4, t3, h2, h4, h6, h9, nofun, hfold'⟩
    exact ⟨hok', hp, ((presentation_irrelevant hok' h hp hf').2.1)⟩

/-- **C137.** A written calendar is read unchanged from a file of which the line breaks were converted to LF, and also when
they are converted back to CRLF. -/
theorem written_converted {c : Calendar} (hc : CalendarOk c) (hs : CalendarSafe c)
    (hst : ∀ x ∈ c.comps, HasStamps x.toOther) (hu : UnbrokenCal c) {w : World} (hw : World.Ok w) {file : Str}
    (h : c.fmtWrite w = .ok file) :
    Calendar.fromStr (toLf file) = some c ∧ Calendar.fromStr (toCrlf (toLf file)) = some c := by
  have hi := calendar_unbroken hc hu hw
  obtain ⟨h1, h2, h3⟩ := to_lf (calendar_item_ok (calendarOk_writable hc) hw) hi (presents_written hc hw h)
  obtain ⟨-, -, h4⟩ := to_crlf h1 hi h2
  have := calendar_roundtrip c hc hs hst w hw file h
  exact ⟨h3.trans this, h4.trans (h3.trans this)⟩

end Ical
