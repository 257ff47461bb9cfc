import Verif.Spec.Truncated
import Verif.Props.Parsing
import Verif.Proofs.Acceptance

/-!
C18: what exactly becomes of a document that was cut off.
-/

namespace Ical

open Nom Spec

variable [Uni]

omit [Uni] in
theorem prepend_failure {l : List Child} : prependChildren l (.failure : Res (List Child × Str)) = .failure := rfl

/-- one step on a line without LF that is not a keyword line -/
theorem body_step {n s : Str} (h : '\n' ∉ s) (he : prefixNoCase c!"END:" s = false)
    (hb : prefixNoCase c!"BEGIN:" s = false) (hk : ¬ Keyword s) : ∃ r a, property s = .ok r a ∧
      manyTill (componentChild component) (componentEnd n) s =
        if r.length = s.length then .error
        else prependChildren [.prop a] (manyTill (componentChild component) (componentEnd n) r) := by
  obtain ⟨p, t, f, rfl, hp⟩ := prop_total hk
  refine ⟨f, p, propIs_reads hp, ?_⟩
  have hle := lineEnding_noLf h
  rw [manyTill_eq (shrinks_componentChild shrinks_component)]
  have h1 : componentEnd n (t ++ f) = .error := line_error hle he
  rw [h1]
  simp only
  unfold componentChild cut alt map
  rw [lineSeparated_error hle (component_error hle hb)]
  simp only [lineSeparated_noLf shrinks_property h, propIs_reads hp]
  split
  · rfl
  · cases manyTill _ (componentEnd n) f <;> rfl

/-- a single unfinished line that does not start like a keyword is read, and then the END line is missing -/
theorem body_line_error {n s : Str} (h : '\n' ∉ s) (he : prefixNoCase c!"END:" s = false)
    (hb : prefixNoCase c!"BEGIN:" s = false) (hk : ¬ Keyword s) (hr : ¬ Keyword (s.dropWhile isKeyChar)) :
    manyTill (componentChild component) (componentEnd n) s = .error := by
  obtain ⟨r, a, hp, hs⟩ := body_step (n := n) h he hb hk
  rw [hs]
  split
  · rfl
  · rcases property_noLf h hp with rfl | hre
    · rw [body_eof]; rfl
    · rw [← hre] at hr
      have hst : First (fun c => ¬ NameChar c) r := by
        rw [first_name]
        intro c hc
        rw [hre] at hc
        have := List.head?_dropWhile_not isKeyChar s
        rw [hc] at this
        simpa using this
      have hno := nameless hst
      have hrl : '\n' ∉ r := suffix_noLf h (shrinks_property _ _ _ hp)
      obtain ⟨r', a', hp', hs'⟩ := body_step (n := n) hrl
        (by simpa using fun hc => hno.2 (begins_end.1 hc)) (by simpa using fun hc => hno.1 (begins_begin.1 hc)) hr
      rw [hs']
      split
      · rfl
      · rename_i hne
        rcases property_noLf hrl hp' with rfl | hre'
        · rw [body_eof]; rfl
        · exfalso
          apply hne
          have hd : r.dropWhile isKeyChar = r :=
            (takeWhile_stop (f := isKeyChar) (a := []) (b := r) (by simp) (first_name.1 hst)).2
          rw [hre', hd]

omit [Uni] in
/-- text that starts with a character that is neither white space nor an initial of a keyword -/
theorem notKeyword_head {c : Char} {s : Str} (h : c ∉ [' ', '\t', '\r', '\n', 'E', 'B']) : ¬ Keyword (c :: s) := by
  rintro ⟨white, t, h1, h2, h3⟩
  cases white with
  | nil =>
    rcases h3 with ⟨u, h3⟩ | ⟨u, h3⟩
    · rw [← h3] at h2
      cases h2
      exact h (by decide)
    · rw [← h3] at h2
      cases h2
      exact h (by decide)
  | cons d w =>
    cases h2
    have := h1 c (by simp)
    unfold Space at this
    apply h
    rcases this with rfl | rfl | rfl | rfl <;> decide

omit [Uni] in
theorem notKeyword_nil : ¬ Keyword [] := by
  rintro ⟨white, t, h1, h2, h3⟩
  obtain ⟨rfl, rfl⟩ := List.nil_eq_append_iff.1 h2
  rcases h3 with ⟨u, h3⟩ | ⟨u, h3⟩ <;> cases h3

omit [Uni] in
/-- text that starts with no white space and not like a keyword -/
theorem notKeyword_of {s : Str} (h0 : ∀ c, s.head? = some c → ¬ Space c) (h1 : ¬ c!"END" <+: s) (h2 : ¬ c!"BEGIN" <+: s) :
    ¬ Keyword s := by
  rintro ⟨white, t, h3, rfl, h4⟩
  cases white with
  | nil => exact h4.elim h1 h2
  | cons d w => exact h0 d rfl (h3 d (by simp))

theorem body_cr (n : Str) : manyTill (componentChild component) (componentEnd n) ['\r'] = .error := by
  have hk : ¬ Keyword ['\r'] := by
    rintro ⟨white, t, h1, h2, h3⟩
    have : t <:+ ['\r'] := ⟨white, h2.symm⟩
    have hl := this.length_le
    rcases h3 with h3 | h3 <;> (have := h3.length_le; simp at this hl; omega)
  refine body_line_error (by decide) rfl rfl hk ?_
  have : (['\r'] : Str).dropWhile isKeyChar = ['\r'] := by
    rw [List.dropWhile_cons_of_neg (by rw [isKeyChar_cr]; decide)]
  rw [this]
  exact hk

/-- a part of a line break -/
theorem body_break {br : Break} {t n : Str} (h : t <+: br.text) (hlt : t.length < br.text.length) :
    manyTill (componentChild component) (componentEnd n) t = .error := by
  cases br with
  | crlf =>
    rcases t with _ | ⟨a, _ | ⟨b, t⟩⟩
    · exact body_eof n
    · simp [Break.text, List.cons_prefix_cons] at h
      subst h
      exact body_cr n
    · exact absurd hlt (by simp [Break.text])
  | lf =>
    rcases t with _ | ⟨a, t⟩
    · exact body_eof n
    · simp [Break.text] at hlt


/-- a prefix of a content line does not look like a keyword, nor does what follows its name -/
theorem prop_prefix {key : Str} (hk : KeyOk key) (params : List DParam) (val t : Str) {s : Str}
    (h : s <+: key ++ ((params.map DParam.text).flatten ++ (':' :: (val ++ t)))) :
    ¬ Keyword s ∧ ¬ Keyword (s.dropWhile isKeyChar) := by
  have hhead : ∀ c, (((params.map DParam.text).flatten ++ (':' :: (val ++ t)))).head? = some c → c = ';' ∨ c = ':' := by
    intro c hc
    cases params with
    | nil => simp at hc; exact .inr hc.symm
    | cons p l =>
      left
      rcases p with ⟨k, _ | ⟨_ | _, v⟩⟩ <;> simp [DParam.text] at hc <;> exact hc.symm
  generalize hrest : (params.map DParam.text).flatten ++ (':' :: (val ++ t)) = rest at h hhead
  rcases prefix_append_cases h with ⟨h1, -⟩ | ⟨s', rfl, h1⟩
  · have hn : IsName s := fun c hc => hk.name c (h1.mem hc)
    have hd : s.dropWhile isKeyChar = [] := by
      have := (takeWhile_stop (f := isKeyChar) (a := s) (b := []) (fun c hc => (isKeyChar_iff c).2 (hn c hc))
        (by intro c hc; simp at hc)).2
      simpa using this
    refine ⟨notKeyword_of ?_ ?_ ?_, by rw [hd]; exact notKeyword_nil⟩
    · intro c hc hsp
      have := (isKeyChar_iff c).2 (hn c (List.mem_of_head? hc))
      rcases hsp with rfl | rfl | rfl | rfl <;> simp [isKeyChar, isAlnum_ascii] at this
    · exact fun hc => hk.notEnd (hc.trans h1)
    · exact fun hc => hk.notBegin (hc.trans h1)
  · have hs' : ∀ c, s'.head? = some c → c = ';' ∨ c = ':' := by
      intro c hc
      obtain ⟨u, hu⟩ := h1
      apply hhead c
      rw [← hu]
      cases s' with
      | nil => cases hc
      | cons d s' => exact hc
    have hs'' : ¬ Keyword s' := by
      cases s' with
      | nil => exact notKeyword_nil
      | cons d s' =>
        rcases hs' d rfl with rfl | rfl <;> exact notKeyword_head (by decide)
    have hd : (key ++ s').dropWhile isKeyChar = s' := by
      refine (takeWhile_stop (f := isKeyChar) (a := key) (b := s') (fun c hc => (isKeyChar_iff c).2 (hk.name c hc)) ?_).2
      intro c hc
      rcases hs' c hc with rfl | rfl <;> simp [isKeyChar, isAlnum_ascii]
    refine ⟨?_, by rw [hd]; exact hs''⟩
    have key_prefix : ∀ w : Str, (∀ c ∈ w, c ≠ ';' ∧ c ≠ ':') → ¬ w <+: key → ¬ w <+: key ++ s' := by
      intro w hw hwk hc
      rcases prefix_append_cases hc with ⟨h2, -⟩ | ⟨w', rfl, h2⟩
      · exact hwk h2
      · cases w' with
        | nil => exact hwk (by simp)
        | cons d w' =>
          obtain ⟨u, hu⟩ := h2
          have := hs' d (by rw [← hu]; rfl)
          have hd := hw d (by simp)
          exact this.elim hd.1 hd.2
    refine notKeyword_of ?_ (key_prefix _ (by decide) hk.notEnd) (key_prefix _ (by decide) hk.notBegin)
    intro c hc hsp
    cases key with
    | nil =>
      have := hs' c hc
      rcases hsp with rfl | rfl | rfl | rfl <;> simp at this
    | cons d key =>
      cases hc
      have := (isKeyChar_iff c).2 (hk.name c (by simp))
      rcases hsp with rfl | rfl | rfl | rfl <;> simp [isKeyChar, isAlnum_ascii] at this

/-- a component that was begun and is not closed makes the body fail -/
theorem body_inside {br : Break} {items : List Item} (hok : ItemsOk br items) (hc : ItemsClean items) {n s : Str}
    (hq : br = .lf → '\r' ∉ s) (h : InsideComponent br items s) :
    manyTill (componentChild component) (componentEnd n) s = .failure := by
  obtain ⟨l, l', b, e, m, sub, t, rfl, rfl, hb, ht, hlt⟩ := h
  obtain ⟨hok1, hok2⟩ := itemsOk_append.1 hok
  simp only [ItemsOk] at hok2
  have hc2 : (Item.comp b e m sub).Clean := by
    clear hok hok1 hq
    induction l with
    | nil => exact hc.1
    | cons i l ih => exact ih hc.2
  have hle : lineEnding t = .error := by
    obtain ⟨u, rfl⟩ := hb
    exact lineEnding_cons_error (by decide) (by decide)
  rw [body_append hok1 hle hq]
  have hqt : br = .lf → '\r' ∉ t := fun hbr => fun hm => hq hbr (by simp [hm])
  have htext : (Item.comp b e m sub).text br = b ++ m ++ br.text ++ itemsText br sub ++ (e ++ m) ++ br.text := by
    simp [Item.text]
  have hend : componentEnd n t = .error := by
    refine line_error hle ?_
    obtain ⟨u, rfl⟩ := hb
    exact prefixNoCase_head_ne (by decide)
  have hfail : componentChild component t = .failure := by
    rcases component_prefix _ rfl hok2.1 hc2 hqt (by rw [htext]; exact ht.trans (List.prefix_append _ _)) with hn | ⟨u, rfl, -⟩
    · cases hco : component t with
      | ok r x => exact absurd hco (hn _ _)
      | error => exact child_unclosed hb hco
      | failure =>
        unfold componentChild cut alt map
        rw [lineSeparated_failure hle hco]
    · simp at hlt
      omega
  rw [manyTill_eq (shrinks_componentChild shrinks_component), hend]
  simp only [hfail, prependChildren]

/-- an unfinished END line makes the body fail -/
theorem body_inEnd {br : Break} {items : List Item} (hok : ItemsOk br items) {e n s : Str}
    (he : e.map lowerAscii = c!"end:") (hq : br = .lf → '\r' ∉ s) (h : InsideEnd br items e n s) :
    manyTill (componentChild component) (componentEnd n) s = .failure := by
  obtain ⟨t, rfl, h1, h2, h3⟩ := h
  have hle : lineEnding t = .error := by
    rcases h1 with ⟨u, rfl⟩ | ⟨u, rfl⟩
    · exact lineEnding_cons_error (by decide) (by decide)
    · exact keyword_lineEnding he (by decide) (by decide)
  rw [body_append hok hle hq]
  have hfail : manyTill (componentChild component) (componentEnd n) t = .failure := by
    have hel : e.length = 4 := by simpa using congrArg List.length he
    rw [manyTill_eq (shrinks_componentChild shrinks_component)]
    rcases prefix_append_cases h2 with ⟨h4, h5⟩ | ⟨u, rfl, h4⟩
    · have h6 : c!"END" <+: t := by
        rcases h1 with h1 | h1
        · exact h1
        · have := h1.length_le
          omega
      have hend : componentEnd n t = .error := by
        refine line_error hle ?_
        cases hk : prefixNoCase c!"END:" t with
        | false => rfl
        | true =>
          have := ((prefixNoCase_iff _ _).1 hk).2
          simp at this
          omega
      rw [hend]
      have hb : prefixNoCase c!"BEGIN:" t = false := by
        obtain ⟨u, rfl⟩ := h6
        exact prefixNoCase_head_ne (by decide)
      have : componentChild component t = .failure := by
        unfold componentChild cut alt map
        rw [lineSeparated_error hle (component_error hle hb), lineSeparated_failure hle (property_failure (.inl h6))]
      simp only [this]
    · have hend : componentEnd n (e ++ u) = .failure := by
        apply lineSeparated_failure hle
        unfold complete preceded map pair
        rw [tagNoCase_ok (by rw [he]; decide)]
        have : tag n u = .error := by
          unfold tag
          rw [if_neg]
          rw [List.isPrefixOf_iff_prefix]
          intro hc
          have := hc.length_le
          simp at h3
          omega
        simp [cut, this]
      rw [hend]
  rw [hfail]
  rfl


theorem dropWhile_name {s : Str} (h : IsName s) : s.dropWhile isKeyChar = [] := by
  have := (takeWhile_stop (f := isKeyChar) (a := s) (b := []) (fun c hc => (isKeyChar_iff c).2 (h c hc))
    (by intro c hc; simp at hc)).2
  simpa using this

omit [Uni] in
theorem prefixNoCase_short {k s : Str} (h : s.length < k.length) : prefixNoCase k s = false := by
  cases hk : prefixNoCase k s with
  | false => rfl
  | true =>
    have := ((prefixNoCase_iff _ _).1 hk).2
    omega

/-- a part of a keyword, in any case, that is not yet taken for it -/
theorem body_keyword {k n s : Str} {w : Str} (hk : k.map lowerAscii = w) (hw : ∀ c ∈ w, 97 ≤ c.toNat ∧ c.toNat ≤ 122)
    (hs : s <+: k) (he : ¬ c!"END" <+: s) (hb : ¬ c!"BEGIN" <+: s)
    (he' : prefixNoCase c!"END:" s = false) (hb' : prefixNoCase c!"BEGIN:" s = false) :
    manyTill (componentChild component) (componentEnd n) s = .error := by
  have hn : IsName s := by
    intro c hc
    have hm : lowerAscii c ∈ w := by
      rw [← hk]
      exact List.mem_map_of_mem (hs.mem hc)
    exact letter_nameChar (hw _ hm) rfl
  refine body_line_error (name_not_mem hn isKeyChar_lf) he' hb' (notKeyword_of ?_ he hb)
    (by rw [dropWhile_name hn]; exact notKeyword_nil)
  intro c hc hsp
  have := (isKeyChar_iff c).2 (hn c (List.mem_of_head? hc))
  rcases hsp with rfl | rfl | rfl | rfl <;> simp [isKeyChar, isAlnum_ascii] at this

/-- a body that was cut off anywhere -/
theorem items_cut {br : Break} {e n : Str} (he : e.map lowerAscii = c!"end:") :
    ∀ (items : List Item), ItemsOk br items → ItemsClean items → ∀ s : Str, (br = .lf → '\r' ∉ s) →
      s <+: itemsText br items ++ (e ++ n) → s.length < (itemsText br items ++ (e ++ n)).length →
      InsideComponent br items s ∨ InsideEnd br items e n s ∨
        manyTill (componentChild component) (componentEnd n) s = .error := by
  intro items
  induction items with
  | nil =>
    intro _ _ s hq h hlt
    simp only [itemsText, List.nil_append] at h hlt
    by_cases hE : c!"END" <+: s ∨ e <+: s
    · exact .inr (.inl ⟨s, by simp [itemsText], hE, h, hlt⟩)
    · right; right
      rw [not_or] at hE
      have hel : e.length = 4 := by simpa using congrArg List.length he
      rcases prefix_append_cases h with ⟨h1, h2⟩ | ⟨u, rfl, -⟩
      · have hs3 : s <+: e.take 3 := by
          rw [List.prefix_take_iff]
          exact ⟨h1, by omega⟩
        refine body_keyword (k := e.take 3) (w := c!"end") ?_ (by decide) hs3 hE.1 ?_
          (prefixNoCase_short (by simp; omega)) (prefixNoCase_short (by simp; omega))
        · rw [List.map_take, he]; rfl
        · intro hc
          have := hc.length_le
          simp at this
          omega
      · exact absurd (List.prefix_append _ _) hE.2
  | cons it l ih =>
    intro hok hc s hq h hlt
    simp only [ItemsOk, ItemsClean] at hok hc
    rw [itemsText, List.append_assoc] at h hlt
    rcases prefix_append_cases h with ⟨h1, h2⟩ | ⟨s', rfl, h1⟩
    · cases it with
      | prop key params val =>
        right; right
        simp only [Item.Clean, Item.Ok] at hc hok
        have hs : '\n' ∉ s := prefix_line_noLf hc.1.2 h1 h2
        have hk := hok.1.1
        have e2 : (Item.prop key params val).text br =
            key ++ ((params.map DParam.text).flatten ++ (':' :: (val ++ br.text))) := by simp [Item.text]
        rw [e2] at h1
        obtain ⟨h3, h4⟩ := prop_prefix hk params val br.text h1
        exact body_line_error hs (prefixNoCase_mono h1 (keyOk_line hk params val br.text (t := c!"END") (.inl rfl)))
          (prefixNoCase_mono h1 (keyOk_line hk params val br.text (t := c!"BEGIN") (.inr rfl))) h3 h4
      | comp b' e' n' sub =>
        have hok' := hok.1
        simp only [Item.Ok] at hok'
        have hcl := hc.1
        simp only [Item.Clean] at hcl
        obtain ⟨rfl, -⟩ := hcl
        have htext : (Item.comp c!"BEGIN:" e' n' sub).text br =
            (c!"BEGIN:" ++ n' ++ br.text ++ itemsText br sub ++ (e' ++ n')) ++ br.text := by
          simp [Item.text]
        by_cases hb : c!"BEGIN" <+: s
        · rw [htext] at h1 h2
          rcases prefix_append_cases h1 with ⟨h3, h4⟩ | ⟨u, rfl, h3⟩
          · exact .inl ⟨[], l, _, e', n', sub, s, rfl, by simp [itemsText], hb, h3, h4⟩
          · right; right
            have hul : u.length < br.text.length := by simp at h2; omega
            have hnl := noLf_short h3 hul
            have hle : lineEnding (c!"BEGIN:" ++ n' ++ br.text ++ itemsText br sub ++ (e' ++ n') ++ u) = .error :=
              lineEnding_cons_error (by decide) (by decide)
            have hco := component_short hok.1 hnl (by
              intro hbr; have := hq hbr; simp at this ⊢; simp [this])
            have he1 : componentEnd n (c!"BEGIN:" ++ n' ++ br.text ++ itemsText br sub ++ (e' ++ n') ++ u) = .error :=
              line_error hle (prefixNoCase_head_ne (by decide))
            rw [manyTill_eq (shrinks_componentChild shrinks_component), he1]
            simp only
            have hch : componentChild component
                (c!"BEGIN:" ++ n' ++ br.text ++ itemsText br sub ++ (e' ++ n') ++ u) =
                .ok u (.comp (.mk n' (itemsProps sub) (itemsComps sub))) := by
              unfold componentChild cut alt map
              rw [List.append_assoc] at hle ⊢
              rw [lineSeparated_ok hle hco (many0_lineEnding_noLf hnl)]
            rw [hch]
            simp only [body_break h3 hul]
            split <;> rfl
        · right; right
          have hs5 : s <+: c!"BEGIN" ∧ s.length < 5 := by
            have e3 : (Item.comp c!"BEGIN:" e' n' sub).text br =
                c!"BEGIN" ++ (':' :: (n' ++ br.text ++ itemsText br sub ++ (e' ++ n') ++ br.text)) := by
              simp [Item.text]
            rw [e3] at h1
            rcases prefix_append_cases h1 with ⟨h3, h4⟩ | ⟨u, rfl, -⟩
            · exact ⟨h3, h4⟩
            · exact absurd (List.prefix_append _ _) hb
          refine body_keyword (k := c!"BEGIN") (w := c!"begin") (by decide) (by decide) hs5.1 ?_ hb ?_
            (prefixNoCase_short (by simp; omega))
          · rintro ⟨u, rfl⟩
            have := hs5.1
            rw [List.cons_append, List.cons_prefix_cons] at this
            exact absurd this.1 (by decide)
          · refine prefixNoCase_mono hs5.1 rfl
    · have hle : lineEnding s' = .error := by
        cases s' with
        | nil => rfl
        | cons c s' =>
          obtain ⟨u, hu⟩ := h1
          exact first_lineEnding (br := br) (items := l) (e := e) (n := n) (u := s' ++ (u ++ br.text))
            (by rw [← List.append_assoc, ← hu]; simp) hok.2 he
      have hb := body_append (br := br) (items := [it]) ⟨hok.1, trivial⟩ (name := n) hle
        (by simpa [itemsText] using hq)
      simp only [itemsText, List.append_nil] at hb
      rcases ih hok.2 hc.2 s' (by intro hbr; have := hq hbr; simp at this ⊢; simp [this]) h1
        (by simp at hlt ⊢; omega) with h2 | h2 | h2
      · left
        obtain ⟨l1, l2, b, e', m, sub, t, rfl, rfl, h3, h4, h5⟩ := h2
        exact ⟨it :: l1, l2, b, e', m, sub, t, rfl, by simp [itemsText], h3, h4, h5⟩
      · right; left
        obtain ⟨t, rfl, h3⟩ := h2
        exact ⟨t, by simp [itemsText], h3⟩
      · right; right
        rw [hb, h2]
        rfl

/-- the first line, cut off -/
theorem first_line_cut {br : Break} {b n : Str} (hb : b.map lowerAscii = c!"begin:") (hn : IsName n) {s : Str}
    (h : s <+: b ++ n ++ br.text) (hlt : s.length < (b ++ n ++ br.text).length) : component s = .error := by
  have hnl : '\n' ∉ b ++ n := by
    rw [List.mem_append, not_or]
    exact ⟨keyword_not_mem hb (by decide), name_not_mem hn isKeyChar_lf⟩
  have hs := prefix_line_noLf hnl h hlt
  have hle := lineEnding_noLf hs
  by_cases hk : prefixNoCase c!"BEGIN:" s = true
  · rw [prefixNoCase_iff] at hk
    have hbl : b.length = 6 := by simpa using congrArg List.length hb
    rw [List.append_assoc] at h
    rcases prefix_append_cases h with ⟨h3, h4⟩ | ⟨s', rfl, h3⟩
    · have := hk.2
      simp at this
      omega
    · rw [component_eq]
      unfold componentBody
      have hline : ∃ r x, line c!"BEGIN:" validKeySequence (b ++ s') = .ok r x ∧
          r <+: br.text ∧ r.length < br.text.length := by
        rcases prefix_append_cases h3 with ⟨h5, h6⟩ | ⟨t, rfl, h5⟩
        · refine ⟨[], s', ?_, List.nil_prefix, break_length_pos br⟩
          refine lineSeparated_ok hle (r := []) ?_ rfl
          unfold complete preceded map pair
          rw [tagNoCase_ok (by rw [hb]; decide)]
          have hsn : IsName s' := fun c hc => hn c (h5.mem hc)
          have := validKeySequence_ok hsn (b := []) (by intro c hc; simp at hc)
          rw [List.append_nil] at this
          simp [this]
        · have ht : t.length < br.text.length := by simp at hlt; omega
          refine ⟨t, n, ?_, h5, ht⟩
          refine lineSeparated_ok hle (r := t) ?_ (many0_lineEnding_noLf (noLf_short h5 ht))
          unfold complete preceded map pair
          rw [tagNoCase_ok (by rw [hb]; decide)]
          have := validKeySequence_ok hn (b := t) (by
            intro c hc
            have hct : c ∈ t := List.mem_of_head? hc
            have := h5.mem hct
            cases br <;> simp [Break.text] at this
            · rcases this with rfl | rfl
              · exact isKeyChar_cr
              · exact isKeyChar_lf
            · subst this; exact isKeyChar_lf)
          simp [this]
      obtain ⟨r, x, hl, hr, hr'⟩ := hline
      rw [hl]
      simp only [body_break hr hr']
  · exact component_error hle (by simpa using hk)

/-- **C18 (partial).** Exactly what becomes of a document that was cut off anywhere. It is rejected if and only if the cut is inside
a component of the root component (at any depth, after the five letters of its BEGIN) or inside the END line of the root component
(after its three letters); it is read in full if only the last line break is missing; and in all other cases, cut between two lines
or inside a property of the root component, it is silently read as a calendar without any content. -/
theorem truncated_exact_partial {br : Break} {b e n : Str} {items : List Item}
    (h : (Item.comp b e n items).Ok br) (hc : (Item.comp b e n items).Clean) {s : Str}
    (hs : s <+: (Item.comp b e n items).text br) :
    (CutNoticed br b e n items s → readCalendar s = none ∧ readComponents s = none) ∧
    (CutAfterEnd br b e n items s → readCalendar s = readCalendar ((Item.comp b e n items).text br) ∧
      readComponents s = readComponents ((Item.comp b e n items).text br)) ∧
    (¬ CutNoticed br b e n items s → ¬ CutAfterEnd br b e n items s →
      readCalendar s = some ⟨[], []⟩ ∧ readComponents s = some []) := by
  have hok := h
  simp only [Item.Ok] at hok
  obtain ⟨hb, he, hn, hi⟩ := hok
  have hcl := hc
  simp only [Item.Clean] at hcl
  have hq : br = .lf → '\r' ∉ s := by
    intro hbr; subst hbr
    exact prefix_mem hs (clean_noCr _ h hc)
  have htext : (Item.comp b e n items).text br = b ++ n ++ br.text ++ (itemsText br items ++ (e ++ n) ++ br.text) := by
    simp [Item.text]
  have frame : ∀ body : Str, s = b ++ n ++ br.text ++ body → body <+: itemsText br items ++ (e ++ n) ++ br.text →
      component s = match manyTill (componentChild component) (componentEnd n) body with
      | .error => .error
      | .failure => .failure
      | .ok i (children, _) =>
        match many0 (tag ['\n']) i with
        | .error => .error
        | .failure => .failure
        | .ok i _ => .ok i (.mk n (childProps children) (childComps children)) := by
    intro body hbody hpre
    have hle : lineEnding body = .error := by
      cases body with
      | nil => rfl
      | cons c body =>
        obtain ⟨u, hu⟩ := hpre
        exact first_lineEnding (br := br) (items := items) (e := e) (n := n) (u := body ++ u) (by
          rw [← List.append_assoc, ← hu]; rfl) hi he
    have := component_frame (br := br) (items := []) hb hn trivial hle (by
      intro hbr; have := hq hbr; rw [hbody] at this; simp [itemsText] at this ⊢; simp [this])
    rw [itemsText, List.append_nil] at this
    rw [hbody, this]
    rfl
  have pre : ∀ body : Str, s = b ++ n ++ br.text ++ body → body <+: itemsText br items ++ (e ++ n) ++ br.text := by
    intro body hbody
    rw [htext, hbody, List.prefix_append_right_inj] at hs
    exact hs
  refine ⟨?_, ?_, ?_⟩
  · rintro ⟨body, hbody, hin⟩
    have hqb : br = .lf → '\r' ∉ body := by
      intro hbr; have := hq hbr; rw [hbody] at this; simp at this ⊢; simp [this]
    have hfail : component s = .failure := by
      rw [frame body hbody (pre body hbody)]
      rcases hin with hin | hin
      · rw [body_inside hi hcl.2 hqb hin]
      · rw [body_inEnd hi he hqb hin]
    unfold readCalendar readComponents
    rw [components_failure hfail]
    exact ⟨rfl, rfl⟩
  · intro hend
    have hq' : br = .lf → '\r' ∉ (Item.comp b e n items).text br := by
      intro hbr; subst hbr
      exact clean_noCr _ h hc
    rcases hend with rfl | rfl
    · have hco := component_short (t := []) h (by simp) (by simpa using hq)
      have hfull := components_ok (component_doc h hq')
      simp only [List.append_nil] at hco
      unfold readCalendar readComponents
      rw [components_ok hco, hfull]
      exact ⟨rfl, rfl⟩
    · rw [htext]
      simp only [List.append_assoc, and_self]
  · intro h1 h2
    have hsome : components s = .ok s [] := by
      rw [htext] at hs
      rcases prefix_append_cases hs with ⟨h3, h4⟩ | ⟨body, hbody, h3⟩
      · exact components_none (.inl (first_line_cut hb hn h3 h4))
      · rcases prefix_append_cases h3 with ⟨h4, h5⟩ | ⟨t, rfl, h4⟩
        · have hqb : br = .lf → '\r' ∉ body := by
            intro hbr; have := hq hbr; rw [hbody] at this; simp at this ⊢; simp [this]
          rcases items_cut he items hi hcl.2 body hqb h4 h5 with h6 | h6 | h6
          · exact absurd ⟨body, hbody, .inl h6⟩ h1
          · exact absurd ⟨body, hbody, .inr h6⟩ h1
          · refine components_none (.inl ?_)
            rw [frame body hbody h3, h6]
        · have ht : t ≠ [] := by
            rintro rfl
            exact h2 (.inl (by rw [hbody]; simp))
          have hnl : '\n' ∉ t := by
            rcases prefix_break_cases h4 with rfl | h5
            · exact absurd (.inr (by rw [hbody]; simp)) h2
            · exact h5
          have e1 : s = b ++ n ++ br.text ++ itemsText br items ++ (e ++ n ++ t) := by rw [hbody]; simp
          rw [e1] at hq ⊢
          exact components_none (.inr ⟨t, _, ht, component_short h hnl hq⟩)
    unfold readCalendar readComponents
    rw [hsome]
    exact ⟨rfl, rfl⟩


omit [Uni] in
/-- An event cut off after `BEGIN` is noticed, after `BEGI` it is not; an END line cut off after `END` is noticed, after `EN` it
is not; and without the last line break everything is there. -/
example : let items : List Item := [.prop c!"NAME" [] c!"x", .comp c!"BEGIN:" c!"END:" c!"VEVENT" [.prop c!"UID" [] c!"1"]]
    let it : Item := .comp c!"BEGIN:" c!"END:" c!"VCALENDAR" items
    let size := fun s : Str => (@readComponents Uni.ascii s).map List.length
    CutNoticed .crlf c!"BEGIN:" c!"END:" c!"VCALENDAR" items c!"BEGIN:VCALENDAR\r\nNAME:x\r\nBEGIN" ∧
    size c!"BEGIN:VCALENDAR\r\nNAME:x\r\nBEGIN" = none ∧ size c!"BEGIN:VCALENDAR\r\nNAME:x\r\nBEGI" = some 0 ∧
    CutNoticed .crlf c!"BEGIN:" c!"END:" c!"VCALENDAR" items ((it.text .crlf).take 61) ∧
    size ((it.text .crlf).take 61) = none ∧ size ((it.text .crlf).take 60) = some 0 ∧
    CutAfterEnd .crlf c!"BEGIN:" c!"END:" c!"VCALENDAR" items ((it.text .crlf).take 71) ∧
    size ((it.text .crlf).take 71) = some 1 ∧ size ((it.text .crlf).take 72) = some 0 ∧
    size (it.text .crlf) = some 1 := by
  refine ⟨⟨c!"NAME:x\r\nBEGIN", by decide +kernel, .inl ⟨[.prop c!"NAME" [] c!"x"], [], c!"BEGIN:", c!"END:", c!"VEVENT",
    [.prop c!"UID" [] c!"1"], c!"BEGIN", rfl, by decide +kernel, by decide +kernel, by decide +kernel, by decide +kernel⟩⟩,
    by decide +kernel, by decide +kernel, ⟨c!"NAME:x\r\nBEGIN:VEVENT\r\nUID:1\r\nEND:VEVENT\r\nEND", by decide +kernel,
      .inr ⟨c!"END", by decide +kernel, by decide +kernel, by decide +kernel, by decide +kernel⟩⟩,
    by decide +kernel, by decide +kernel, .inl (by decide +kernel), by decide +kernel, by decide +kernel, by decide +kernel⟩

end Ical
