import Verif.Proofs.ParseNames
import Verif.Proofs.UnfoldDoc

/-!
The parser on documents cut off at an arbitrary place.
-/

namespace Ical

open Nom Spec

/-- the parser did not succeed -/
def NotOk {α : Type} (r : Res α) : Prop := ∀ s a, r ≠ .ok s a

theorem notOk_error {α : Type} : NotOk (.error : Res α) := by intro s a h; cases h
theorem notOk_failure {α : Type} : NotOk (.failure : Res α) := by intro s a h; cases h

theorem prefix_append_cases {s a b : Str} (h : s <+: a ++ b) :
    (s <+: a ∧ s.length < a.length) ∨ ∃ s', s = a ++ s' ∧ s' <+: b := by
  induction a generalizing s with
  | nil => exact .inr ⟨s, rfl, by simpa using h⟩
  | cons c a ih =>
    cases s with
    | nil => exact .inl ⟨List.nil_prefix, by simp⟩
    | cons d s =>
      rw [List.cons_append, List.cons_prefix_cons] at h
      obtain ⟨rfl, h⟩ := h
      rcases ih h with ⟨h1, h2⟩ | ⟨s', rfl, h2⟩
      · exact .inl ⟨List.cons_prefix_cons.2 ⟨rfl, h1⟩, by simp; omega⟩
      · exact .inr ⟨s', rfl, h2⟩

theorem lineEnding_noLf {s : Str} (h : '\n' ∉ s) : lineEnding s = .error := by
  unfold lineEnding
  split <;> simp_all

theorem many0_lineEnding_noLf {s : Str} (h : '\n' ∉ s) : many0 lineEnding s = .ok s [] :=
  many0_error (lineEnding_noLf h)

theorem suffix_noLf {r s : Str} (h : '\n' ∉ s) (hr : r <:+ s) : '\n' ∉ r := fun hc => h (hr.mem hc)

theorem propertyRest_noLf {s : Str} (h : '\n' ∉ s) : propertyRest s = .ok [] s := by
  have h1 : findSub ['\r', '\n'] s = none := by
    induction s with
    | nil => simp [findSub]
    | cons c s ih =>
      simp at h
      rw [findSub, if_neg, ih h.2]
      intro hc
      rw [List.isPrefixOf_iff_prefix, List.cons_prefix_cons] at hc
      have := hc.2.mem (a := '\n') (by simp)
      exact h.2 this
  have h2 : findSub ['\n'] s = none := by
    induction s with
    | nil => simp [findSub]
    | cons c s ih =>
      simp at h
      rw [findSub, if_neg, ih h.2 (by
        unfold findSub at h1
        split at h1
        · cases h1
        · split at h1
          · cases h1
          · assumption)]
      simp [h.1]
  have h3 : s.takeWhile (fun _ => true) = s ∧ s.dropWhile (fun _ => true) = [] := by
    clear h h1 h2
    induction s with
    | nil => simp
    | cons c s ih => simp [ih]
  simp [propertyRest, alt, takeUntil, h1, h2, Nom.takeWhile, h3]

variable [Uni]

/-- a property read from text without LF either takes everything, or only its name -/
theorem property_noLf {s r : Str} {a : PProp} (h : '\n' ∉ s) (hp : property s = .ok r a) :
    r = [] ∨ r = s.dropWhile isKeyChar := by
  unfold property cut map pair at hp
  cases hpp : propertyParts s with
  | error => rw [hpp] at hp; cases hp
  | failure => rw [hpp] at hp; cases hp
  | ok r1 x =>
    rw [hpp] at hp
    simp only at hp
    have hr1 : '\n' ∉ r1 := suffix_noLf h (shrinks_propertyParts _ _ _ hpp)
    have : opt lineEnding r1 = .ok r1 none := by simp [opt, lineEnding_noLf hr1]
    rw [this] at hp
    cases hp
    unfold propertyParts alt at hpp
    cases hsp : separatedPair (pair (cut (preceded multispace0 propertyKey)) parameters) (tag [':'])
        propertyRest s with
    | failure => rw [hsp] at hpp; cases hpp
    | error =>
      rw [hsp] at hpp
      simp only [map, validKeySequence, Nom.takeWhile] at hpp
      cases hpp
      exact .inr rfl
    | ok r2 y =>
      rw [hsp] at hpp
      cases hpp
      left
      unfold separatedPair map pair at hsp
      have hsh : Shrinks (pair (cut (preceded multispace0 propertyKey)) parameters) :=
        shrinks_pair (shrinks_cut (shrinks_preceded (shrinks_takeWhile _) shrinks_propertyKey))
          shrinks_parameters
      cases h3 : pair (cut (preceded multispace0 propertyKey)) parameters s with
      | error => unfold pair at h3; simp [h3] at hsp
      | failure => unfold pair at h3; simp [h3] at hsp
      | ok r3 z =>
        have hr3 := suffix_noLf h (hsh _ _ _ h3)
        unfold pair at h3
        simp only [h3] at hsp
        cases h4 : tag [':'] r3 with
        | error => simp [h4] at hsp
        | failure => simp [h4] at hsp
        | ok r4 z4 =>
          have hr4 := suffix_noLf hr3 (shrinks_tag _ _ _ _ h4)
          simp only [h4, propertyRest_noLf hr4] at hsp
          cases hsp
          rfl

omit [Uni] in
theorem lineSeparated_noLf {α : Type} {p : P α} (hp : Shrinks p) {s : Str} (h : '\n' ∉ s) :
    lineSeparated p s = p s := by
  unfold lineSeparated delimited map pair
  rw [many0_lineEnding_noLf h]
  simp only
  cases hps : p s with
  | error => rfl
  | failure => rfl
  | ok r a =>
    simp only
    rw [many0_lineEnding_noLf (suffix_noLf h (hp _ _ _ hps))]

/-- a single unfinished line that is not a keyword line never closes a component -/
theorem body_noLf {n s : Str} (h : '\n' ∉ s) (he : prefixNoCase c!"END:" s = false)
    (hb : prefixNoCase c!"BEGIN:" s = false) :
    NotOk (manyTill (componentChild component) (componentEnd n) s) := by
  have step : ∀ s : Str, '\n' ∉ s → prefixNoCase c!"END:" s = false → prefixNoCase c!"BEGIN:" s = false →
      manyTill (componentChild component) (componentEnd n) s =
        match property s with
        | .ok r a =>
          if r.length = s.length then .error
          else prependChildren [.prop a] (manyTill (componentChild component) (componentEnd n) r)
        | .error => .failure
        | .failure => .failure := by
    intro s h he hb
    have hle := lineEnding_noLf h
    rw [manyTill_eq (shrinks_componentChild shrinks_component)]
    have h1 : componentEnd n s = .error := line_error hle he
    rw [h1]
    simp only
    unfold componentChild cut alt map
    rw [lineSeparated_error hle (component_error hle hb)]
    simp only [lineSeparated_noLf shrinks_property h]
    cases property s with
    | error => rfl
    | failure => rfl
    | ok r a =>
      simp only
      split
      · rfl
      · cases manyTill _ (componentEnd n) r <;> rfl
  have hnil : manyTill (componentChild component) (componentEnd n) [] = .error := body_eof n
  have hsep : ∀ s : Str, '\n' ∉ s → StopsAt isKeyChar s →
      NotOk (manyTill (componentChild component) (componentEnd n) s) := by
    intro s h hs
    have hpre : prefixNoCase c!"END:" s = false ∧ prefixNoCase c!"BEGIN:" s = false := by
      cases s with
      | nil => exact ⟨rfl, rfl⟩
      | cons c s =>
        have hc := hs c rfl
        constructor <;> (apply prefixNoCase_head_ne; intro hx)
        · have h1 : lowerAscii c = 'e' := hx.symm
          have : c = 'e' ∨ c = 'E' := by
            unfold lowerAscii at h1
            split at h1
            · rename_i hr
              simp at hr
              right
              have h3 := congrArg Char.toNat h1
              rw [char_toNat_ofNat (by unfold Nat.isValidChar; omega)] at h3
              apply Char.ext
              apply UInt32.toNat_inj.1
              have : c.toNat = 69 := by simpa using h3
              simpa using this
            · exact .inl h1
          rcases this with rfl | rfl <;> simp [isKeyChar, isAlnum_ascii] at hc
        · have h1 : lowerAscii c = 'b' := hx.symm
          have : c = 'b' ∨ c = 'B' := by
            unfold lowerAscii at h1
            split at h1
            · rename_i hr
              simp at hr
              right
              have h3 := congrArg Char.toNat h1
              rw [char_toNat_ofNat (by unfold Nat.isValidChar; omega)] at h3
              apply Char.ext
              apply UInt32.toNat_inj.1
              have : c.toNat = 66 := by simpa using h3
              simpa using this
            · exact .inl h1
          rcases this with rfl | rfl <;> simp [isKeyChar, isAlnum_ascii] at hc
    rw [step s h hpre.1 hpre.2]
    cases hp : property s with
    | error => exact notOk_failure
    | failure => exact notOk_failure
    | ok r a =>
      simp only
      have hd : s.dropWhile isKeyChar = s := (takeWhile_stop (f := isKeyChar) (a := []) (b := s) (by simp) hs).2
      rcases property_noLf h hp with rfl | hr
      · split
        · exact notOk_error
        · rw [hnil]; exact notOk_error
      · rw [hd] at hr
        rw [if_pos (by rw [hr])]
        exact notOk_error
  rw [step s h he hb]
  cases hp : property s with
  | error => exact notOk_failure
  | failure => exact notOk_failure
  | ok r a =>
    simp only
    split
    · exact notOk_error
    · rcases property_noLf h hp with rfl | hr
      · rw [hnil]; exact notOk_error
      · have hst : StopsAt isKeyChar r := by
          intro c hc
          rw [hr] at hc
          have := List.head?_dropWhile_not isKeyChar s
          rw [hc] at this
          simpa using this
        have := hsep r (suffix_noLf h (shrinks_property _ _ _ hp)) hst
        cases hm : manyTill (componentChild component) (componentEnd n) r with
        | error => exact notOk_error
        | failure => exact notOk_failure
        | ok r' x => exact absurd hm (this _ _)

omit [Uni] in
theorem prefix_mem {s t : Str} {c : Char} (h : s <+: t) (hc : c ∉ t) : c ∉ s := fun hm => hc (h.mem hm)

omit [Uni] in
theorem prefix_break_cases {br : Break} {t : Str} (h : t <+: br.text) : t = br.text ∨ '\n' ∉ t := by
  cases br with
  | crlf =>
    rcases t with _ | ⟨a, _ | ⟨b, _ | ⟨c, t⟩⟩⟩ <;> simp [Break.text, List.cons_prefix_cons] at h ⊢
    · simp [h]
    · simp [h]
  | lf =>
    rcases t with _ | ⟨a, _ | ⟨b, t⟩⟩ <;> simp [Break.text, List.cons_prefix_cons] at h ⊢
    simp [h]

omit [Uni] in
/-- a prefix that lacks the whole line break has no LF -/
theorem prefix_line_noLf {br : Break} {s l : Str} (hl : '\n' ∉ l) (h : s <+: l ++ br.text)
    (hlt : s.length < (l ++ br.text).length) : '\n' ∉ s := by
  rcases prefix_append_cases h with ⟨h1, -⟩ | ⟨t, rfl, h1⟩
  · exact prefix_mem h1 hl
  · rcases prefix_break_cases h1 with rfl | h2
    · simp at hlt
    · simp [hl, h2]

omit [Uni] in
theorem prefixNoCase_mono {k s t : Str} (h : s <+: t) (ht : prefixNoCase k t = false) :
    prefixNoCase k s = false := by
  cases hk : prefixNoCase k s with
  | false => rfl
  | true =>
    rw [prefixNoCase_iff] at hk
    obtain ⟨u, rfl⟩ := h
    have : prefixNoCase k (s ++ u) = true := by
      rw [prefixNoCase_iff]
      refine ⟨?_, by simp; omega⟩
      rw [List.take_append_of_le_length hk.2]
      exact hk.1
    rw [this] at ht
    cases ht

omit [Uni] in
/-- the end of a component when no line break follows -/
theorem componentEnd_short {e name t : Str} (he : e.map lowerAscii = c!"end:") (ht : '\n' ∉ t) :
    componentEnd name (e ++ (name ++ t)) = .ok t name := by
  refine lineSeparated_ok (keyword_lineEnding he (by decide) (by decide)) ?_ (many0_lineEnding_noLf ht)
  unfold complete preceded map pair
  rw [tagNoCase_ok (by rw [he]; decide)]
  simp [cut, tag_ok]

/-- a line that closes a component, cut off before the end of the name -/
theorem end_prefix {br : Break} {e n s : Str} (he : e.map lowerAscii = c!"end:") (hn : IsName n)
    (h : s <+: e ++ n ++ br.text) :
    NotOk (manyTill (componentChild component) (componentEnd n) s) ∨
      ∃ t, s = e ++ n ++ t ∧ t <+: br.text := by
  rcases prefix_append_cases h with ⟨h1, h1'⟩ | h1
  · left
    have hnl : '\n' ∉ s := prefix_mem h1 (by
      rw [List.mem_append, not_or]
      exact ⟨keyword_not_mem he (by decide), name_not_mem hn isKeyChar_lf⟩)
    obtain ⟨c, r, hcr, hc⟩ := keyword_head he
    have hb : prefixNoCase c!"BEGIN:" s = false := by
      cases s with
      | nil => rfl
      | cons d s =>
        rw [hcr, List.cons_append, List.cons_prefix_cons] at h1
        rw [h1.1]
        exact prefixNoCase_head_ne (by rw [hc]; decide)
    rcases prefix_append_cases h1 with ⟨h2, h2'⟩ | ⟨s', rfl, h2⟩
    · refine body_noLf hnl ?_ hb
      cases hk : prefixNoCase c!"END:" s with
      | false => rfl
      | true =>
        rw [prefixNoCase_iff] at hk
        have : e.length = 4 := by simpa using congrArg List.length he
        have := hk.2
        simp at this
        omega
    · have hle : lineEnding (e ++ s') = .error := keyword_lineEnding he (by decide) (by decide)
      have hend : componentEnd n (e ++ s') = .failure := by
        apply lineSeparated_failure hle
        unfold complete preceded map pair
        rw [tagNoCase_ok (by rw [he]; decide)]
        have : tag n s' = .error := by
          unfold tag
          rw [if_neg]
          rw [List.isPrefixOf_iff_prefix]
          intro hc
          have := hc.length_le
          simp at h1'
          omega
        simp [cut, this]
      rw [manyTill_eq (shrinks_componentChild shrinks_component), hend]
      exact notOk_failure
  · exact .inr h1

/-- a component followed by at most a part of the line break that ends it -/
theorem component_short {br : Break} {b e n t : Str} {items : List Item}
    (hok : (Item.comp b e n items).Ok br) (ht : '\n' ∉ t)
    (hq : br = .lf → '\r' ∉ b ++ n ++ br.text ++ itemsText br items ++ (e ++ n ++ t)) :
    component (b ++ n ++ br.text ++ itemsText br items ++ (e ++ n ++ t)) =
      .ok t (.mk n (itemsProps items) (itemsComps items)) := by
  simp only [Item.Ok] at hok
  have hle : lineEnding (e ++ n ++ t) = .error := by
    rw [List.append_assoc]; exact keyword_lineEnding hok.2.1 (by decide) (by decide)
  rw [component_frame hok.1 hok.2.2.1 hok.2.2.2 hle
    (by intro hbr; have := hq hbr; simp at this ⊢; simp [this])]
  have hend : componentEnd n (e ++ n ++ t) = .ok t n := by
    rw [List.append_assoc]; exact componentEnd_short hok.2.1 ht
  rw [manyTill_eq (shrinks_componentChild shrinks_component), hend]
  simp only [many0_lf_none (lineEnding_noLf ht), List.append_nil, childProps_items, childComps_items]

omit [Uni] in
theorem noLf_short {br : Break} {t : Str} (h : t <+: br.text) (hlt : t.length < br.text.length) : '\n' ∉ t := by
  rcases prefix_break_cases h with rfl | h
  · omega
  · exact h

theorem body_short {br : Break} {t n : Str} (h : t <+: br.text) (hlt : t.length < br.text.length) :
    NotOk (manyTill (componentChild component) (componentEnd n) t) := by
  apply body_noLf (noLf_short h hlt)
  · cases br <;> rcases t with _ | ⟨a, t⟩ <;>
      simp [Break.text, List.cons_prefix_cons] at h ⊢ <;> first | rfl | (rw [h.1]; rfl)
  · cases br <;> rcases t with _ | ⟨a, t⟩ <;>
      simp [Break.text, List.cons_prefix_cons] at h ⊢ <;> first | rfl | (rw [h.1]; rfl)

/-- what starts a line is no line break -/
theorem first_lineEnding {br : Break} {items : List Item} {e n : Str} {c : Char} {u s : Str}
    (h : itemsText br items ++ (e ++ n ++ br.text) = c :: u) (hi : ItemsOk br items)
    (he : e.map lowerAscii = c!"end:") : lineEnding (c :: s) = .error := by
  cases items with
  | nil =>
    obtain ⟨d, r, rfl, hd⟩ := keyword_head he
    simp [itemsText] at h
    obtain ⟨rfl, -⟩ := h
    have := lower_ne_break hd (by decide) (by decide)
    exact lineEnding_cons_error this.1 this.2
  | cons it l =>
    simp only [ItemsOk] at hi
    cases it with
    | prop key params val =>
      simp only [Item.Ok] at hi
      obtain ⟨d, r, h1, h2⟩ := lineHead_prop hi.1.1.name params val
        (br.text ++ (itemsText br l ++ (e ++ n ++ br.text)))
      have : c = d := by
        have h3 := congrArg List.head? h
        have h4 := congrArg List.head? h1
        simp only [itemsText, Item.text, List.append_assoc, List.head?_cons] at h3 h4
        simp only [h4] at h3
        simpa using h3.symm
      subst this
      exact LineHead.lineEnding ⟨c, s, rfl, h2⟩
    | comp b' e' n' l' =>
      simp only [Item.Ok] at hi
      obtain ⟨d, r, rfl, hd⟩ := keyword_head hi.1.1
      simp [itemsText, Item.text] at h
      obtain ⟨rfl, -⟩ := h
      have := lower_ne_break hd (by decide) (by decide)
      exact lineEnding_cons_error this.1 this.2

mutual
/-- a cut-off component is not read -/
theorem component_prefix {br : Break} (it : Item) {b e n : Str} {items : List Item}
    (hit : it = .comp b e n items) (hok : it.Ok br) (hc : it.Clean) {s : Str}
    (hq : br = .lf → '\r' ∉ s) (h : s <+: it.text br) :
    NotOk (component s) ∨ ∃ t, s = b ++ n ++ br.text ++ itemsText br items ++ (e ++ n ++ t) ∧ t <+: br.text := by
  match it, hit, hok, hc, h with
  | .comp b' e' n' items', hit, hok, hc, h =>
    cases hit
    have hok' := hok
    simp only [Item.Ok] at hok'
    simp only [Item.Clean] at hc
    obtain ⟨hb, he, hn, hi⟩ := hok'
    rw [Item.text, List.append_assoc] at h
    have hnl : '\n' ∉ b ++ n := by
      rw [List.mem_append, not_or]
      exact ⟨keyword_not_mem hb (by decide), name_not_mem hn isKeyChar_lf⟩
    rcases prefix_append_cases h with ⟨h1, h2⟩ | ⟨s', rfl, h1⟩
    · left
      have hs := prefix_line_noLf hnl h1 h2
      have hle := lineEnding_noLf hs
      by_cases hk : prefixNoCase c!"BEGIN:" s = true
      · rw [prefixNoCase_iff] at hk
        have hbl : b.length = 6 := by simpa using congrArg List.length hb
        rw [List.append_assoc] at h1
        rcases prefix_append_cases h1 with ⟨h3, h4⟩ | ⟨s', rfl, h3⟩
        · have := hk.2
          simp at this
          omega
        · -- the name, cut off or complete
          rw [component_eq]
          unfold componentBody
          have hline : ∃ r x, line c!"BEGIN:" validKeySequence (b ++ s') = .ok r x ∧
              r <+: br.text ∧ r.length < br.text.length := by
            rcases prefix_append_cases h3 with ⟨h5, h6⟩ | ⟨t, rfl, h5⟩
            · refine ⟨[], s', ?_, List.nil_prefix, break_length_pos br⟩
              refine lineSeparated_ok hle (r := []) ?_ rfl
              unfold complete preceded map pair
              rw [tagNoCase_ok (by rw [hb]; decide)]
              have hsn : IsName s' := fun c hc => hn c (h5.mem hc)
              have := validKeySequence_ok hsn (b := []) (by intro c hc; simp at hc)
              rw [List.append_nil] at this
              simp [this]
            · have ht : t.length < br.text.length := by simp at h2; omega
              refine ⟨t, n, ?_, h5, ht⟩
              refine lineSeparated_ok hle (r := t) ?_ (many0_lineEnding_noLf (noLf_short h5 ht))
              unfold complete preceded map pair
              rw [tagNoCase_ok (by rw [hb]; decide)]
              have := validKeySequence_ok hn (b := t) (by
                intro c hc
                have hct : c ∈ t := List.mem_of_head? hc
                have := h5.mem hct
                cases br <;> simp [Break.text] at this
                · rcases this with rfl | rfl
                  · exact isKeyChar_cr
                  · exact isKeyChar_lf
                · subst this; exact isKeyChar_lf)
              simp [this]
          obtain ⟨r, x, hl, hr, hr'⟩ := hline
          rw [hl]
          simp only
          have := body_short (n := x) hr hr'
          cases hm : manyTill (componentChild component) (componentEnd x) r with
          | error => exact notOk_error
          | failure => exact notOk_failure
          | ok r' y => exact absurd hm (this _ _)
      · rw [component_error hle (by simpa using hk)]
        exact notOk_error
    · have hle : lineEnding s' = .error := by
        cases s' with
        | nil => rfl
        | cons c s' =>
          obtain ⟨u, hu⟩ := h1
          exact first_lineEnding (by rw [← hu]; rfl) hi he
      have hf := component_frame (br := br) (items := []) hb hn trivial hle (by
        intro hbr; have := hq hbr; simp [itemsText] at this ⊢; simp [this])
      rw [itemsText, List.append_nil] at hf
      rcases items_prefix items hi hc.2 he hn
        (by intro hbr; have := hq hbr; simp at this ⊢; simp [this]) h1 with h2 | ⟨t, rfl, h2⟩
      · left
        rw [hf]
        cases hm : manyTill (componentChild component) (componentEnd n) s' with
        | error => exact notOk_error
        | failure => exact notOk_failure
        | ok r' y => exact absurd hm (h2 _ _)
      · right
        exact ⟨t, by simp, h2⟩

/-- a cut-off body is not read -/
theorem items_prefix {br : Break} (items : List Item) (hok : ItemsOk br items) (hc : ItemsClean items)
    {e n s : Str} (he : e.map lowerAscii = c!"end:") (hn : IsName n) (hq : br = .lf → '\r' ∉ s)
    (h : s <+: itemsText br items ++ (e ++ n ++ br.text)) :
    NotOk (manyTill (componentChild component) (componentEnd n) s) ∨
      ∃ t, s = itemsText br items ++ (e ++ n ++ t) ∧ t <+: br.text := by
  match items, hok, hc, h with
  | [], _, _, h => simpa [itemsText] using end_prefix he hn (by simpa [itemsText] using h)
  | it :: l, hok, hc, h =>
    simp only [ItemsOk, ItemsClean] at hok hc
    rw [itemsText, List.append_assoc] at h
    rcases prefix_append_cases h with ⟨h1, h2⟩ | ⟨s', rfl, h1⟩
    · left
      cases hit : it with
      | prop key params val =>
        rw [hit] at h1 h2 hok hc
        simp only [Item.Clean, Item.Ok] at hc hok
        have hs : '\n' ∉ s := prefix_line_noLf hc.1.2 h1 h2
        have hk := hok.1.1
        have e2 : (Item.prop key params val).text br =
            key ++ ((params.map DParam.text).flatten ++ (':' :: (val ++ br.text))) := by simp [Item.text]
        rw [e2] at h1
        refine body_noLf hs ?_ ?_
        · exact prefixNoCase_mono h1 (keyOk_line hk params val br.text (t := c!"END") (.inl rfl))
        · exact prefixNoCase_mono h1 (keyOk_line hk params val br.text (t := c!"BEGIN") (.inr rfl))
      | comp b' e' n' items' =>
        have hcp := component_prefix it hit hok.1 hc.1 hq h1
        rw [hit] at h1 h2 hok hc
        simp only [Item.Clean] at hc
        have hok' := hok.1
        simp only [Item.Ok] at hok'
        obtain ⟨⟨rfl, -⟩, -⟩ := hc
        have hend : prefixNoCase c!"END:" s = false := by
          refine prefixNoCase_mono h1 ?_
          simp only [Item.text, List.cons_append]
          exact prefixNoCase_head_ne (by decide)
        have hle : lineEnding s = .error := by
          cases s with
          | nil => rfl
          | cons c s =>
            simp only [Item.text, List.cons_append, List.cons_prefix_cons] at h1
            rw [h1.1]
            exact lineEnding_cons_error (by decide) (by decide)
        by_cases hk : prefixNoCase c!"BEGIN:" s = true
        · have hkb : c!"BEGIN" <+: s := by
            have hlen := ((prefixNoCase_iff _ _).1 hk).2
            obtain ⟨u, hu⟩ := h1
            have : s = (s ++ u).take s.length := by simp
            rw [this, hu, Item.text]
            rw [List.append_assoc, List.append_assoc, List.append_assoc]
            rw [List.prefix_take_iff]
            simp at hlen ⊢
            omega
          rw [manyTill_eq (shrinks_componentChild shrinks_component)]
          have he1 : componentEnd n s = .error := line_error hle hend
          rw [he1]
          simp only
          rcases hcp with hcp | ⟨t, rfl, ht⟩
          · cases hco : component s with
            | ok r x => exact absurd hco (hcp _ _)
            | error =>
              rw [child_unclosed hkb hco]
              exact notOk_failure
            | failure =>
              have : componentChild component s = .failure := by
                unfold componentChild cut alt map
                rw [lineSeparated_failure hle hco]
              rw [this]
              exact notOk_failure
          · have htl : t.length < br.text.length := by
              simp [Item.text] at h2; omega
            have hco := component_short hok.1 (noLf_short ht htl) hq
            have : componentChild component (c!"BEGIN:" ++ n' ++ br.text ++ itemsText br items' ++ (e' ++ n' ++ t)) =
                .ok t (.comp (.mk n' (itemsProps items') (itemsComps items'))) := by
              unfold componentChild cut alt map
              rw [lineSeparated_ok hle hco (many0_lineEnding_noLf (noLf_short ht htl))]
            rw [this]
            simp only
            split
            · exact notOk_error
            · have := body_short (n := n) ht htl
              cases hm : manyTill (componentChild component) (componentEnd n) t with
              | error => exact notOk_error
              | failure => exact notOk_failure
              | ok r' y => exact absurd hm (this _ _)
        · refine body_noLf ?_ hend (by simpa using hk)
          have hb' : '\n' ∉ c!"BEGIN:" := by decide
          simp only [Item.text, List.append_assoc] at h1
          rcases prefix_append_cases h1 with ⟨h3, -⟩ | ⟨s', rfl, h3⟩
          · exact prefix_mem h3 hb'
          · exact absurd (by rw [prefixNoCase_iff]; simp) hk
    · have hle : lineEnding s' = .error := by
        cases s' with
        | nil => rfl
        | cons c s' =>
          obtain ⟨u, hu⟩ := h1
          exact first_lineEnding (by rw [← hu]; rfl) hok.2 he
      have hb := body_append (br := br) (items := [it]) ⟨hok.1, trivial⟩ (name := n) hle
        (by simpa [itemsText] using hq)
      simp only [itemsText, List.append_nil] at hb
      rw [hb]
      rcases items_prefix l hok.2 hc.2 he hn
        (by intro hbr; have := hq hbr; simp at this ⊢; simp [this]) h1 with h2 | ⟨t, rfl, h2⟩
      · left
        cases hm : manyTill (componentChild component) (componentEnd n) s' with
        | error => exact notOk_error
        | failure => exact notOk_failure
        | ok r' y => exact absurd hm (h2 _ _)
      · right
        exact ⟨t, by simp [itemsText], h2⟩
end

end Ical
