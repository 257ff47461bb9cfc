import Verif.Props.Truncated
import Verif.Props.Presentation
import Verif.Proofs.CalendarIO
import Verif.Props.Print
import Verif.Props.Nesting

/-!
C18: what exactly becomes of a folded file, in particular of a serialized calendar, that was cut off, be it inside a fold marker.
-/

namespace Ical

open Nom Spec

/-- what may be left of a fold marker -/
def MarkPart (m : Str) : Prop := m = [] ∨ m = ['\r'] ∨ m = ['\n'] ∨ m = ['\r', '\n']

/-- a text in which nothing follows the first LF -/
def LfLast (s : Str) : Prop := ∀ a b : Str, s = a ++ '\n' :: b → b = []

theorem lfLast_append {u m : Str} (h : '\n' ∉ u) (hm : MarkPart m) : LfLast (u ++ m) := by
  intro a b hab
  induction u generalizing a with
  | nil =>
    rcases hm with rfl | rfl | rfl | rfl
    · simp at hab
    · rcases a with _ | ⟨c, a⟩ <;> simp at hab
    · rcases a with _ | ⟨c, a⟩ <;> simp at hab
      exact hab
    · rcases a with _ | ⟨c, _ | ⟨d, a⟩⟩ <;> simp at hab
      exact hab.2
  | cons c u ih =>
    simp at h
    cases a with
    | nil => simp at hab; exact absurd hab.1.symm h.1
    | cons d a =>
      simp at hab
      exact ih h.2 a hab.2

theorem lfLast_suffix {s r : Str} (h : LfLast s) (hr : r <:+ s) : LfLast r := by
  obtain ⟨x, rfl⟩ := hr
  intro a b hab
  exact h (x ++ a) b (by rw [hab]; simp)

theorem blank_part {m : Str} (h : m = ['\n'] ∨ m = ['\r', '\n']) : Blank m := by
  rcases h with rfl | rfl
  · exact ⟨[.lf], rfl⟩
  · exact ⟨[.crlf], rfl⟩

theorem prefixNoCase_part {k t m : Str} (hm : MarkPart m) (hk : ∀ c ∈ k, lowerAscii c ≠ '\r' ∧ lowerAscii c ≠ '\n')
    (h : prefixNoCase k t = false) : prefixNoCase k (t ++ m) = false := by
  induction k generalizing t with
  | nil => simp [prefixNoCase] at h
  | cons x k ih =>
    cases t with
    | nil =>
      have hx := hk x (by simp)
      rcases hm with rfl | rfl | rfl | rfl
      · rfl
      all_goals
        rw [List.nil_append]
        refine prefixNoCase_head_ne ?_
        first
        | exact fun hc => hx.1 hc.symm
        | exact fun hc => hx.2 hc.symm
        | exact fun hc => hx.1 hc
        | exact fun hc => hx.2 hc
    | cons d t =>
      simp only [prefixNoCase, List.cons_append, Bool.and_eq_false_iff] at h ⊢
      rcases h with h | h
      · exact .inl h
      · exact .inr (ih (fun c hc => hk c (by simp [hc])) h)

theorem prefix_part {w t m : Str} (hm : MarkPart m) (hw : '\r' ∉ w ∧ '\n' ∉ w) (h : w <+: t ++ m) : w <+: t := by
  rcases prefix_append_cases h with ⟨h1, -⟩ | ⟨s', rfl, h1⟩
  · exact h1
  · cases s' with
    | nil => simp
    | cons c s' =>
      have hc := h1.mem (a := c) (by simp)
      have h2 : c ≠ '\r' ∧ c ≠ '\n' :=
        ⟨fun hc => hw.1 (by rw [← hc]; simp), fun hc => hw.2 (by rw [← hc]; simp)⟩
      rcases hm with rfl | rfl | rfl | rfl <;> simp [h2.1, h2.2] at hc

theorem keyword_part {t m : Str} (hm : MarkPart m) (h : Keyword (t ++ m)) : Keyword t := by
  obtain ⟨white, s, h1, h2, h3⟩ := h
  rcases List.append_eq_append_iff.1 h2 with ⟨a, rfl, rfl⟩ | ⟨a, rfl, rfl⟩
  · exfalso
    have hs : ∀ w : Str, w ≠ [] → '\r' ∉ w ∧ '\n' ∉ w → ¬ w <+: s := by
      intro w hne hw hc
      obtain ⟨c, w', rfl⟩ := List.exists_cons_of_ne_nil hne
      have : c ∈ a ++ s := List.mem_append_right _ (hc.mem (by simp))
      have h2 : c ≠ '\r' ∧ c ≠ '\n' :=
        ⟨fun hc => hw.1 (by rw [← hc]; simp), fun hc => hw.2 (by rw [← hc]; simp)⟩
      rcases hm with hm | hm | hm | hm <;> rw [hm] at this <;> simp [h2.1, h2.2] at this
    exact h3.elim (hs _ (by decide) (by decide)) (hs _ (by decide) (by decide))
  · exact ⟨white, a, h1, rfl, h3.imp (prefix_part hm (by decide)) (prefix_part hm (by decide))⟩

variable [Uni]

theorem dropWhile_part {t m : Str} (hm : MarkPart m) :
    (t ++ m).dropWhile isKeyChar = t.dropWhile isKeyChar ++ m := by
  induction t with
  | nil =>
    rcases hm with rfl | rfl | rfl | rfl
    · rfl
    all_goals
      rw [List.nil_append, List.dropWhile_nil, List.nil_append, List.dropWhile_cons_of_neg]
      first | (rw [isKeyChar_cr]; decide) | (rw [isKeyChar_lf]; decide)
  | cons c t ih =>
    simp only [List.cons_append, List.dropWhile_cons]
    split
    · exact ih
    · rfl

/-- a property read from a single line takes everything, or only its name -/
theorem property_lfLast {s r : Str} {a : PProp} (h : LfLast s) (hp : property s = .ok r a) :
    r = [] ∨ (r = s.dropWhile isKeyChar ∧ NoBreak r) := by
  have hk : ¬ Keyword s := by
    intro hc
    rw [keyword_fails hc] at hp
    cases hp
  obtain ⟨p, t, f, rfl, hpi⟩ := prop_total hk
  have hr := propIs_reads hpi
  rw [hr] at hp
  cases hp
  obtain ⟨h1, -, h2 | h2⟩ := hpi
  · obtain ⟨white, params, raw, br, -, -, h3, -, rfl⟩ := h2
    left
    rcases h3 with ⟨rfl, -⟩ | ⟨rfl, -⟩ | ⟨-, -, h3⟩
    · exact h (white ++ a.name ++ params ++ ':' :: raw ++ ['\r']) r (by simp)
    · exact h (white ++ a.name ++ params ++ ':' :: raw) r (by simp)
    · exact h3
  · obtain ⟨-, -, -, br, rfl, h3, h4⟩ := h2
    rcases h4 with rfl | rfl | ⟨rfl, h4⟩
    · exact .inl (h (a.name ++ ['\r']) r (by simp))
    · exact .inl (h a.name r (by simp))
    · right
      refine ⟨?_, h4⟩
      rw [List.append_nil]
      exact ((takeWhile_stop (f := isKeyChar) (a := a.name) (b := r) (fun c hc => (isKeyChar_iff c).2 (h1 c hc))
        (first_name.1 (by simpa using h3))).2).symm

/-- one step on a single line that is not a keyword line -/
theorem lfLast_step {n s : Str} (h : LfLast s) (hb0 : NoBreak s) (he : prefixNoCase c!"END:" s = false)
    (hb : prefixNoCase c!"BEGIN:" s = false) (hk : ¬ Keyword s) : ∃ r a, property s = .ok r a ∧
      manyTill (componentChild component) (componentEnd n) s =
        if r.length = s.length then .error
        else prependChildren [.prop a] (manyTill (componentChild component) (componentEnd n) r) := by
  obtain ⟨p, t, f, rfl, hp⟩ := prop_total hk
  refine ⟨f, p, propIs_reads hp, ?_⟩
  have hle := noBreak_iff.1 hb0
  have hf : lineEnding f = .error := by
    rcases property_lfLast h (propIs_reads hp) with rfl | ⟨-, h1⟩
    · rfl
    · exact noBreak_iff.1 h1
  rw [manyTill_eq (shrinks_componentChild shrinks_component)]
  have h1 : componentEnd n (t ++ f) = .error := line_error hle he
  rw [h1]
  simp only
  unfold componentChild cut alt map
  rw [lineSeparated_error hle (component_error hle hb)]
  simp only [lineSeparated_ok hle (propIs_reads hp) (many0_lineEnding_none hf)]
  split
  · rfl
  · cases manyTill _ (componentEnd n) f <;> rfl

/-- a single line that does not start like a keyword is read, and then the END line is missing -/
theorem lfLast_error {n s : Str} (h : LfLast s) (hb0 : NoBreak s) (he : prefixNoCase c!"END:" s = false)
    (hb : prefixNoCase c!"BEGIN:" s = false) (hk : ¬ Keyword s) (hr : ¬ Keyword (s.dropWhile isKeyChar)) :
    manyTill (componentChild component) (componentEnd n) s = .error := by
  obtain ⟨r, a, hp, hs⟩ := lfLast_step (n := n) h hb0 he hb hk
  rw [hs]
  split
  · rfl
  · rcases property_lfLast h hp with rfl | ⟨hre, hbr⟩
    · rw [body_eof]; rfl
    · rw [← hre] at hr
      have hst : First (fun c => ¬ NameChar c) r := by
        rw [first_name]
        intro c hc
        rw [hre] at hc
        have := List.head?_dropWhile_not isKeyChar s
        rw [hc] at this
        simpa using this
      have hno := nameless hst
      obtain ⟨r', a', hp', hs'⟩ := lfLast_step (n := n) (lfLast_suffix h (shrinks_property _ _ _ hp)) hbr
        (by simpa using fun hc => hno.2 (begins_end.1 hc)) (by simpa using fun hc => hno.1 (begins_begin.1 hc)) hr
      rw [hs']
      split
      · rfl
      · rename_i hne
        rcases property_lfLast (lfLast_suffix h (shrinks_property _ _ _ hp)) hp' with rfl | ⟨hre', -⟩
        · rw [body_eof]; rfl
        · exfalso
          apply hne
          have hd : r.dropWhile isKeyChar = r :=
            (takeWhile_stop (f := isKeyChar) (a := []) (b := r) (by simp) (first_name.1 hst)).2
          rw [hre', hd]

/-- the same, for a line and a part of a fold marker -/
theorem line_part_error {n t m : Str} (ht : '\n' ∉ t) (hm : MarkPart m) (hb0 : NoBreak (t ++ m))
    (he : prefixNoCase c!"END:" t = false) (hb : prefixNoCase c!"BEGIN:" t = false) (hk : ¬ Keyword t)
    (hr : ¬ Keyword (t.dropWhile isKeyChar)) :
    manyTill (componentChild component) (componentEnd n) (t ++ m) = .error :=
  lfLast_error (lfLast_append ht hm) hb0 (prefixNoCase_part hm (by decide) he) (prefixNoCase_part hm (by decide) hb)
    (fun hc => hk (keyword_part hm hc)) (by rw [dropWhile_part hm]; exact fun hc => hr (keyword_part hm hc))

/-- only line breaks -/
theorem body_blank {bl n : Str} (hb : Blank bl) : manyTill (componentChild component) (componentEnd n) bl = .error := by
  by_cases hne : bl = []
  · subst hne; exact body_eof n
  · have hsep : ∀ {α : Type} (p : P α), lineSeparated p bl =
        match p [] with
        | .ok r a => (match many0 lineEnding r with
          | .ok r' _ => .ok r' a
          | .error => .error
          | .failure => .failure)
        | .error => .error
        | .failure => .failure := by
      intro α p
      obtain ⟨l, hl⟩ := many0_blank hb (r := []) rfl
      rw [List.append_nil] at hl
      unfold lineSeparated delimited map pair
      rw [hl]
      simp only
      cases p [] with
      | ok r a => simp only; cases many0 lineEnding r <;> rfl
      | error => rfl
      | failure => rfl
    have hend : componentEnd n bl = .error := by
      unfold componentEnd line
      rw [hsep]
      rfl
    obtain ⟨r, a, hp, -⟩ := lfLast_step (n := n) (s := []) (by intro a b h; simp at h) (noBreak_iff.2 rfl) rfl rfl notKeyword_nil
    have hr : r = [] := by
      have := shrinks_property _ _ _ hp
      simpa using this
    subst hr
    have hch : componentChild component bl = .ok [] (.prop a) := by
      unfold componentChild cut alt map
      rw [hsep, hsep, component_error rfl rfl, hp]
      rfl
    rw [manyTill_eq (shrinks_componentChild shrinks_component), hend]
    simp only [hch, body_eof]
    split <;> rfl

/-- nothing but a part of a fold marker -/
theorem body_part {m n : Str} (hm : MarkPart m) : manyTill (componentChild component) (componentEnd n) m = .error := by
  rcases hm with rfl | rfl | hm
  · exact body_eof n
  · exact body_cr n
  · exact body_blank (blank_part hm)

/-- what may be left of a fold marker and a line break in front of it, after the line breaks -/
def Rest (r : Str) : Prop := r = [] ∨ r = ['\r'] ∨ r = ['\r', '\r'] ∨ r = ['\r', '\r', '\n']

omit [Uni] in
theorem rest_lineEnding {r : Str} (h : Rest r) : lineEnding r = .error := by
  rcases h with rfl | rfl | rfl | rfl <;> rfl

omit [Uni] in
theorem prefix_break_list {br : Break} {u : Str} (hu : u <+: br.text) : u = [] ∨ u = ['\r'] ∨ Blank u := by
  cases br with
  | crlf =>
    rcases u with _ | ⟨a, _ | ⟨b, _ | ⟨c, u⟩⟩⟩
    · exact .inl rfl
    · simp [Break.text, List.cons_prefix_cons] at hu; subst hu; exact .inr (.inl rfl)
    · simp [Break.text, List.cons_prefix_cons] at hu
      obtain ⟨rfl, rfl⟩ := hu
      exact .inr (.inr ⟨[.crlf], rfl⟩)
    · simp [Break.text, List.cons_prefix_cons] at hu
  | lf =>
    rcases u with _ | ⟨a, _ | ⟨b, u⟩⟩
    · exact .inl rfl
    · simp [Break.text] at hu
      subst hu
      exact .inr (.inr ⟨[.lf], rfl⟩)
    · simp [Break.text, List.cons_prefix_cons] at hu

omit [Uni] in
/-- a part of a line break and a part of a fold marker: line breaks, and what cannot be one -/
theorem tail_split {br : Break} {u m : Str} (hu : u <+: br.text) (hm : MarkPart m) :
    ∃ bl r, u ++ m = bl ++ r ∧ Blank bl ∧ Rest r := by
  rcases prefix_break_list hu with rfl | rfl | hb
  · rcases hm with rfl | rfl | hm
    · exact ⟨[], [], rfl, blank_nil, .inl rfl⟩
    · exact ⟨[], ['\r'], rfl, blank_nil, .inr (.inl rfl)⟩
    · exact ⟨m, [], by simp, blank_part hm, .inl rfl⟩
  · rcases hm with rfl | rfl | rfl | rfl
    · exact ⟨[], ['\r'], rfl, blank_nil, .inr (.inl rfl)⟩
    · exact ⟨[], ['\r', '\r'], rfl, blank_nil, .inr (.inr (.inl rfl))⟩
    · exact ⟨['\r', '\n'], [], rfl, blank_part (.inr rfl), .inl rfl⟩
    · exact ⟨[], ['\r', '\r', '\n'], rfl, blank_nil, .inr (.inr (.inr rfl))⟩
  · rcases hm with rfl | rfl | hm
    · exact ⟨u, [], rfl, hb, .inl rfl⟩
    · exact ⟨u, ['\r'], rfl, hb, .inr (.inl rfl)⟩
    · exact ⟨u ++ m, [], by simp, blank_append hb (blank_part hm), .inl rfl⟩

omit [Uni] in
theorem blank_rest {bl r bl' : Str} (hb : Blank bl) (hr : Rest r) (h : bl ++ r = bl') (hb' : Blank bl') : r = [] := by
  obtain ⟨l, h1⟩ := many0_blank hb (rest_lineEnding hr)
  obtain ⟨l', h2⟩ := many0_blank hb' (r := []) rfl
  rw [List.append_nil, ← h, h1] at h2
  exact (Res.ok.inj h2).1

theorem rest_body {n r : Str} (h : Rest r) : manyTill (componentChild component) (componentEnd n) r = .error := by
  rcases h with rfl | h
  · exact body_eof n
  · have hd : r.dropWhile isKeyChar = r := by
      rcases h with rfl | rfl | rfl <;> rw [List.dropWhile_cons_of_neg (by rw [isKeyChar_cr]; decide)]
    have hl : LfLast r := by
      rcases h with rfl | rfl | rfl
      · exact lfLast_append (u := ['\r']) (m := []) (by decide) (.inl rfl)
      · exact lfLast_append (u := ['\r', '\r']) (m := []) (by decide) (.inl rfl)
      · exact lfLast_append (u := ['\r', '\r']) (m := ['\n']) (by decide) (.inr (.inr (.inl rfl)))
    have hk : ¬ Keyword r := by
      rintro ⟨white, t, -, h2, h3⟩
      have : ∀ c ∈ t, c = '\r' ∨ c = '\n' := by
        intro c hc
        have : c ∈ r := by rw [h2]; simp [hc]
        rcases h with rfl | rfl | rfl <;> simp at this <;> simp [this]
      rcases h3 with ⟨u, rfl⟩ | ⟨u, rfl⟩
      · exact absurd (this 'E' (by simp)) (by decide)
      · exact absurd (this 'B' (by simp)) (by decide)
    refine lfLast_error hl (noBreak_iff.2 (rest_lineEnding (.inr h))) ?_ ?_ hk (by rw [hd]; exact hk)
    all_goals rcases h with rfl | rfl | rfl <;> rfl

/-- nothing but line breaks is no component -/
theorem component_blank {bl : Str} (hb : Blank bl) : component bl = .error := by
  rw [component_eq]
  unfold componentBody
  have : line c!"BEGIN:" validKeySequence bl = .error := by
    obtain ⟨l, hl⟩ := many0_blank hb (r := []) rfl
    rw [List.append_nil] at hl
    unfold line lineSeparated delimited map pair
    rw [hl]
    rfl
  rw [this]

omit [Uni] in
theorem lineEnding_part {s m : Str} (hs : s ≠ []) (h : ∀ c, s.head? = some c → c ≠ '\r' ∧ c ≠ '\n') :
    lineEnding (s ++ m) = .error := by
  cases s with
  | nil => exact absurd rfl hs
  | cons c s =>
    have := h c rfl
    exact lineEnding_cons_error this.2 this.1

omit [Uni] in
theorem head_of_prefix {s t : Str} (h : s <+: t) {c : Char} (hc : s.head? = some c) : t.head? = some c := by
  obtain ⟨u, rfl⟩ := h
  cases s with
  | nil => cases hc
  | cons d s => exact hc

/-- a line of a body does not begin with a line break -/
theorem items_head {br : Break} {items : List Item} {e n : Str} (hi : ItemsOk br items)
    (he : e.map lowerAscii = c!"end:") {c : Char} (h : (itemsText br items ++ (e ++ n)).head? = some c) :
    c ≠ '\r' ∧ c ≠ '\n' := by
  have hc : ∀ s : Str, lineEnding (c :: s) = .error := by
    intro s
    cases hx : itemsText br items ++ (e ++ n) with
    | nil => rw [hx] at h; cases h
    | cons d u =>
      rw [hx] at h
      cases h
      exact first_lineEnding (br := br) (items := items) (e := e) (n := n) (u := u ++ br.text)
        (by rw [← List.append_assoc, hx]; rfl) hi he
  constructor
  · rintro rfl; exact absurd (hc ['\n']) (by decide)
  · rintro rfl; exact absurd (hc []) (by decide)

/-- a part of a keyword, and a part of a fold marker -/
theorem keyword_part_error {k n s m : Str} {w : Str} (hm : MarkPart m) (hk : k.map lowerAscii = w)
    (hw : ∀ c ∈ w, 97 ≤ c.toNat ∧ c.toNat ≤ 122)
    (hs : s <+: k) (he : ¬ c!"END" <+: s) (hb : ¬ c!"BEGIN" <+: s)
    (he' : prefixNoCase c!"END:" s = false) (hb' : prefixNoCase c!"BEGIN:" s = false) :
    manyTill (componentChild component) (componentEnd n) (s ++ m) = .error := by
  by_cases hne : s = []
  · subst hne; exact body_part hm
  have hn : IsName s := by
    intro c hc
    have hm : lowerAscii c ∈ w := by
      rw [← hk]
      exact List.mem_map_of_mem (hs.mem hc)
    exact letter_nameChar (hw _ hm) rfl
  have hsp : ∀ c, s.head? = some c → ¬ Space c := by
    intro c hc hsp
    have := (isKeyChar_iff c).2 (hn c (List.mem_of_head? hc))
    rcases hsp with rfl | rfl | rfl | rfl <;> simp [isKeyChar, isAlnum_ascii] at this
  refine line_part_error (name_not_mem hn isKeyChar_lf) hm (noBreak_iff.2 (lineEnding_part hne ?_)) he' hb'
    (notKeyword_of hsp he hb) (by rw [dropWhile_name hn]; exact notKeyword_nil)
  intro c hc
  have := hsp c hc
  unfold Space at this
  simp only [not_or] at this
  exact ⟨this.2.2.1, this.2.2.2⟩

/-- a complete item, and a part of a fold marker -/
theorem item_part {br : Break} {it : Item} (hok : it.Ok br) {n m : Str} (hm : MarkPart m)
    (hq : br = .lf → '\r' ∉ it.text br ++ m) :
    manyTill (componentChild component) (componentEnd n) (it.text br ++ m) = .error := by
  by_cases hb : m = ['\n'] ∨ m = ['\r', '\n']
  · have hbl := blank_part hb
    have hle : lineEnding (it.text br ++ m) = .error := spaced_lineEnding hok (spaced_self br it) m
    have hend : componentEnd n (it.text br ++ m) = .error ∧
        ∃ x, componentChild component (it.text br ++ m) = .ok [] x := by
      cases it with
      | prop key params val =>
        simp only [Item.Ok] at hok
        obtain ⟨hk, hp, hv⟩ := hok
        have e2 : (Item.prop key params val).text br ++ m =
            key ++ ((params.map DParam.text).flatten ++ (':' :: (val ++ (br.text ++ m)))) := by simp [Item.text]
        have h1 := keyOk_line hk params val (br.text ++ m) (t := c!"END") (.inl rfl)
        have h2 := keyOk_line hk params val (br.text ++ m) (t := c!"BEGIN") (.inr rfl)
        rw [← e2] at h1 h2
        refine ⟨line_error hle h1, .prop (meaningProp key params val), ?_⟩
        have hpr := property_ok (r := m) hk.name hk.notEnd hk.notBegin hp hv (by
          intro hbr; have := hq hbr; simp [Item.text] at this ⊢; simp [this])
        unfold componentChild cut alt map
        rw [lineSeparated_error hle (component_error hle h2)]
        have := lineSeparated_blank (p := property) blank_nil (i := (Item.prop key params val).text br ++ m) hle
          (bl := m) (r := []) (by rw [List.append_nil]; exact hpr) hbl rfl
        rw [List.nil_append] at this
        simp only [this]
      | comp b e name items =>
        have hok' := hok
        simp only [Item.Ok] at hok'
        have he1 : prefixNoCase c!"END:" ((Item.comp b e name items).text br ++ m) = false := by
          obtain ⟨d, r, rfl, hd⟩ := keyword_head hok'.1
          simp only [Item.text, List.cons_append]
          refine prefixNoCase_head_ne ?_
          rw [hd]
          decide
        refine ⟨line_error hle he1, .comp (.mk name (itemsProps items) (itemsComps items)), ?_⟩
        have e2 : (Item.comp b e name items).text br ++ m = [] ++ (b ++ (name ++ (br.text ++ [] ++ (itemsText br items ++
          (e ++ (name ++ ((br.text ++ m) ++ []))))))) := by simp [Item.text]
        have hco := component_spaced hok (lead := []) (bl := []) (tail := br.text ++ m) (r := []) blank_nil blank_nil
          (spacedAll_self br items) (blank_break br hbl) rfl (by rw [← e2]; exact hq)
        rw [← e2] at hco
        unfold componentChild cut alt map
        rw [lineSeparated_ok hle hco rfl]
    obtain ⟨h1, x, h2⟩ := hend
    rw [manyTill_eq (shrinks_componentChild shrinks_component), h1]
    simp only [h2, body_eof]
    split <;> rfl
  · have hle : lineEnding m = .error := by
      rcases hm with rfl | rfl | hm
      · rfl
      · rfl
      · exact absurd hm hb
    have := body_append (br := br) (items := [it]) ⟨hok, trivial⟩ (name := n) hle (by simpa [itemsText] using hq)
    simp only [itemsText, List.append_nil] at this
    rw [this, body_part hm]
    rfl

/-- a body that was cut off anywhere, with a part of a fold marker -/
theorem items_part {br : Break} {e n : Str} (he : e.map lowerAscii = c!"end:") {m : Str} (hm : MarkPart m) :
    ∀ (items : List Item), ItemsOk br items → ItemsNoLf items → ∀ s : Str, (br = .lf → '\r' ∉ s ++ m) →
      s <+: itemsText br items ++ (e ++ n) → s.length < (itemsText br items ++ (e ++ n)).length →
      InsideComponent br items s ∨ InsideEnd br items e n s ∨
        manyTill (componentChild component) (componentEnd n) (s ++ m) = .error := by
  intro items
  induction items with
  | nil =>
    intro _ _ s hq h hlt
    simp only [itemsText, List.nil_append] at h hlt
    by_cases hE : c!"END" <+: s ∨ e <+: s
    · exact .inr (.inl ⟨s, by simp [itemsText], hE, h, hlt⟩)
    · right; right
      rw [not_or] at hE
      have hel : e.length = 4 := by simpa using congrArg List.length he
      rcases prefix_append_cases h with ⟨h1, h2⟩ | ⟨u, rfl, -⟩
      · have hs3 : s <+: e.take 3 := by
          rw [List.prefix_take_iff]
          exact ⟨h1, by omega⟩
        refine keyword_part_error hm (k := e.take 3) (w := c!"end") ?_ (by decide) hs3 hE.1 ?_
          (prefixNoCase_short (by simp; omega)) (prefixNoCase_short (by simp; omega))
        · rw [List.map_take, he]; rfl
        · intro hc
          have := hc.length_le
          simp at this
          omega
      · exact absurd (List.prefix_append _ _) hE.2
  | cons it l ih =>
    intro hok hc s hq h hlt
    have hok0 := hok
    simp only [ItemsOk, ItemsNoLf] at hok hc
    by_cases hne : s = []
    · subst hne
      exact .inr (.inr (body_part hm))
    have hle : lineEnding (s ++ m) = .error :=
      lineEnding_part hne (fun c hc => items_head hok0 he (head_of_prefix h hc))
    rw [itemsText, List.append_assoc] at h hlt
    rcases prefix_append_cases h with ⟨h1, h2⟩ | ⟨s', rfl, h1⟩
    · cases it with
      | prop key params val =>
        right; right
        simp only [Item.NoLf, Item.Ok] at hc hok
        have hs : '\n' ∉ s := prefix_line_noLf hc.1 h1 h2
        have hk := hok.1.1
        have e2 : (Item.prop key params val).text br =
            key ++ ((params.map DParam.text).flatten ++ (':' :: (val ++ br.text))) := by simp [Item.text]
        rw [e2] at h1
        obtain ⟨h3, h4⟩ := prop_prefix hk params val br.text h1
        exact line_part_error hs hm (noBreak_iff.2 hle)
          (prefixNoCase_mono h1 (keyOk_line hk params val br.text (t := c!"END") (.inl rfl)))
          (prefixNoCase_mono h1 (keyOk_line hk params val br.text (t := c!"BEGIN") (.inr rfl))) h3 h4
      | comp b' e' n' sub =>
        have hok' := hok.1
        simp only [Item.Ok] at hok'
        have hcl := hc.1
        simp only [Item.NoLf] at hcl
        obtain ⟨rfl, -⟩ := hcl
        have htext : (Item.comp c!"BEGIN:" e' n' sub).text br =
            (c!"BEGIN:" ++ n' ++ br.text ++ itemsText br sub ++ (e' ++ n')) ++ br.text := by
          simp [Item.text]
        by_cases hb : c!"BEGIN" <+: s
        · rw [htext] at h1 h2
          rcases prefix_append_cases h1 with ⟨h3, h4⟩ | ⟨u, rfl, h3⟩
          · exact .inl ⟨[], l, _, e', n', sub, s, rfl, by simp [itemsText], hb, h3, h4⟩
          · right; right
            obtain ⟨bl, r, hsplit, hbl, hr⟩ := tail_split h3 hm
            have e3 : c!"BEGIN:" ++ n' ++ br.text ++ itemsText br sub ++ (e' ++ n') ++ u ++ m =
                [] ++ (c!"BEGIN:" ++ (n' ++ (br.text ++ [] ++ (itemsText br sub ++ (e' ++ (n' ++ (bl ++ r))))))) := by
              rw [← hsplit]; simp
            have hco := component_spaced hok.1 (lead := []) (bl := []) (tail := bl) (r := r) blank_nil blank_nil
              (spacedAll_self br sub) hbl (rest_lineEnding hr) (by rw [← e3]; exact hq)
            rw [← e3] at hco
            have he1 : componentEnd n (c!"BEGIN:" ++ n' ++ br.text ++ itemsText br sub ++ (e' ++ n') ++ u ++ m) = .error :=
              line_error hle (prefixNoCase_head_ne (by decide))
            rw [manyTill_eq (shrinks_componentChild shrinks_component), he1]
            simp only
            have hch : componentChild component
                (c!"BEGIN:" ++ n' ++ br.text ++ itemsText br sub ++ (e' ++ n') ++ u ++ m) =
                .ok r (.comp (.mk n' (itemsProps sub) (itemsComps sub))) := by
              unfold componentChild cut alt map
              rw [lineSeparated_ok hle hco (many0_lineEnding_none (rest_lineEnding hr))]
            rw [hch]
            simp only [rest_body hr]
            split <;> rfl
        · right; right
          have hs5 : s <+: c!"BEGIN" ∧ s.length < 5 := by
            have e3 : (Item.comp c!"BEGIN:" e' n' sub).text br =
                c!"BEGIN" ++ (':' :: (n' ++ br.text ++ itemsText br sub ++ (e' ++ n') ++ br.text)) := by
              simp [Item.text]
            rw [e3] at h1
            rcases prefix_append_cases h1 with ⟨h3, h4⟩ | ⟨u, rfl, -⟩
            · exact ⟨h3, h4⟩
            · exact absurd (List.prefix_append _ _) hb
          refine keyword_part_error hm (k := c!"BEGIN") (w := c!"begin") (by decide) (by decide) hs5.1 ?_ hb ?_
            (prefixNoCase_short (by simp; omega))
          · rintro ⟨u, rfl⟩
            have := hs5.1
            rw [List.cons_append, List.cons_prefix_cons] at this
            exact absurd this.1 (by decide)
          · refine prefixNoCase_mono hs5.1 rfl
    · by_cases hs' : s' = []
      · subst hs'
        rw [List.append_nil] at hq ⊢
        exact .inr (.inr (item_part hok.1 hm hq))
      have hle' : lineEnding (s' ++ m) = .error :=
        lineEnding_part hs' (fun c hc => items_head hok.2 he (head_of_prefix h1 hc))
      have hb := body_append (br := br) (items := [it]) ⟨hok.1, trivial⟩ (name := n) hle'
        (by simpa [itemsText] using hq)
      simp only [itemsText, List.append_nil] at hb
      rcases ih hok.2 hc.2 s' (by intro hbr; have := hq hbr; simp at this ⊢; simp [this]) h1
        (by simp at hlt ⊢; omega) with h2 | h2 | h2
      · left
        obtain ⟨l1, l2, b, e', m, sub, t, rfl, rfl, h3, h4, h5⟩ := h2
        exact ⟨it :: l1, l2, b, e', m, sub, t, rfl, by simp [itemsText], h3, h4, h5⟩
      · right; left
        obtain ⟨t, rfl, h3⟩ := h2
        exact ⟨t, by simp [itemsText], h3⟩
      · right; right
        rw [List.append_assoc, hb, h2]
        rfl

/-- an unfinished END line, with a part of a fold marker -/
theorem end_part {br : Break} {items : List Item} (hok : ItemsOk br items) {e n s m : Str}
    (he : e.map lowerAscii = c!"end:") (hn : IsName n) (hm : MarkPart m) (hq : br = .lf → '\r' ∉ s ++ m)
    (h : InsideEnd br items e n s) :
    manyTill (componentChild component) (componentEnd n) (s ++ m) = .failure := by
  obtain ⟨t, rfl, h1, h2, h3⟩ := h
  have hle : lineEnding (t ++ m) = .error := by
    rcases h1 with ⟨u, rfl⟩ | ⟨u, rfl⟩
    · exact lineEnding_cons_error (by decide) (by decide)
    · rw [List.append_assoc]; exact keyword_lineEnding he (by decide) (by decide)
  rw [List.append_assoc] at hq ⊢
  rw [body_append hok hle hq]
  have hfail : manyTill (componentChild component) (componentEnd n) (t ++ m) = .failure := by
    have hel : e.length = 4 := by simpa using congrArg List.length he
    rw [manyTill_eq (shrinks_componentChild shrinks_component)]
    rcases prefix_append_cases h2 with ⟨h4, h5⟩ | ⟨u, rfl, h4⟩
    · have h6 : c!"END" <+: t := by
        rcases h1 with h1 | h1
        · exact h1
        · have := h1.length_le
          omega
      have hend : componentEnd n (t ++ m) = .error := by
        refine line_error hle (prefixNoCase_part hm (by decide) ?_)
        exact prefixNoCase_short (by simp; omega)
      rw [hend]
      have hb : prefixNoCase c!"BEGIN:" (t ++ m) = false := by
        obtain ⟨u, rfl⟩ := h6
        exact prefixNoCase_head_ne (by decide)
      have : componentChild component (t ++ m) = .failure := by
        unfold componentChild cut alt map
        rw [lineSeparated_error hle (component_error hle hb),
          lineSeparated_failure hle (property_failure (.inl (h6.trans (List.prefix_append _ _))))]
      simp only [this]
    · have hend : componentEnd n (e ++ u ++ m) = .failure := by
        apply lineSeparated_failure hle
        unfold complete preceded map pair
        rw [List.append_assoc, tagNoCase_ok (by rw [he]; decide)]
        have : tag n (u ++ m) = .error := by
          unfold tag
          rw [if_neg]
          rw [List.isPrefixOf_iff_prefix]
          intro hc
          have := (prefix_part hm ⟨name_not_mem hn isKeyChar_cr, name_not_mem hn isKeyChar_lf⟩ hc).length_le
          simp at h3
          omega
        simp [cut, this]
      rw [hend]
  rw [hfail]
  rfl

omit [Uni] in
theorem itemsNoLf_append {a b : List Item} : ItemsNoLf (a ++ b) ↔ ItemsNoLf a ∧ ItemsNoLf b := by
  induction a with
  | nil => simp [ItemsNoLf]
  | cons i a ih => simp [ItemsNoLf, ih, and_assoc]

/-- the first line, cut off, with a part of a fold marker -/
theorem first_line_part {br : Break} {b n : Str} (hb : b.map lowerAscii = c!"begin:") (hn : IsName n) {s m : Str}
    (hm : MarkPart m) (h : s <+: b ++ n ++ br.text) (hlt : s.length < (b ++ n ++ br.text).length) :
    component (s ++ m) = .error := by
  by_cases hne : s = []
  · subst hne
    rw [List.nil_append]
    rcases hm with rfl | rfl | hm
    · exact component_blank blank_nil
    · exact component_error rfl rfl
    · exact component_blank (blank_part hm)
  have hle : lineEnding (s ++ m) = .error := by
    refine lineEnding_part hne (fun c hc => ?_)
    have := head_of_prefix h hc
    obtain ⟨d, r, rfl, hd⟩ := keyword_head hb
    cases this
    exact (lower_ne_break hd (by decide) (by decide)).symm
  by_cases hk : prefixNoCase c!"BEGIN:" s = true
  · rw [prefixNoCase_iff] at hk
    have hbl : b.length = 6 := by simpa using congrArg List.length hb
    rw [List.append_assoc] at h
    rcases prefix_append_cases h with ⟨h3, h4⟩ | ⟨s', rfl, h3⟩
    · have := hk.2
      simp at this
      omega
    · rw [component_eq]
      unfold componentBody
      have hline : ∃ r x, line c!"BEGIN:" validKeySequence (b ++ s' ++ m) = .ok r x ∧ Rest r := by
        have hname : ∃ x u, s' = x ++ u ∧ IsName x ∧ u <+: br.text := by
          rcases prefix_append_cases h3 with ⟨h5, h6⟩ | ⟨t, rfl, h5⟩
          · exact ⟨s', [], by simp, fun c hc => hn c (h5.mem hc), List.nil_prefix⟩
          · exact ⟨n, t, rfl, hn, h5⟩
        obtain ⟨x, u, rfl, hx, hu⟩ := hname
        obtain ⟨bl, r, hsplit, hbl, hr⟩ := tail_split hu hm
        refine ⟨r, x, ?_, hr⟩
        have hvk : validKeySequence (x ++ (u ++ m)) = .ok (bl ++ r) x := by
          rw [hsplit]
          refine validKeySequence_ok hx (stopsAt_blank hbl ?_)
          intro c hc
          rcases hr with rfl | rfl | rfl | rfl <;> simp at hc <;> subst hc <;> exact isKeyChar_cr
        have := line_blank (lead := []) (t := c!"BEGIN:") (b := b) (i := x ++ (u ++ m)) blank_nil (by rw [hb]; decide)
          (by simpa using hle) hvk hbl (rest_lineEnding hr)
        simpa using this
      obtain ⟨r, x, hl, hr⟩ := hline
      rw [hl]
      simp only [rest_body hr]
  · exact component_error hle (prefixNoCase_part hm (by decide) (by simpa using hk))

/-- a component that was begun and is not closed makes the body fail -/
theorem inside_part {br : Break} {items : List Item} (hok : ItemsOk br items) {n s m : Str}
    (hq : br = .lf → '\r' ∉ s ++ m) (h : InsideComponent br items s)
    (ih : ∀ l l' b e n' sub, items = l ++ .comp b e n' sub :: l' → ∀ t : Str,
      t <+: b ++ n' ++ br.text ++ itemsText br sub ++ (e ++ n') →
      t.length < (b ++ n' ++ br.text ++ itemsText br sub ++ (e ++ n')).length → (br = .lf → '\r' ∉ t ++ m) →
      NotOk (component (t ++ m))) :
    manyTill (componentChild component) (componentEnd n) (s ++ m) = .failure := by
  obtain ⟨l, l', b, e, n', sub, t, rfl, rfl, hb, ht, hlt⟩ := h
  obtain ⟨hok1, hok2⟩ := itemsOk_append.1 hok
  have hb' : c!"BEGIN" <+: t ++ m := hb.trans (List.prefix_append _ _)
  have hle : lineEnding (t ++ m) = .error := by
    obtain ⟨u, hu⟩ := hb'
    rw [← hu]
    exact lineEnding_cons_error (by decide) (by decide)
  rw [List.append_assoc] at hq ⊢
  rw [body_append hok1 hle hq]
  have hqt : br = .lf → '\r' ∉ t ++ m := fun hbr => fun hm => hq hbr (List.mem_append_right _ hm)
  have hend : componentEnd n (t ++ m) = .error := by
    refine line_error hle ?_
    obtain ⟨u, hu⟩ := hb'
    rw [← hu]
    exact prefixNoCase_head_ne (by decide)
  have hfail : componentChild component (t ++ m) = .failure := by
    have hn := ih l l' b e n' sub rfl t ht hlt hqt
    cases hco : component (t ++ m) with
    | ok r x => exact absurd hco (hn _ _)
    | error => exact child_unclosed hb' hco
    | failure =>
      unfold componentChild cut alt map
      rw [lineSeparated_failure hle hco]
  rw [manyTill_eq (shrinks_componentChild shrinks_component), hend]
  simp only [hfail, prependChildren]

/-- what is read of a component is what is read of its body -/
theorem frame_part {br : Break} {b e n : Str} {items : List Item} (hb : b.map lowerAscii = c!"begin:")
    (he : e.map lowerAscii = c!"end:") (hn : IsName n) (hi : ItemsOk br items) {body m : Str} (hm : MarkPart m)
    (hpre : body <+: itemsText br items ++ (e ++ n)) (hq : br = .lf → '\r' ∉ b ++ n ++ br.text ++ body ++ m) :
    (manyTill (componentChild component) (componentEnd n) (body ++ m) = .error →
      component (b ++ n ++ br.text ++ body ++ m) = .error) ∧
    (manyTill (componentChild component) (componentEnd n) (body ++ m) = .failure →
      component (b ++ n ++ br.text ++ body ++ m) = .failure) := by
  by_cases hne : lineEnding (body ++ m) = .error
  · have := component_frame (br := br) (items := []) hb hn trivial hne (by
      intro hbr; have := hq hbr; simp [itemsText] at this ⊢; simp [this])
    rw [itemsText, List.append_nil, ← List.append_assoc] at this
    rw [this]
    constructor <;> intro h <;> rw [h]
  · have hbd : body = [] := by
      by_cases h0 : body = []
      · exact h0
      · exact absurd (lineEnding_part h0 (fun c hc => items_head hi he (head_of_prefix hpre hc))) hne
    subst hbd
    rw [List.nil_append, body_part hm]
    refine ⟨fun _ => ?_, fun h => nomatch h⟩
    rw [List.append_nil]
    have hbl : Blank m := by
      rcases hm with rfl | rfl | hm
      · exact blank_nil
      · exact absurd rfl hne
      · exact blank_part hm
    rw [component_eq]
    unfold componentBody
    have hvk : validKeySequence (n ++ (br.text ++ m)) = .ok (br.text ++ m ++ []) n := by
      rw [List.append_nil]
      exact validKeySequence_ok hn (stopsAt_break br)
    have := line_blank (lead := []) (t := c!"BEGIN:") (b := b) (i := n ++ (br.text ++ m)) blank_nil (by rw [hb]; decide)
      (keyword_lineEnding hb (by decide) (by decide)) hvk (blank_break br hbl) (r := []) rfl
    have e2 : b ++ n ++ br.text ++ m = [] ++ (b ++ (n ++ (br.text ++ m))) := by simp
    rw [e2, this]
    simp only [body_eof]

/-- no component that was cut off is read -/
theorem component_part {br : Break} {m : Str} (hm : MarkPart m) : ∀ (k : Nat) (b e n : Str) (items : List Item),
    (b ++ n ++ br.text ++ itemsText br items ++ (e ++ n)).length ≤ k →
    (Item.comp b e n items).Ok br → (Item.comp b e n items).NoLf → ∀ t : Str,
    t <+: b ++ n ++ br.text ++ itemsText br items ++ (e ++ n) →
    t.length < (b ++ n ++ br.text ++ itemsText br items ++ (e ++ n)).length → (br = .lf → '\r' ∉ t ++ m) →
    (component (t ++ m) = .error ∧ ¬ CutNoticed br b e n items t) ∨
      (component (t ++ m) = .failure ∧ CutNoticed br b e n items t) := by
  intro k
  induction k with
  | zero => intro b e n items h0 _ _ t _ hlt; omega
  | succ k ih =>
    intro b e n items hk hok hc t ht hlt hq
    simp only [Item.Ok] at hok
    obtain ⟨hb, he, hn, hi⟩ := hok
    simp only [Item.NoLf] at hc
    rw [List.append_assoc] at ht hlt
    rcases prefix_append_cases ht with ⟨h1, h2⟩ | ⟨body, rfl, h1⟩
    · refine .inl ⟨first_line_part hb hn hm h1 h2, ?_⟩
      rintro ⟨body, rfl, -⟩
      simp at h2
      omega
    · have hlt' : body.length < (itemsText br items ++ (e ++ n)).length := by simp at hlt ⊢; omega
      have hqb : br = .lf → '\r' ∉ body ++ m := by
        intro hbr; have := hq hbr; simp at this ⊢; simp [this]
      obtain ⟨f1, f2⟩ := frame_part hb he hn hi hm h1 hq
      have inner : InsideComponent br items body → manyTill (componentChild component) (componentEnd n) (body ++ m) = .failure := by
        intro hin
        refine inside_part hi hqb hin ?_
        intro l l' b' e' n' sub hitems t' ht' hlt2 hq'
        subst hitems
        have hok2 := (itemsOk_append.1 hi).2
        have hc2 := (itemsNoLf_append.1 hc.2).2
        simp only [ItemsOk] at hok2
        simp only [ItemsNoLf] at hc2
        have hlen : (b' ++ n' ++ br.text ++ itemsText br sub ++ (e' ++ n')).length ≤ k := by
          have := break_length_pos br
          have hsp : itemsText br (l ++ .comp b' e' n' sub :: l') =
              itemsText br l ++ ((Item.comp b' e' n' sub).text br ++ itemsText br l') := by
            simp [itemsText_append, itemsText]
          rw [hsp] at hk
          simp [Item.text] at hk ⊢
          omega
        intro r x hrx
        rcases ih b' e' n' sub hlen hok2.1 hc2.1 t' ht' hlt2 hq' with ⟨h, -⟩ | ⟨h, -⟩ <;> rw [h] at hrx <;> cases hrx
      rcases items_part he hm items hi hc.2 body hqb h1 hlt' with h2 | h2 | h2
      · exact .inr ⟨f2 (inner h2), body, rfl, .inl h2⟩
      · exact .inr ⟨f2 (end_part hi he hn hm hqb h2), body, rfl, .inr h2⟩
      · refine .inl ⟨f1 h2, ?_⟩
        rintro ⟨body', hbody, h3⟩
        rw [List.append_right_inj] at hbody
        subst hbody
        rcases h3 with h3 | h3
        · rw [inner h3] at h2; cases h2
        · rw [end_part hi he hn hm hqb h3] at h2; cases h2

/-! ### Folded files -/

omit [Uni] in
/-- the beginning of a file unfolds to a beginning of the text, but for a part of a fold marker -/
theorem unfoldSpec_cut (s z : Str) : ∃ x m, s = x ++ m ∧ MarkPart m ∧
    (m = [] ∨ ∃ mark : Marker, m <+: mark.text ∧ m ≠ mark.text ∧ x ++ mark.text <+: s ++ z) ∧
    unfoldSpec s = unfoldSpec x ++ m ∧ unfoldSpec x <+: unfoldSpec (s ++ z) := by
  have step : ∀ (mk : Marker) (s : Str), (∃ x m, s = x ++ m ∧ MarkPart m ∧
      (m = [] ∨ ∃ mark : Marker, m <+: mark.text ∧ m ≠ mark.text ∧ x ++ mark.text <+: s ++ z) ∧
      unfoldSpec s = unfoldSpec x ++ m ∧ unfoldSpec x <+: unfoldSpec (s ++ z)) →
      ∃ x m, mk.text ++ s = x ++ m ∧ MarkPart m ∧
      (m = [] ∨ ∃ mark : Marker, m <+: mark.text ∧ m ≠ mark.text ∧ x ++ mark.text <+: mk.text ++ s ++ z) ∧
      unfoldSpec (mk.text ++ s) = unfoldSpec x ++ m ∧ unfoldSpec x <+: unfoldSpec (mk.text ++ s ++ z) := by
    rintro mk s ⟨x, m, rfl, h1, h2, h3, h4⟩
    refine ⟨mk.text ++ x, m, by simp, h1, ?_, ?_, ?_⟩
    · refine h2.imp_right ?_
      rintro ⟨mark, h5, h6, h7⟩
      refine ⟨mark, h5, h6, ?_⟩
      rw [List.append_assoc, List.append_assoc, List.prefix_append_right_inj]
      exact h7
    · rw [unfoldSpec_marker, unfoldSpec_marker, h3]
    · rw [List.append_assoc, unfoldSpec_marker, unfoldSpec_marker]
      exact h4
  induction s using unfoldSpec.induct with
  | case1 => exact ⟨[], [], rfl, .inl rfl, .inl rfl, rfl, List.nil_prefix⟩
  | case2 s ih => exact step .crlfSp s ih
  | case3 s ih => exact step .crlfTab s ih
  | case4 s ih => exact step .lfSp s ih
  | case5 s ih => exact step .lfTab s ih
  | case6 c s h1 h2 h3 h4 ih =>
    have hno : ∀ mk : Marker, ¬ mk.text <+: c :: s := not_prefix_of_pattern
      (fun t hc ht => h1 t hc ht) (fun t hc ht => h2 t hc ht) (fun t hc ht => h3 t hc ht) (fun t hc ht => h4 t hc ht)
    by_cases hm : ∃ mk : Marker, mk.text <+: c :: s ++ z
    · obtain ⟨mk, hmk⟩ := hm
      have hpre : c :: s <+: mk.text := by
        rcases List.prefix_or_prefix_of_prefix hmk (List.prefix_append (c :: s) z) with h | h
        · exact absurd h (hno mk)
        · exact h
      have hne : c :: s ≠ mk.text := fun h => hno mk (by rw [h]; exact List.prefix_refl _)
      have hcs : c :: s = ['\r'] ∨ c :: s = ['\n'] ∨ c :: s = ['\r', '\n'] := by
        rcases s with _ | ⟨d, _ | ⟨f, _ | ⟨g, s⟩⟩⟩ <;> cases mk <;>
          simp [Marker.text, List.cons_prefix_cons] at hpre hne ⊢ <;> simp_all
      refine ⟨[], c :: s, rfl, .inr hcs, .inr ⟨mk, hpre, hne, by simpa using hmk⟩, ?_, List.nil_prefix⟩
      rcases hcs with h | h | h <;> rw [h] <;> rfl
    · have hm' : ∀ mk : Marker, ¬ mk.text <+: c :: (s ++ z) := fun mk h => hm ⟨mk, h⟩
      obtain ⟨x, m, rfl, e1, e2, e3, e4⟩ := ih
      refine ⟨c :: x, m, rfl, e1, ?_, ?_, ?_⟩
      · refine e2.imp_right ?_
        rintro ⟨mark, h5, h6, h7⟩
        exact ⟨mark, h5, h6, by rw [List.cons_append, List.cons_append, List.cons_prefix_cons]; exact ⟨rfl, h7⟩⟩
      · rw [unfoldSpec_cons c _ hno, unfoldSpec_cons c x, e3]
        · rfl
        · intro mk h
          exact hno mk (h.trans (by rw [← List.cons_append]; exact List.prefix_append _ _))
      · rw [unfoldSpec_cons c x, List.cons_append, unfoldSpec_cons c _ hm', List.cons_prefix_cons]
        · exact ⟨rfl, e4⟩
        · intro mk h
          exact hno mk (h.trans (by rw [← List.cons_append]; exact List.prefix_append _ _))

omit [Uni] in
/-- unfolding removes white space only -/
theorem unfoldSpec_count {d : Char} (hd : ¬ Space d) (s : Str) : (unfoldSpec s).count d = s.count d := by
  unfold Space at hd
  simp only [not_or] at hd
  obtain ⟨d1, d2, d3, d4⟩ := hd
  have e1 := Ne.symm d1
  have e2 := Ne.symm d2
  have e3 := Ne.symm d3
  have e4 := Ne.symm d4
  induction s using unfoldSpec.induct with
  | case1 => rfl
  | case2 s ih => simp [unfoldSpec, ih, e1, e3, e4]
  | case3 s ih => simp [unfoldSpec, ih, e2, e3, e4]
  | case4 s ih => simp [unfoldSpec, ih, e1, e4]
  | case5 s ih => simp [unfoldSpec, ih, e2, e4]
  | case6 c s h1 h2 h3 h4 ih =>
    rw [unfoldSpec_cons c s (not_prefix_of_pattern (fun t hc ht => h1 t hc ht) (fun t hc ht => h2 t hc ht)
      (fun t hc ht => h3 t hc ht) (fun t hc ht => h4 t hc ht)), List.count_cons, List.count_cons, ih]

omit [Uni] in
theorem unfoldSpec_mem {s : Str} {c : Char} (h : c ∈ unfoldSpec s) : c ∈ s := by
  induction s using unfoldSpec.induct with
  | case1 => exact h
  | case2 s ih => simp only [unfoldSpec] at h; simp [ih h]
  | case3 s ih => simp only [unfoldSpec] at h; simp [ih h]
  | case4 s ih => simp only [unfoldSpec] at h; simp [ih h]
  | case5 s ih => simp only [unfoldSpec] at h; simp [ih h]
  | case6 d s h1 h2 h3 h4 ih =>
    rw [unfoldSpec_cons d s (not_prefix_of_pattern (fun t hc ht => h1 t hc ht) (fun t hc ht => h2 t hc ht)
      (fun t hc ht => h3 t hc ht) (fun t hc ht => h4 t hc ht))] at h
    rcases List.mem_cons.1 h with rfl | h
    · simp
    · simp [ih h]

omit [Uni] in
theorem cutNoticed_short {br : Break} {b e n : Str} {items : List Item} {t : Str} (h : CutNoticed br b e n items t) :
    t.length < (b ++ n ++ br.text ++ itemsText br items ++ (e ++ n)).length := by
  obtain ⟨body, rfl, h | h⟩ := h
  · obtain ⟨l, l', b', e', n', sub, t', rfl, rfl, -, -, h3⟩ := h
    rw [itemsText_append, itemsText]
    simp [Item.text] at h3 ⊢
    omega
  · obtain ⟨t', rfl, -, -, h3⟩ := h
    simp at h3 ⊢
    omega

/-- **C18 (partial).** Exactly what becomes of a folded file that was cut off anywhere, be it inside a fold marker. With `t` for
the text that is left and `m` for the part of a fold marker that is left at the end: the file is rejected if and only if `t` ends
inside a component of the root component (after the five letters of its BEGIN) or inside the END line of the root component
(after its three letters); it is read in full if everything up to the last END line is there and only line breaks follow; and in
all other cases it is silently read as a calendar without any content. -/
theorem cut_file_exact_partial {br : Break} {b e n : Str} {items : List Item}
    (h : (Item.comp b e n items).Ok br) (hc : (Item.comp b e n items).NoLf) {file : Str}
    (hf : unfold file = (Item.comp b e n items).text br) (hq : br = .lf → '\r' ∉ file) {s : Str} (hs : s <+: file) :
    ∃ t m, CutOf file s t m ∧ t <+: (Item.comp b e n items).text br ∧
      (CutNoticed br b e n items t → Calendar.fromStr s = none) ∧
      (AllThere br b e n items (t ++ m) → Calendar.fromStr s = Calendar.fromStr file) ∧
      (¬ CutNoticed br b e n items t → ¬ AllThere br b e n items (t ++ m) → Calendar.fromStr s = some ⟨[], []⟩) := by
  obtain ⟨z, rfl⟩ := hs
  obtain ⟨x, m, hx, hm, hmark, hu, hpre⟩ := unfoldSpec_cut s z
  have hq' : br = .lf → '\r' ∉ unfoldSpec x ++ m := by
    intro hbr hmem
    rw [← hu] at hmem
    exact hq hbr (List.mem_append_left _ (unfoldSpec_mem hmem))
  have hqf : br = .lf → '\r' ∉ (Item.comp b e n items).text br := by
    intro hbr hmem
    rw [← hf, unfold_eq_spec] at hmem
    exact hq hbr (unfoldSpec_mem hmem)
  rw [unfold_eq_spec] at hf
  have htext : (Item.comp b e n items).text br = (b ++ n ++ br.text ++ itemsText br items ++ (e ++ n)) ++ br.text := by
    simp [Item.text]
  have hfull := components_ok (component_doc h hqf)
  have all : ∀ bl r : Str, Blank bl → Rest r →
      unfoldSpec s = b ++ n ++ br.text ++ itemsText br items ++ (e ++ n) ++ (bl ++ r) →
      component (unfoldSpec s) = .ok r (.mk n (itemsProps items) (itemsComps items)) := by
    intro bl r hbl hr hsplit
    have e3 : unfoldSpec s =
        [] ++ (b ++ (n ++ (br.text ++ [] ++ (itemsText br items ++ (e ++ (n ++ (bl ++ r))))))) := by
      rw [hsplit]; simp
    have hco := component_spaced h (lead := []) (bl := []) (tail := bl) (r := r) blank_nil blank_nil
      (spacedAll_self br items) hbl (rest_lineEnding hr) (by rw [← e3, hu]; exact hq')
    rw [← e3] at hco
    exact hco
  have hall : AllThere br b e n items (unfoldSpec x ++ m) →
      component (unfoldSpec s) = .ok [] (.mk n (itemsProps items) (itemsComps items)) := by
    rintro ⟨bl, hbl, hsplit⟩
    rw [← hu] at hsplit
    exact all bl [] hbl (.inl rfl) (by rw [hsplit]; simp)
  have read : ∀ u : Str, Calendar.fromStr u = (readCalendar (unfoldSpec u)).map PCal.toCalendar := fun u => by
    rw [← unfold_eq_spec]; rfl
  refine ⟨unfoldSpec x, m, ⟨x, hx, rfl, hmark⟩, by rw [← hf]; exact hpre, ?_, ?_, ?_⟩
  · intro hn
    have hlt := cutNoticed_short hn
    have hp : unfoldSpec x <+: b ++ n ++ br.text ++ itemsText br items ++ (e ++ n) := by
      rw [hf, htext] at hpre
      rcases prefix_append_cases hpre with ⟨h1, -⟩ | ⟨u, h1, -⟩
      · exact h1
      · rw [h1] at hlt
        simp at hlt
        omega
    rw [read, hu]
    rcases component_part hm _ b e n items (Nat.le_refl _) h hc _ hp hlt hq' with ⟨-, h1⟩ | ⟨h1, -⟩
    · exact absurd hn h1
    · unfold readCalendar
      rw [components_failure h1]
      rfl
  · intro ha
    rw [read, read, hf]
    unfold readCalendar
    rw [components_ok (hall ha), hfull]
  · intro h1 h2
    rw [hf, htext] at hpre
    have hsome : components (unfoldSpec s) = .ok (unfoldSpec s) [] := by
      rcases prefix_append_cases hpre with ⟨h3, h4⟩ | ⟨u, h3, h4⟩
      · rw [hu]
        rcases component_part hm _ b e n items (Nat.le_refl _) h hc _ h3 h4 hq' with ⟨h5, -⟩ | ⟨-, h5⟩
        · exact components_none (.inl h5)
        · exact absurd h5 h1
      · obtain ⟨bl, r, hsplit, hbl, hr⟩ := tail_split h4 hm
        have e1 : unfoldSpec s = b ++ n ++ br.text ++ itemsText br items ++ (e ++ n) ++ (bl ++ r) := by
          rw [hu, h3, List.append_assoc, hsplit]
        refine components_none (.inr ⟨r, _, ?_, all bl r hbl hr e1⟩)
        rintro rfl
        exact h2 ⟨bl, hbl, by rw [← hu, e1]; simp⟩
    rw [read]
    unfold readCalendar
    rw [hsome]
    rfl

/-! ### The output of the library -/

theorem propItem_noLf {p : Property} (hp : PlainProp p) {w : World} (hw : World.Ok w) : (propItem p w).NoLf := by
  have hval : '\n' ∉ p.valueText := by
    by_cases ht : IsText p
    · rw [valueText_of_text ((isText_iff p).1 ht)]
      exact (escape_inert p.val).2
    · rw [valueText_of_not (fun hc => ht ((isText_iff p).2 hc))]
      exact hp.value.resolve_left ht
  have hpar : '\n' ∉ (((w.order [] p.params).map dparam).map DParam.text).flatten := by
    intro hmem
    obtain ⟨l, hl, hmem⟩ := List.mem_flatten.1 hmem
    obtain ⟨d, hd, rfl⟩ := List.mem_map.1 hl
    obtain ⟨x, hx, rfl⟩ := List.mem_map.1 hd
    have h1 := hp.params x ((hw.order [] p.params).mem_iff.1 hx)
    have := noLf_params [x] (by simpa using h1)
    apply this
    rw [dparam_text] at hmem
    simpa [paramsText] using hmem
  have hk := hp.key
  unfold NoLf at hk
  simp only [propItem, Item.NoLf, List.mem_append, not_or]
  exact ⟨⟨⟨hk, hpar⟩, by decide⟩, hval⟩

theorem propItems_noLf {l : List Property} (hl : ∀ p ∈ l, PlainProp p) {w : World} (hw : World.Ok w) :
    ItemsNoLf (propItems l w) := by
  induction l generalizing w with
  | nil => trivial
  | cons p l ih =>
    exact ⟨propItem_noLf (hl p (by simp)) (worldOk_sub hw 0), ih (fun q hq => hl q (by simp [hq])) (worldOk_sub hw 1)⟩

omit [Uni] in
theorem missing_noLf {props : BMap Property} {k v : Str} (hk : '\n' ∉ k) (hv : '\n' ∉ v) : ItemsNoLf (missing props k v) := by
  unfold missing
  split
  · trivial
  · refine ⟨?_, trivial⟩
    simp [genItem, Item.NoLf, hk, hv]

mutual
theorem other_noLf (o : Other) (ho : PlainOther o) {w : World} (hw : World.Ok w) : (o.item w).NoLf := by
  match o, ho with
  | .mk name props multi comps, ho =>
    obtain ⟨-, hp, hm, hc⟩ := ho
    simp only [Other.item, Item.NoLf, itemsNoLf_append]
    refine ⟨trivial, ⟨⟨⟨missing_noLf (by decide) (fmtUtc_not_mem (w.now []) (by decide) (by decide)),
      propItems_noLf ?_ (worldOk_sub hw 0)⟩, missing_noLf (by decide) (uuid_not_mem hw (by decide) [])⟩,
      propItems_noLf ?_ (worldOk_sub hw 1)⟩, others_noLf comps hc (worldOk_sub hw 2)⟩
    · intro p hp'
      obtain ⟨x, hx, rfl⟩ := List.mem_map.1 hp'
      exact hp x hx
    · intro p hp'
      obtain ⟨g, hg, hpg⟩ := List.mem_flatten.1 hp'
      obtain ⟨x, hx, rfl⟩ := List.mem_map.1 hg
      exact hm x hx p hpg
theorem others_noLf (l : List Other) (hl : PlainOthers l) {w : World} (hw : World.Ok w) : ItemsNoLf (otherItems l w) := by
  match l, hl with
  | [], _ => simp only [otherItems]; trivial
  | o :: l, hl =>
    simp only [otherItems, ItemsNoLf]
    exact ⟨other_noLf o hl.1 (worldOk_sub hw 0), others_noLf l hl.2 (worldOk_sub hw 1)⟩
end

theorem comps_noLf {l : List CalComp} (hl : ∀ x ∈ l, PlainOther x.toOther) {w : World} (hw : World.Ok w) :
    ItemsNoLf (compItems l w) := by
  induction l generalizing w with
  | nil => trivial
  | cons x l ih =>
    exact ⟨other_noLf _ (hl x (by simp)) (worldOk_sub hw 0), ih (fun q hq => hl q (by simp [hq])) (worldOk_sub hw 1)⟩

/-- **C18 (partial).** A serialized calendar that was cut off anywhere is rejected, or read as a calendar without any content, or
read in full; and the last only if nothing but line breaks is missing. -/
theorem cut_output_partial {c : Calendar} (hc : CalendarWritable c) (hp : ∀ p ∈ c.props, PlainProp p)
    (hx : ∀ x ∈ c.comps, PlainOther x.toOther) {w : World} (hw : World.Ok w) {out : Str} (h : c.fmtWrite w = .ok out)
    {s : Str} (hs : s <+: out) :
    Calendar.fromStr s = none ∨ Calendar.fromStr s = some ⟨[], []⟩ ∨
      (Calendar.fromStr s = Calendar.fromStr out ∧ ∃ z, out = s ++ z ∧ z <:+ ['\r', '\n']) := by
  have hok := calendar_item_ok hc hw
  have hu := unfold_calendar hc hw h
  have hn : (c.item w).NoLf := by
    simp only [Calendar.item, Item.NoLf, itemsNoLf_append]
    exact ⟨trivial, propItems_noLf hp (worldOk_sub hw 0), comps_noLf hx (worldOk_sub hw 1)⟩
  obtain ⟨t, m, hcut, hpre, h1, h2, h3⟩ := cut_file_exact_partial hok hn hu (fun hbr => nomatch hbr) hs
  by_cases hno : CutNoticed .crlf c!"BEGIN:" c!"END:" c!"VCALENDAR" (propItems c.props (w.sub 0) ++ compItems c.comps (w.sub 1)) t
  · exact .inl (h1 hno)
  by_cases hall : AllThere .crlf c!"BEGIN:" c!"END:" c!"VCALENDAR"
      (propItems c.props (w.sub 0) ++ compItems c.comps (w.sub 1)) (t ++ m)
  · refine .inr (.inr ⟨h2 hall, ?_⟩)
    obtain ⟨z, rfl⟩ := hs
    obtain ⟨x, rfl, rfl, -⟩ := hcut
    obtain ⟨bl, ⟨bs, rfl⟩, hall⟩ := hall
    have hR : ¬ Space 'R' := by unfold Space; decide
    have hbl : ((bs.map Break.text).flatten).count 'R' = 0 := by
      rw [List.count_eq_zero]
      intro hmem
      obtain ⟨l, hl, hmem⟩ := List.mem_flatten.1 hmem
      obtain ⟨br, -, rfl⟩ := List.mem_map.1 hl
      cases br <;> simp [Break.text] at hmem
    have c1 := congrArg (List.count 'R') hall
    have c2 := congrArg (List.count 'R') hu
    rw [unfold_eq_spec, unfoldSpec_count hR] at c2
    have htext : (c.item w).text .crlf = c!"BEGIN:" ++ c!"VCALENDAR" ++ Break.crlf.text ++
        itemsText .crlf (propItems c.props (w.sub 0) ++ compItems c.comps (w.sub 1)) ++ (c!"END:" ++ c!"VCALENDAR") ++ crlf := by
      simp [Calendar.item, Item.text, Break.text, crlf]
    rw [htext] at c2
    rw [List.count_append, unfoldSpec_count hR, List.count_append, hbl] at c1
    rw [List.count_append, List.count_append, List.count_append (l₂ := crlf), show crlf.count 'R' = 0 from rfl] at c2
    have hz : 'R' ∉ z := by
      rw [← List.count_eq_zero]
      omega
    refine ⟨z, rfl, ?_⟩
    have hend : c!"R\r\n" <:+ x ++ m ++ z := by
      unfold Calendar.fmtWrite at h
      split at h
      · cases h
      · split at h
        · cases h
        · rename_i ps _ _ cs _
          rw [← Except.ok.inj h]
          exact ⟨c!"BEGIN:VCALENDAR" ++ crlf ++ ps ++ cs ++ c!"END:VCALENDA", by simp [crlf]⟩
    rcases List.suffix_or_suffix_of_suffix hend (List.suffix_append _ z) with h5 | h5
    · exact absurd (h5.mem (a := 'R') (by simp)) hz
    · rcases List.suffix_cons_iff.1 h5 with h6 | h6
      · exact absurd (by rw [h6]; simp) hz
      · exact h6
  · exact .inr (.inl (h3 hno hall))

omit [Uni] in
/-- A file that was cut off inside a fold marker: what is left of the marker does no harm after a complete document, and neither
makes a difference inside an event. -/
example : let items : List Item := [.comp c!"BEGIN:" c!"END:" c!"VEVENT" [.prop c!"UID" [] c!"12"]]
    let it : Item := .comp c!"BEGIN:" c!"END:" c!"VCALENDAR" items
    let file := c!"BEGIN:VCALENDAR\r\nBEGIN:VEVENT\r\nUID:1\r\n 2\r\nEND:VEVENT\r\nEND:VCALENDAR\r\n \r\n"
    let size := fun s : Str => (@Calendar.fromStr Uni.ascii s).map (fun c => c.comps.length)
    unfold file = it.text .crlf ∧
    CutOf file (file.take 37) c!"BEGIN:VCALENDAR\r\nBEGIN:VEVENT\r\nUID:1" ['\r'] ∧
    CutNoticed .crlf c!"BEGIN:" c!"END:" c!"VCALENDAR" items c!"BEGIN:VCALENDAR\r\nBEGIN:VEVENT\r\nUID:1" ∧
    size (file.take 37) = none ∧
    AllThere .crlf c!"BEGIN:" c!"END:" c!"VCALENDAR" items (unfold (file.take 69)) ∧
    size (file.take 69) = some 1 ∧ size (file.take 68) = some 0 := by
  refine ⟨by decide +kernel, ⟨c!"BEGIN:VCALENDAR\r\nBEGIN:VEVENT\r\nUID:1", by decide +kernel, by decide +kernel,
    .inr ⟨.crlfSp, by decide +kernel, by decide +kernel, by decide +kernel⟩⟩,
    ⟨c!"BEGIN:VEVENT\r\nUID:1", by decide +kernel, .inl ⟨[], [], c!"BEGIN:", c!"END:", c!"VEVENT",
    [.prop c!"UID" [] c!"12"], c!"BEGIN:VEVENT\r\nUID:1", rfl, by decide +kernel, by decide +kernel, by decide +kernel,
    by decide +kernel⟩⟩, by decide +kernel, ⟨c!"\r\n", ⟨[.crlf], rfl⟩, by decide +kernel⟩, by decide +kernel, by decide +kernel⟩

end Ical
