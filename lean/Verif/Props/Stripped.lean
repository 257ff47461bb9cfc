import Verif.Spec.Stripped
import Verif.Props.SameBut
import Verif.Props.OwnLine

/-!
C141: programs that remove the blanks at the ends of lines change nothing but blanks in values.
-/

namespace Ical

open Nom Spec

/-! ### Texts -/

/-- blanks missing, none of them after a backslash or a carriage return; `p` is the character before the text -/
inductive Lost : Char → Str → Str → Prop
  | nil {p : Char} : Lost p [] []
  | keep {p : Char} (c : Char) {s t : Str} : Lost c s t → Lost p (c :: s) (c :: t)
  | lose {p b : Char} {s t : Str} : p ≠ '\\' → p ≠ '\r' → isBlank b = true → Lost b s t → Lost p (b :: s) t

theorem isBlank_iff {c : Char} : isBlank c = true ↔ c = ' ' ∨ c = '\t' := by simp [isBlank]

theorem isBlank_ne {c x : Char} (h : isBlank c = true) (hx : isBlank x = false) : c ≠ x := by
  rintro rfl
  rw [h] at hx
  cases hx

theorem lost_any {p : Char} {s t : Str} (h : Lost p s t) : Lost ' ' s t := by
  cases h with
  | nil => exact .nil
  | keep c h => exact .keep c h
  | lose _ _ hb h => exact .lose (by decide) (by decide) hb h

theorem lost_missing {p : Char} {s t : Str} (h : Lost p s t) : BlanksMissing s t := by
  induction h with
  | nil => exact .nil
  | keep c _ ih => exact .keep c ih
  | lose _ _ hb _ ih => exact .lose hb ih

theorem lost_append {p : Char} {a b t : Str} (h : Lost p (a ++ b) t) : ∃ a' b', t = a' ++ b' ∧ Lost p a a' ∧ Lost ' ' b b' := by
  induction a generalizing p t with
  | nil => exact ⟨[], t, rfl, .nil, lost_any h⟩
  | cons c a ih =>
    cases h with
    | keep c h =>
      obtain ⟨a', b', rfl, h1, h2⟩ := ih h
      exact ⟨c :: a', b', rfl, .keep c h1, h2⟩
    | lose h1 h2 hb h =>
      obtain ⟨a', b', rfl, h3, h4⟩ := ih h
      exact ⟨a', b', rfl, .lose h1 h2 hb h3, h4⟩

theorem lost_kept {p : Char} {s t : Str} (h : Lost p s t) (hs : NoBlank s) : t = s := by
  induction h with
  | nil => rfl
  | keep c _ ih => rw [ih (fun x hx => hs x (by simp [hx]))]
  | @lose _ b _ _ _ _ hb _ _ => exact absurd rfl (isBlank_ne hb (hs b (by simp)))

theorem lost_mem {p x : Char} {s t : Str} (h : Lost p s t) (hx : x ∈ t) : x ∈ s := by
  induction h with
  | nil => exact hx
  | keep c _ ih =>
    rcases List.mem_cons.1 hx with rfl | hx
    · simp
    · simp [ih hx]
  | lose _ _ _ _ ih => simp [ih hx]

theorem lost_head {p c : Char} {s t : Str} (h : Lost p (c :: s) t) (hc : isBlank c = false) : ∃ t', t = c :: t' := by
  cases h with
  | keep => exact ⟨_, rfl⟩
  | lose _ _ hb => exact absurd rfl (isBlank_ne hb hc)

theorem lost_crlf {p : Char} {s t : Str} (h : Lost p s t) (ht : ['\r', '\n'] <:+: t) : ['\r', '\n'] <:+: s := by
  induction h with
  | nil => exact ht
  | @keep p c s t h ih =>
    rw [List.infix_cons_iff] at ht
    rcases ht with ht | ht
    · rw [List.cons_prefix_cons] at ht
      obtain ⟨rfl, u, rfl⟩ := ht
      cases h with
      | keep => exact (List.prefix_append ['\r', '\n'] _).isInfix
      | lose _ h => exact absurd rfl h
    · exact (ih ht).trans (List.suffix_cons c s).isInfix
  | @lose p b s t _ _ _ _ ih => exact (ih ht).trans (List.suffix_cons b s).isInfix

theorem missing_refl (s : Str) : BlanksMissing s s := by
  induction s with
  | nil => exact .nil
  | cons c s ih => exact .keep c ih

theorem missing_front (a : Str) {s t : Str} (h : BlanksMissing s t) : BlanksMissing (a ++ s) (a ++ t) := by
  induction a with
  | nil => exact h
  | cons c a ih => exact .keep c ih

theorem lost_unescaped {p : Char} {s t : Str} (h : Lost p s t) :
    ∀ k, (k ≠ 0 → p = '\\') → BlanksMissing (unescapedRun k s) (unescapedRun k t) := by
  induction h with
  | nil => exact fun k _ => missing_refl _
  | @keep p c s t _ ih =>
    intro k hk
    rw [unescapedRun, unescapedRun]
    by_cases h1 : c = '\\'
    · rw [if_pos h1, if_pos h1]
      exact ih _ (fun _ => h1)
    · rw [if_neg h1, if_neg h1]
      have h0 := ih 0 (fun h => absurd rfl h)
      by_cases h2 : k = 0
      · rw [if_pos h2, if_pos h2]
        exact .keep c h0
      · rw [if_neg h2, if_neg h2]
        cases escapeMeaning c with
        | none => exact missing_front _ (.keep c h0)
        | some m => exact missing_front _ (.keep m h0)
  | @lose p b s t h1 _ hb _ ih =>
    intro k hk
    have h2 : k = 0 := by
      by_cases h : k = 0
      · exact h
      · exact absurd (hk h) h1
    subst h2
    rw [unescapedRun, if_neg (isBlank_ne hb (by decide)), if_pos rfl]
    exact .lose hb (ih 0 (fun h => absurd rfl h))

theorem noBlank_append {a b : Str} (ha : NoBlank a) (hb : NoBlank b) : NoBlank (a ++ b) := by
  intro x hx
  rcases List.mem_append.1 hx with hx | hx
  · exact ha x hx
  · exact hb x hx

theorem noBlank_keyword {s : Str} (h : s.map lowerAscii = c!"begin:" ∨ s.map lowerAscii = c!"end:") : NoBlank s := by
  have key : ∀ (t : Str), NoBlank t → s.map lowerAscii = t → NoBlank s := by
    intro t ht h x hx
    have hm : lowerAscii x ∈ t := by rw [← h]; exact List.mem_map.2 ⟨x, hx, rfl⟩
    have := ht _ hm
    cases hb : isBlank x with
    | false => rfl
    | true =>
      rcases isBlank_iff.1 hb with rfl | rfl
      · exact absurd this (by decide)
      · exact absurd this (by decide)
  rcases h with h | h
  · exact key _ (by decide) h
  · exact key _ (by decide) h

theorem lost_replaces : Replaces (Lost ' ') BlanksMissing NoBlank PlainStart where
  join := noBlank_append
  delim := by decide
  breaks := by
    intro s h x hx
    rcases h x hx with rfl | rfl <;> decide
  keyword := noBlank_keyword
  append := lost_append
  kept := fun ha h => lost_kept h ha
  nil := by
    intro s t h k hT
    cases s with
    | nil => cases h; exact Iff.rfl
    | cons c s =>
      obtain ⟨t', rfl⟩ := lost_head h (hT.1 c (by simp))
      simp
  mem := fun h _ _ hx => lost_mem h hx
  quote := by
    intro s t h k hT hq
    cases s with
    | nil => cases h; exact hq
    | cons c s =>
      obtain ⟨t', rfl⟩ := lost_head h (hT.1 c (by simp))
      rw [List.cons_prefix_cons] at hq ⊢
      exact ⟨hq.1, List.nil_prefix⟩
  crlf := lost_crlf
  empty := .nil
  read := fun h => lost_unescaped h 0 (fun h => absurd rfl h)
  raw := lost_missing
  type := by
    intro s t h hT k
    rw [lost_kept h (hT.2 rfl)]

theorem stripped_cons (c : Char) (s : Str) : stripped (c :: s) = if endsBlank (c :: s) then stripped s else c :: stripped s := rfl

theorem stripped_head {s t : Str} {x : Char} (hs : endsBlank s = false) (h : stripped s = x :: t) :
    ∃ s', s = x :: s' ∧ t = stripped s' := by
  cases s with
  | nil => cases h
  | cons c s =>
    rw [stripped_cons, hs] at h
    cases h
    exact ⟨s, rfl, rfl⟩

/-- a blank that is not at the end of a line: what follows is not either -/
theorem endsBlank_tail {b : Char} {s : Str} (hb : isBlank b = true) (h : endsBlank (b :: s) = false) : endsBlank s = false := by
  cases s with
  | nil => rfl
  | cons c s =>
    simp only [endsBlank, hb, Bool.true_and] at h ⊢
    cases hc : isBlank c with
    | false => rfl
    | true => rw [List.dropWhile_cons_of_pos hc] at h; simpa using h

theorem unfold_stripped {s : Str} (h : SafeEnds s) : Lost ' ' (unfold s) (unfold (stripped s)) := by
  rw [unfold_eq_spec, unfold_eq_spec]
  suffices H : ∀ p, (p = '\\' ∨ p = '\r' → endsBlank s = false) → Lost p (unfoldSpec s) (unfoldSpec (stripped s)) from
    H ' ' (by rintro (h | h) <;> exact absurd h (by decide))
  have keep : ∀ {c : Char} {s : Str}, isBlank c = false → stripped (c :: s) = c :: stripped s := by
    intro c s hc
    rw [stripped_cons, endsBlank, hc]
    rfl
  have keep' : ∀ {c : Char} {s : Str}, endsBlank (c :: s) = false → stripped (c :: s) = c :: stripped s := by
    intro c s hc
    rw [stripped_cons, hc]
    rfl
  fun_induction unfoldSpec s with
  | case1 => exact fun p _ => .nil
  | case2 s ih =>
    intro p _
    have hb := h.2.1 (by simp)
    rw [keep (by decide), keep (by decide), keep' hb]
    exact (unfoldSpec_marker .crlfSp (stripped s)) ▸ ih h.2.2.2 p (fun _ => endsBlank_tail (by decide) hb)
  | case3 s ih =>
    intro p _
    have hb := h.2.1 (by simp)
    rw [keep (by decide), keep (by decide), keep' hb]
    exact (unfoldSpec_marker .crlfTab (stripped s)) ▸ ih h.2.2.2 p (fun _ => endsBlank_tail (by decide) hb)
  | case4 s ih =>
    intro p _
    have hb := h.1 (by simp)
    rw [keep (by decide), keep' hb]
    exact (unfoldSpec_marker .lfSp (stripped s)) ▸ ih h.2.2 p (fun _ => endsBlank_tail (by decide) hb)
  | case5 s ih =>
    intro p _
    have hb := h.1 (by simp)
    rw [keep (by decide), keep' hb]
    exact (unfoldSpec_marker .lfTab (stripped s)) ▸ ih h.2.2 p (fun _ => endsBlank_tail (by decide) hb)
  | case6 c s h1 h2 h3 h4 ih =>
    intro p hp
    have hc := h.1
    rw [stripped_cons]
    cases he : endsBlank (c :: s) with
    | true =>
      rw [if_pos rfl]
      have hb : isBlank c = true := by simp only [endsBlank, Bool.and_eq_true] at he; exact he.1
      have hn : ∀ q, p = q → q = '\\' ∨ q = '\r' → False := by
        rintro q rfl hq
        rw [hp hq] at he
        cases he
      refine .lose (fun e => hn _ e (.inl rfl)) (fun e => hn _ e (.inr rfl)) hb (ih h.2 c ?_)
      rintro (rfl | rfl) <;> exact absurd hb (by decide)
    | false =>
      rw [if_neg (by decide)]
      rw [unfoldSpec_cons]
      · refine .keep c (ih h.2 c ?_)
        rintro (rfl | rfl) <;> exact hc (by simp)
      · refine not_prefix_of_pattern ?_ ?_ ?_ ?_
        · rintro t rfl ht
          obtain ⟨s', rfl, e⟩ := stripped_head (hc (by simp)) ht
          obtain ⟨s'', rfl, -⟩ := stripped_head (h.2.1 (by simp)) e.symm
          exact h1 _ rfl rfl
        · rintro t rfl ht
          obtain ⟨s', rfl, e⟩ := stripped_head (hc (by simp)) ht
          obtain ⟨s'', rfl, -⟩ := stripped_head (h.2.1 (by simp)) e.symm
          exact h2 _ rfl rfl
        · rintro t rfl ht
          obtain ⟨s', rfl, -⟩ := stripped_head (hc (by simp)) ht
          exact h3 _ rfl rfl
        · rintro t rfl ht
          obtain ⟨s', rfl, -⟩ := stripped_head (hc (by simp)) ht
          exact h4 _ rfl rfl

theorem endsBlank_found {c : Char} {s : Str} (h : endsBlank (c :: s) = true) :
    ∃ b, isBlank b = true ∧ ([b, '\n'] <:+: c :: s ∨ [b, '\r', '\n'] <:+: c :: s ∨ [b] <:+ c :: s) := by
  induction s generalizing c with
  | nil =>
    simp only [endsBlank, Bool.and_eq_true] at h
    exact ⟨c, h.1, .inr (.inr (List.suffix_refl _))⟩
  | cons d s ih =>
    simp only [endsBlank, Bool.and_eq_true] at h
    obtain ⟨hc, h⟩ := h
    cases hd : isBlank d with
    | true =>
      rw [List.dropWhile_cons_of_pos hd] at h
      obtain ⟨b, hb, h⟩ := ih (c := d) (by simp only [endsBlank, hd, h]; rfl)
      refine ⟨b, hb, ?_⟩
      have hs := List.suffix_cons c (d :: s)
      rcases h with h | h | h
      · exact .inl (h.trans hs.isInfix)
      · exact .inr (.inl (h.trans hs.isInfix))
      · exact .inr (.inr (h.trans hs))
    | false =>
      rw [List.dropWhile_cons_of_neg (by simp [hd])] at h
      refine ⟨c, hc, ?_⟩
      unfold lineEnds at h
      split at h
      · rename_i e; cases e
      · rename_i e; cases e; exact .inl (List.prefix_append [c, '\n'] _).isInfix
      · rename_i e; cases e; exact .inr (.inl (List.prefix_append [c, '\r', '\n'] _).isInfix)
      · cases h

theorem stripped_length (s : Str) : (stripped s).length ≤ s.length := by
  induction s with
  | nil => simp [stripped]
  | cons c s ih =>
    rw [stripped_cons]
    split <;> simp only [List.length_cons] <;> omega

/-! ### Names -/

section
variable [Uni]

theorem isName_noBlank {s : Str} (h : IsName s) : NoBlank s := by
  intro c hc
  cases hb : isBlank c with
  | false => rfl
  | true =>
    refine absurd (h c hc) (nameChar_stops ?_)
    rcases isBlank_iff.1 hb with rfl | rfl <;> simp

mutual
theorem names_noBlank {T : Str → Str → Prop} {br : Break} : (i : Item) → i.Ok br → i.NamesAre AnyName T → i.NamesAre NoBlank T
  | .prop k ps v, h, ha => by
    simp only [Item.Ok] at h
    simp only [Item.NamesAre] at ha ⊢
    exact ⟨isName_noBlank h.1.name, fun p hp => ⟨isName_noBlank (h.2.1 p hp).1, (ha.2 p hp).2⟩⟩
  | .comp b e n l, h, ha => by
    simp only [Item.Ok] at h
    simp only [Item.NamesAre] at ha ⊢
    exact ⟨isName_noBlank h.2.2.1, names_noBlanks l h.2.2.2 ha.2⟩
theorem names_noBlanks {T : Str → Str → Prop} {br : Break} : (l : List Item) → ItemsOk br l → ItemsNamesAre AnyName T l → ItemsNamesAre NoBlank T l
  | [], _, _ => by simp only [ItemsNamesAre]
  | i :: l, h, ha => by
    simp only [ItemsOk] at h
    simp only [ItemsNamesAre] at ha ⊢
    exact ⟨names_noBlank i h.1 ha.1, names_noBlanks l h.2 ha.2⟩
end

end

/-! ### C141 -/

/-- **C141.** Nothing changes exactly if no blank is followed by a line break or the end of the text. -/
theorem stripped_same (s : Str) : stripped s = s ↔
    ∀ b, isBlank b = true → ¬ [b, '\n'] <:+: s ∧ ¬ [b, '\r', '\n'] <:+: s ∧ ¬ [b] <:+ s := by
  constructor
  · intro h b hb
    have key : ∀ (s : Str), stripped s = s → ∀ r, r <:+ s → endsBlank r = false := by
      intro s
      induction s with
      | nil =>
        intro _ r hr
        rw [List.suffix_nil.1 hr]
        rfl
      | cons c s ih =>
        intro h r hr
        rw [stripped_cons] at h
        cases he : endsBlank (c :: s) with
        | true =>
          rw [he, if_pos rfl] at h
          have := congrArg List.length h
          have := stripped_length s
          simp only [List.length_cons] at *
          omega
        | false =>
          rw [he, if_neg (by decide)] at h
          rcases List.suffix_cons_iff.1 hr with rfl | hr
          · exact he
          · exact ih (List.cons.inj h).2 r hr
    refine ⟨?_, ?_, fun hi => ?_⟩
    · rintro ⟨p, r, rfl⟩
      have := key _ h (b :: '\n' :: r) ⟨p, by simp⟩
      rw [endsBlank, hb] at this
      simp [List.dropWhile, isBlank, lineEnds] at this
    · rintro ⟨p, r, rfl⟩
      have := key _ h (b :: '\r' :: '\n' :: r) ⟨p, by simp⟩
      rw [endsBlank, hb] at this
      simp [List.dropWhile, isBlank, lineEnds] at this
    · have := key _ h _ hi
      simp [endsBlank, hb, List.dropWhile, lineEnds] at this
  · intro h
    induction s with
    | nil => rfl
    | cons c s ih =>
      have hs := List.suffix_cons c s
      rw [stripped_cons, ih (fun b hb => ⟨fun hi => (h b hb).1 (hi.trans hs.isInfix), fun hi => (h b hb).2.1 (hi.trans hs.isInfix),
        fun hi => (h b hb).2.2 (hi.trans hs)⟩)]
      cases he : endsBlank (c :: s) with
      | false => rfl
      | true =>
        obtain ⟨b, hb, hx⟩ := endsBlank_found he
        obtain ⟨h1, h2, h3⟩ := h b hb
        rcases hx with hx | hx | hx
        · exact absurd hx h1
        · exact absurd hx h2
        · exact absurd hx h3

/-- **C141.** If nothing stands in the way, the text that is unfolded is the same with some blanks missing. -/
theorem stripped_text {s : Str} (h : SafeEnds s) : BlanksMissing (unfold s) (unfold (stripped s)) := lost_missing (unfold_stripped h)

section
variable [Uni]

/-- **C141.** A file that presents a document presents, without the blanks at the ends of its lines, the document with some
blanks missing in values. -/
theorem stripped_document {br : Break} {b e n : Str} {l : List Item} (h : (Item.comp b e n l).Ok br)
    (ha : (Item.comp b e n l).NamesAre AnyName PlainStart) {file : Str} (hp : Presents br (.comp b e n l) file) (hf : SafeEnds file) :
    ∃ l', SameButItems BlanksMissing l l' ∧ (Item.comp b e n l').Ok br ∧ Presents br (.comp b e n l') (stripped file) := by
  obtain ⟨l', h1, h2⟩ := presents_same lost_replaces h (names_noBlank _ h ha) hp (unfold_stripped hf)
  exact ⟨l', sameButItems_mono (fun _ _ h => lost_missing h) h1, h2⟩

/-- **C141.** It is read as the calendar with some blanks missing in values. -/
theorem stripped_calendar {br : Break} {b e : Str} {l : List Item} (h : (Item.comp b e c!"VCALENDAR" l).Ok br)
    (ha : (Item.comp b e c!"VCALENDAR" l).NamesAre AnyName PlainStart) {file : Str} (hp : Presents br (.comp b e c!"VCALENDAR" l) file)
    (hf : SafeEnds file) :
    ∃ c d, Calendar.fromStr file = some c ∧ Calendar.fromStr (stripped file) = some d ∧ SameButCal BlanksMissing c d :=
  presents_same_calendar lost_replaces h (names_noBlank _ h ha) hp (unfold_stripped hf)

/-- **C141.** A written calendar is read, without the blanks at the ends of lines, as the calendar with some blanks missing
in values. -/
theorem stripped_written {c : Calendar} (hc : CalendarOk c) (hs : CalendarSafe c)
    (hst : ∀ x ∈ c.comps, HasStamps x.toOther) (ha : NamesAreCal AnyName PlainStart c) {w : World} (hw : World.Ok w) {out : Str}
    (h : c.fmtWrite w = .ok out) (hf : SafeEnds out) :
    ∃ d, Calendar.fromStr (stripped out) = some d ∧ SameButCal BlanksMissing c d := by
  have hok := calendar_item_ok (calendarOk_writable hc) hw
  have hn := calendar_namesAre (K := AnyName) trivial trivial trivial ha hw
  have hp := presents_written hc hw h
  unfold Calendar.item at hok hn hp
  obtain ⟨c', d, e1, e2, e3⟩ := stripped_calendar hok hn hp hf
  rw [calendar_roundtrip c hc hs hst w hw out h] at e1
  cases e1
  exact ⟨d, e2, e3⟩

end

/-- a calendar with an ordinary sentence -/
def sentence : Calendar :=
  ⟨[⟨c!"DESCRIPTION", c!"The meeting takes place in the room at the end of an open hall upstairs, at noon", []⟩], []⟩

theorem sentence_ok : ∀ p ∈ sentence.props, @PropOk Uni.ascii p := by
  letI := Uni.ascii
  intro p hp
  rw [List.mem_singleton.1 hp]
  decide +kernel

/-- what is written for it -/
def sentenceText : Str :=
  c!"BEGIN:VCALENDAR\r\nDESCRIPTION:The meeting takes place in the room at the end of an open hall \r\n upstairs\\, at noon\r\nEND:VCALENDAR\r\n"

/-- **C141 (violated).** Folding ends lines with blanks: an ordinary sentence loses a space. -/
theorem stripped_violated : letI := Uni.ascii
    CalendarOk sentence ∧ CalendarSafe sentence ∧ NamesAreCal AnyName PlainStart sentence ∧ SafeEnds sentenceText ∧
    (∃ w, World.Ok w ∧ sentence.fmtWrite w = .ok sentenceText) ∧ Calendar.fromStr sentenceText = some sentence ∧
    Calendar.fromStr (stripped sentenceText) ≠ some sentence := by
  letI := Uni.ascii
  let w : World := ⟨fun _ => ⟨⟨⟨2026, 1, 1⟩, 0, 0, 0, 0⟩⟩, fun _ => c!"01234567-89ab-cdef-0123-456789abcdef", fun _ l => l⟩
  have hw : World.Ok w := ⟨fun _ _ => .refl _, fun _ => by simp only [w]; decide, fun _ => by simp only [w]; decide⟩
  have hc : CalendarOk sentence := ⟨sentence_ok, fun _ h => by cases h⟩
  have hs : CalendarSafe sentence := ⟨by decide +kernel, fun _ h => by cases h⟩
  have ht : sentence.fmtWrite w = .ok sentenceText := by decide +kernel
  refine ⟨hc, hs, ⟨fun p hp => ?_, fun _ h => by cases h⟩, by decide +kernel, ⟨w, hw, ht⟩,
    calendar_roundtrip _ hc hs (fun _ h => by cases h) w hw _ ht, fun h => ?_⟩
  · rw [List.mem_singleton.1 hp]
    exact ⟨trivial, fun _ h => by cases h⟩
  · have : (Calendar.fromStr (stripped sentenceText)).map (fun c => c.props.map (·.val)) ≠
      some [c!"The meeting takes place in the room at the end of an open hall upstairs, at noon"] := by decide +kernel
    rw [h] at this
    exact this rfl

end Ical
