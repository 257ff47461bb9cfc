import Verif.Props.Streams
import Verif.Props.Written

/-!
C124: texts before and after a calendar.
-/

namespace Ical

open Nom Spec

/-- What a text stands for that comes after a line break: if it starts with a space or tab, these two are a fold
marker and it continues the line before. -/
def Spec.afterBreak : Str → Str
  | ' ' :: s => unfoldSpec s
  | '\t' :: s => unfoldSpec s
  | s => unfoldSpec s

/-- what is unfolded in front of a text that starts with neither a line feed nor a blank -/
theorem unfoldSpec_then (p : Str) (x : Char) (t : Str) (hx : x ∉ [' ', '\t', '\n']) :
    unfoldSpec (p ++ x :: t) = unfoldSpec p ++ unfoldSpec (x :: t) := by
  simp only [List.mem_cons, List.not_mem_nil, or_false, not_or] at hx
  obtain ⟨h1, h2, h3⟩ := hx
  fun_induction unfoldSpec p with
  | case1 => rfl
  | case2 s ih => simpa [unfoldSpec] using ih
  | case3 s ih => simpa [unfoldSpec] using ih
  | case4 s ih => simpa [unfoldSpec] using ih
  | case5 s ih => simpa [unfoldSpec] using ih
  | case6 c s n1 n2 n3 n4 ih =>
    rw [List.cons_append, unfoldSpec_cons, ih, List.cons_append]
    rintro m ⟨u, hu⟩
    clear ih
    rcases s with _ | ⟨a, _ | ⟨b, s⟩⟩ <;> cases m <;> simp [Marker.text] at hu <;> grind

variable [Uni]

omit [Uni] in
theorem mem_of_unfoldSpec {x : Char} {s : Str} (h : x ∈ unfoldSpec s) : x ∈ s := by
  fun_induction unfoldSpec s with
  | case1 => exact h
  | case2 s ih => simp [ih h]
  | case3 s ih => simp [ih h]
  | case4 s ih => simp [ih h]
  | case5 s ih => simp [ih h]
  | case6 c s _ _ _ _ ih =>
    rcases List.mem_cons.1 h with h | h
    · simp [h]
    · simp [ih h]

omit [Uni] in
theorem lower_b {x : Char} (h : lowerAscii x = 'b') : x = 'b' ∨ x = 'B' := by
  unfold lowerAscii at h
  split at h
  · rename_i h1
    simp at h1
    have h3 := congrArg Char.toNat h
    rw [char_toNat_ofNat (by unfold Nat.isValidChar; omega)] at h3
    refine .inr (Char.toNat_inj.1 ?_)
    have h4 : 'b'.toNat = 98 := rfl
    have h5 : 'B'.toNat = 66 := rfl
    omega
  · exact .inl h

omit [Uni] in
theorem blank_tail {s : Str} (h : Blank (Break.crlf.text ++ s)) : Blank s := by
  obtain ⟨bs, hb⟩ := h
  cases bs with
  | nil => cases hb
  | cons b bs =>
    refine ⟨bs, ?_⟩
    cases b
    all_goals simp [Break.text] at hb
    exact hb

/-- what is written for a calendar ends with a line break -/
theorem calendar_ends {c : Calendar} {w : World} {out : Str} (h : c.fmtWrite w = .ok out) :
    ∃ t, out = t ++ ['\r', '\n'] := by
  unfold Calendar.fmtWrite at h
  cases hps : fmtProps c.props (w.sub 0) with
  | error e => simp only [hps] at h; cases h
  | ok ps =>
    cases hcs : fmtComps c.comps (w.sub 1) with
    | error e => simp only [hps, hcs] at h; cases h
    | ok cs =>
      simp only [hps, hcs] at h
      cases h
      exact ⟨c!"BEGIN:VCALENDAR\r\n" ++ ps ++ cs ++ c!"END:VCALENDAR", by simp [crlf]⟩

/-- reading a component with a text before it and a text after it, where the line break after it may be missing -/
theorem component_around {b e name : Str} {items : List Item} (h : (Item.comp b e name items).Ok .crlf)
    {lead tail r : Str} (hl : Blank lead) (ht : Blank tail) (hr : NoBreak r) :
    component (lead ++ (b ++ name ++ Break.crlf.text ++ itemsText .crlf items ++ e ++ name ++ (tail ++ r))) =
      .ok r (.mk name (itemsProps items) (itemsComps items)) := by
  have := component_spaced h hl blank_nil (spacedAll_self .crlf items) ht (r := r) (noBreak_iff.1 hr)
    (by intro h; cases h)
  simpa using this

/-- **C124 (what holds of it).** Exactly what is read from the text of a calendar with other text around it, if the
text before has no letter B: the calendar if there are only blank lines before and after it, and otherwise, silently,
a calendar without anything in it. -/
theorem around_exact_partial (c : Calendar) (hc : CalendarWritable c) (w : World) (hw : World.Ok w) (out : Str)
    (h : c.fmtWrite w = .ok out) (before after : Str) (hb : 'b' ∉ before ∧ 'B' ∉ before) :
    (Blank (unfoldSpec before) ∧ Blank (afterBreak after) →
      Calendar.fromStr (before ++ out ++ after) = Calendar.fromStr out) ∧
    (¬ (Blank (unfoldSpec before) ∧ Blank (afterBreak after)) →
      Calendar.fromStr (before ++ out ++ after) = some ⟨[], []⟩) := by
  have hok := calendar_item_ok hc hw
  have hout := unfold_calendar hc hw h
  obtain ⟨o, ho⟩ := calendar_starts h
  unfold Calendar.item at hok hout
  -- the text up to the last line break
  obtain ⟨body, hbody⟩ : ∃ body : List Item, body = propItems c.props (w.sub 0) ++ compItems c.comps (w.sub 1) := ⟨_, rfl⟩
  rw [← hbody] at hok hout
  have hafter : ∃ x, unfoldSpec (out ++ after) =
      c!"BEGIN:" ++ c!"VCALENDAR" ++ Break.crlf.text ++ itemsText .crlf body ++ c!"END:" ++ c!"VCALENDAR" ++ x ∧
      (Blank x ↔ Blank (afterBreak after)) := by
    have hcont : ∀ m s, m = Marker.crlfSp ∨ m = Marker.crlfTab → Break.crlf.text ++ after = m.text ++ s →
        afterBreak after = unfoldSpec s → ∃ x, unfoldSpec (out ++ after) =
          c!"BEGIN:" ++ c!"VCALENDAR" ++ Break.crlf.text ++ itemsText .crlf body ++ c!"END:" ++ c!"VCALENDAR" ++ x ∧
          (Blank x ↔ Blank (afterBreak after)) := by
      intro m s hm he hs
      obtain ⟨o', ho'⟩ := calendar_ends h
      have h1 := unfoldSpec_break o' .crlf [] noIndent_nil
      rw [List.append_nil, show Break.crlf.text = ['\r', '\n'] from rfl, ← ho', ← unfold_eq_spec, hout] at h1
      have h2 := unfoldSpec_append_marker o' m s (by rintro h; rcases hm with rfl | rfl <;> cases h)
      rw [← he, ← List.append_assoc, show Break.crlf.text = ['\r', '\n'] from rfl, ← ho'] at h2
      refine ⟨unfoldSpec s, ?_, by rw [hs]⟩
      rw [h2]
      congr 1
      rw [show unfoldSpec [] = [] from rfl] at h1
      simp only [Item.text, Break.text, List.append_nil] at h1
      rw [← List.append_assoc] at h1
      simpa [Break.text] using (List.append_cancel_right h1).symm
    have hplain : NoIndent after → afterBreak after = unfoldSpec after → ∃ x, unfoldSpec (out ++ after) =
          c!"BEGIN:" ++ c!"VCALENDAR" ++ Break.crlf.text ++ itemsText .crlf body ++ c!"END:" ++ c!"VCALENDAR" ++ x ∧
          (Blank x ↔ Blank (afterBreak after)) := by
      intro h1 h2
      refine ⟨Break.crlf.text ++ unfoldSpec after, ?_, ?_⟩
      · rw [unfold_calendar_then hc hw h h1, Calendar.item, ← hbody]
        simp [Item.text]
      · rw [h2]
        exact ⟨blank_tail, blank_break .crlf⟩
    match after, hcont, hplain with
    | ' ' :: s, hcont, _ => exact hcont .crlfSp s (.inl rfl) rfl rfl
    | '\t' :: s, hcont, _ => exact hcont .crlfTab s (.inr rfl) rfl rfl
    | [], _, hplain => exact hplain noIndent_nil rfl
    | a :: s, hcont, hplain =>
      by_cases h1 : a = ' '
      · subst h1; exact hcont .crlfSp s (.inl rfl) rfl rfl
      · by_cases h2 : a = '\t'
        · subst h2; exact hcont .crlfTab s (.inr rfl) rfl rfl
        · refine hplain (noIndent_cons h1 h2) ?_
          unfold afterBreak
          split <;> simp_all
  obtain ⟨x, hx, hxb⟩ := hafter
  have hall : unfold (before ++ out ++ after) = unfoldSpec before ++
      (c!"BEGIN:" ++ c!"VCALENDAR" ++ Break.crlf.text ++ itemsText .crlf body ++ c!"END:" ++ c!"VCALENDAR" ++ x) := by
    rw [unfold_eq_spec, ← hx, ho, List.append_assoc, List.cons_append]
    exact unfoldSpec_then _ _ _ (by decide)
  rw [← hxb]
  have hwhole : component (unfold out) = .ok [] (.mk c!"VCALENDAR" (itemsProps body) (itemsComps body)) := by
    rw [hout]
    exact component_doc hok (by intro h; cases h)
  obtain ⟨lead, f, he, hl, hf⟩ := blank_split (unfoldSpec before)
  obtain ⟨tail, r, he', ht, hr⟩ := blank_split x
  have hnb : NoBreak [] := noBreak_iff.2 lineEnding_nil
  have e1 : Blank (unfoldSpec before) ↔ f = [] := by
    constructor
    · intro hb
      exact (blank_unique hl hb hf hnb (by rw [← he, List.append_nil])).2
    · rintro rfl; rw [he, List.append_nil]; exact hl
  have e2 : Blank x ↔ r = [] := by
    constructor
    · intro hb
      exact (blank_unique ht hb hr hnb (by rw [← he', List.append_nil])).2
    · rintro rfl; rw [he', List.append_nil]; exact ht
  rw [e1, e2]
  constructor
  · rintro ⟨rfl, rfl⟩
    have := component_around hok hl ht hr
    rw [List.append_nil] at he
    rw [← he', ← he, ← hall] at this
    unfold Calendar.fromStr readCalendar
    rw [components_ok this, components_ok hwhole]
  · intro hn
    by_cases hf0 : f = []
    · subst hf0
      have := component_around hok hl ht hr
      rw [List.append_nil] at he
      rw [← he', ← he, ← hall] at this
      exact trailing_text_violated this (fun h => hn ⟨rfl, h⟩)
    · apply not_calendar_violated
      rw [hall, he]
      rintro ⟨lead', b, rest, h1, h2, h3⟩
      match f, hf0 with
      | a :: f, _ =>
        have ha : a ≠ 'b' ∧ a ≠ 'B' := by
          have : a ∈ before := mem_of_unfoldSpec (by rw [he]; simp)
          exact ⟨fun h => hb.1 (h ▸ this), fun h => hb.2 (h ▸ this)⟩
        match b, h3 with
        | b0 :: b, h3 =>
          have hb0 : lowerAscii b0 = 'b' := by simpa using congrArg List.head? h3
          have hb0' : b0 = 'b' ∨ b0 = 'B' := lower_b hb0
          have n1 : NoBreak (b0 :: b ++ rest) := by
            constructor <;> rintro ⟨u, hu⟩ <;> simp at hu <;> rcases hb0' with h | h <;> simp [h] at hu
          have n2 : NoBreak (a :: f ++ (c!"BEGIN:" ++ c!"VCALENDAR" ++ Break.crlf.text ++ itemsText .crlf body ++ c!"END:" ++
              c!"VCALENDAR" ++ x)) := by
            obtain ⟨m1, m2⟩ := hf
            constructor
            · rintro ⟨u, hu⟩
              apply m1
              simp at hu
              exact ⟨f, by rw [← hu.1]; rfl⟩
            · rintro ⟨u, hu⟩
              apply m2
              match f, hu with
              | [], hu => simp at hu
              | d :: f, hu =>
                simp at hu
                exact ⟨f, by rw [← hu.1, ← hu.2.1]; rfl⟩
          have := (blank_unique hl h2 n2 n1 (by rw [← List.append_assoc]; rw [h1]; simp)).2
          simp at this
          rcases hb0' with h | h
          · exact ha.1 (this.1.trans h)
          · exact ha.2 (this.1.trans h)

/-- **C124 (violated).** A calendar after a byte order mark or a space, one that is followed by the character some
programs end files with (Control-Z), and one followed by two spaces are each read as a calendar without anything in it,
without an error. -/
theorem around_violated (c : Calendar) (hc : CalendarWritable c) (w : World) (hw : World.Ok w) (out : Str)
    (h : c.fmtWrite w = .ok out) (after : Str) :
    Calendar.fromStr ('\uFEFF' :: out ++ after) = some ⟨[], []⟩ ∧
    Calendar.fromStr (' ' :: out ++ after) = some ⟨[], []⟩ ∧
    Calendar.fromStr (out ++ c!"\r\n\x1A") = some ⟨[], []⟩ ∧
    Calendar.fromStr (out ++ c!"  ") = some ⟨[], []⟩ := by
  have hbl : ∀ x : Char, x ≠ '\r' → x ≠ '\n' → ∀ t, ¬ Blank (x :: t) := by
    rintro x h1 h2 t ⟨bs, hb⟩
    cases bs with
    | nil => cases hb
    | cons b bs => cases b <;> simp [Break.text] at hb <;> simp_all
  have hcl : ∀ t, ¬ Blank ('\r' :: '\n' :: '\x1A' :: t) := fun t hb =>
    hbl '\x1A' (by decide) (by decide) t (blank_tail hb)
  refine ⟨?_, ?_, ?_, ?_⟩
  · exact (around_exact_partial c hc w hw out h ['\uFEFF'] after (by decide)).2
      (fun hb => hbl _ (by decide) (by decide) _ hb.1)
  · exact (around_exact_partial c hc w hw out h [' '] after (by decide)).2
      (fun hb => hbl _ (by decide) (by decide) _ hb.1)
  · exact (around_exact_partial c hc w hw out h [] c!"\r\n\x1A" (by decide)).2 (fun hb => hcl _ hb.2)
  · exact (around_exact_partial c hc w hw out h [] c!"  " (by decide)).2
      (fun hb => hbl _ (by decide) (by decide) _ hb.2)

omit [Uni] in
/-- a calendar with blank lines around it, with a byte order mark, with a space in front, in an indented last line, and
with text after it -/
example : let w : World := ⟨fun _ => ⟨⟨⟨2026, 1, 1⟩, 0, 0, 0, 0⟩⟩, fun _ => c!"0-f", fun _ l => l⟩
    ∃ out, @Calendar.fmtWrite Uni.ascii Calendar.new w = .ok out ∧
      [c!"\r\n\n \n" ++ out ++ c!" \r\n\n", '\uFEFF' :: out, ' ' :: out, out ++ c!"  ", out ++ c!"bye"].map
        (fun s => (@Calendar.fromStr Uni.ascii s).map (fun c => c.props.length)) =
      [some 3, some 0, some 0, some 0, some 0] := by
  refine ⟨_, rfl, ?_⟩
  decide +kernel

end Ical
