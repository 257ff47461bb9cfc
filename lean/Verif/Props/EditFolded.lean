import Verif.Spec.EditFolded
import Verif.Props.ReplaceLines
import Verif.Props.Rename

/-!
C154: removing or replacing the lines of a property together with the lines that continue them.
-/

namespace Ical

open Nom Spec

/-! ### lines -/

section

variable {k line uline : Str}

/-- what `replaceFolded` does, also behind a line that has been replaced -/
def edited (k line : Str) (drop : Bool) (s : Str) : Str := (editFolded k line drop (cutLines s)).flatten

theorem edited_nil (drop : Bool) : edited k line drop [] = [] := by cases drop <;> rfl

theorem not_continues {x : Str} (h : NoIndent x) : ¬ Continues x := fun hc => continues_iff.1 hc h

theorem named_kept (hi : NoIndent k) {x : Str} (h : NamedLine k x) : ¬ Continues x := not_continues (named_noIndent hi h)

theorem edited_last (hi : NoIndent k) {x : Str} (h : NoLf x) : edited k line false x = if NamedLine k x then line else x := by
  unfold edited
  rw [cutLines_last h]
  by_cases hx : x = []
  · subst hx
    rw [if_pos rfl, if_neg]
    · rfl
    · rintro (h | h) <;> simp at h
  · rw [if_neg hx, editFolded]
    by_cases hn : NamedLine k x
    · simp [hn, named_kept hi hn, editFolded]
    · by_cases hc : Continues x <;> simp [hn, hc, editFolded]

theorem edited_line (hk : NoLf k) (hi : NoIndent k) {x : Str} (h : NoLf x) (r : Str) :
    edited k line false (x ++ '\n' :: r) =
      if NamedLine k x then line ++ edited k line true r else x ++ '\n' :: edited k line false r := by
  unfold edited
  rw [cutLines_line h, editFolded]
  have := named_line hk x []
  by_cases hn : NamedLine k x
  · have hc := named_kept hi (named_append ['\n'] hn)
    simp [hn, hc, this]
  · by_cases hc : Continues (x ++ ['\n']) <;> simp [hn, hc, this]

/-- lines that continue one that has been replaced are left out -/
theorem edited_dropped {b : Char} (hb : b = ' ' ∨ b = '\t') {x : Str} (h : NoLf x) (r : Str) :
    edited k line true (b :: x ++ '\n' :: r) = edited k line true r := by
  unfold edited
  have hbx : NoLf (b :: x) := by
    rcases hb with rfl | rfl <;> simpa [NoLf] using h
  rw [cutLines_line hbx, editFolded, if_pos, if_pos rfl]
  rcases hb with rfl | rfl
  · exact .inl ⟨x ++ ['\n'], rfl⟩
  · exact .inr ⟨x ++ ['\n'], rfl⟩

theorem edited_dropped_last {b : Char} (hb : b = ' ' ∨ b = '\t') {x : Str} (h : NoLf x) : edited k line true (b :: x) = [] := by
  unfold edited
  have hbx : NoLf (b :: x) := by
    rcases hb with rfl | rfl <;> simpa [NoLf] using h
  rw [cutLines_last hbx, if_neg (by simp), editFolded, if_pos, if_pos rfl]
  · rfl
  · rcases hb with rfl | rfl
    · exact .inl ⟨x, rfl⟩
    · exact .inr ⟨x, rfl⟩

/-- other lines are not left out -/
theorem edited_next {s : Str} (h : NoIndent s) (drop : Bool) : edited k line drop s = edited k line false s := by
  unfold edited
  cases s with
  | nil => cases drop <;> rfl
  | cons c s =>
    obtain ⟨y, l, e⟩ := cutLines_head (b := c) (r := s)
    have hc : ¬ Continues (c :: y) := not_continues (by simpa [NoIndent] using h)
    rw [e, editFolded, editFolded, if_neg hc, if_neg hc]

theorem edited_noIndent (hk : NoLf k) (hi : NoIndent k) (hl : NoIndent line) (n : Nat) : ∀ s : Str, s.length ≤ n →
    NoIndent (edited k line true s) ∧ (NoIndent s → NoIndent (edited k line false s)) := by
  induction n with
  | zero =>
    intro s hs
    obtain rfl : s = [] := List.length_eq_zero_iff.1 (by omega)
    exact ⟨noIndent_nil, fun _ => noIndent_nil⟩
  | succ n ih =>
    intro s hs
    have h2 : NoIndent s → NoIndent (edited k line false s) := by
      intro h
      rcases cut_first s with hx | ⟨x, r, hx, rfl⟩
      · rw [edited_last hi hx]
        split
        · exact hl
        · exact h
      · rw [edited_line hk hi hx]
        split
        · exact noIndent_append hl (ih r (by simp at hs; omega)).1
        · cases x with
          | nil => simp [NoIndent]
          | cons c x => simpa [NoIndent] using h
    refine ⟨?_, h2⟩
    rcases noIndent_cases s with h | ⟨b, r, hb, rfl⟩
    · rw [edited_next h]
      exact h2 h
    · rcases cut_first r with hx | ⟨x, r, hx, rfl⟩
      · rw [edited_dropped_last hb hx]
        exact noIndent_nil
      · rw [← List.cons_append, edited_dropped hb hx]
        exact (ih r (by simp at hs; omega)).1

theorem named_content (hr : '\r' ∉ k) (x : Str) : NamedLine k (lineContent (x ++ ['\n'])) ↔ NamedLine k x := by
  by_cases h : ['\r'] <:+ x
  · obtain ⟨y, rfl⟩ := h
    rw [lineContent_crlf]
    unfold NamedLine
    rw [prefix_before (d := '\r') (by simpa using hr), prefix_before (d := '\r') (by simpa using hr)]
  · rw [lineContent_lf h]

/-- replacing folded lines in a file and lines in the unfolded file comes to the same -/
theorem edit_unfold (hl : Unfolds line uline) (hk : NoLf k) (hr : '\r' ∉ k) (hi : NoIndent k) (n : Nat) :
    ∀ s : Str, s.length ≤ n → NotCut k (cutLines s) →
    unfoldSpec (edited k line false s) = replaceLines k uline (unfoldSpec s) ∧
    ∀ acc b r, NoLf acc → (b = ' ' ∨ b = '\t') → s = b :: r →
      (NamedLine k acc → replaceLines k uline (acc ++ unfoldSpec r) = uline ++ unfoldSpec (edited k line true s)) ∧
      (Decided k acc → ∃ r', edited k line false s = b :: r' ∧ replaceLines k uline (acc ++ unfoldSpec r) = acc ++ unfoldSpec r') := by
  induction n with
  | zero =>
    intro s hs _
    obtain rfl : s = [] := List.length_eq_zero_iff.1 (by omega)
    exact ⟨rfl, fun _ _ _ _ _ h => by cases h⟩
  | succ n ih =>
    intro s hs hn
    have hni : ∀ s, NoIndent (edited k line true s) := fun s => (edited_noIndent hk hi hl.1 _ s (Nat.le_refl _)).1
    have hni' : ∀ {s}, NoIndent s → NoIndent (edited k line false s) := fun {s} => (edited_noIndent hk hi hl.1 _ s (Nat.le_refl _)).2
    constructor
    · rcases cut_first s with hx | ⟨x, r, hx, rfl⟩
      · rw [noLf_unfold hx, replaceLines_last hx, edited_last hi hx]
        split
        · exact unfolds_all hl
        · exact noLf_unfold hx
      · have hlen : r.length ≤ n := by simp at hs; omega
        have hn' := notCut_tail hx hn
        rw [edited_line hk hi hx]
        rcases noIndent_cases r with hr' | ⟨b, r, hb, rfl⟩
        · rw [unfold_next hx hr', replaceLines_line hk hx, ← (ih r hlen hn').1]
          split
          · rw [hl.2 _ (hni r), edited_next hr']
          · rw [unfold_next hx (hni' hr')]
            simp
        · have h2 := notCut_head hx hb hn
          have hc : NoLf (lineContent (x ++ ['\n'])) := fun e => hx ((content_prefix x).subset e)
          obtain ⟨i1, i2⟩ := (ih _ hlen hn').2 _ b r hc hb rfl
          rw [unfold_continued hx hb]
          split
          · rename_i hnm
            rw [hl.2 _ (hni _), i1 ((named_content hr x).2 hnm)]
          · rename_i hnm
            obtain ⟨r', e1, e2⟩ := i2 (decided_of (fun h => hnm ((named_content hr x).1 h)) h2)
            rw [e1, e2, unfold_continued hx hb]
    · rintro acc b r ha hb rfl
      have hnb : ∀ y, ¬ NamedLine k (b :: y) := by
        intro y hy
        have := named_noIndent hi hy
        rcases hb with rfl | rfl <;> simp [NoIndent] at this
      rcases cut_first r with hx | ⟨x, r, hx, rfl⟩
      · have hax : NoLf (acc ++ r) := by simpa [NoLf] using ⟨ha, hx⟩
        refine ⟨fun hd => ?_, fun hd => ⟨r, ?_, ?_⟩⟩
        · rw [noLf_unfold hx, replaceLines_last hax, if_pos (named_append r hd), edited_dropped_last hb hx]
          simp [unfoldSpec]
        · have hbx : NoLf (b :: r) := by
            rcases hb with rfl | rfl <;> simpa [NoLf] using hx
          rw [edited_last hi hbx, if_neg (hnb r)]
        · rw [noLf_unfold hx, replaceLines_last hax, if_neg (hd r)]
      · have hbx : NoLf (b :: x) := by
          rcases hb with rfl | rfl <;> simpa [NoLf] using hx
        have hax : NoLf (acc ++ x) := by simpa [NoLf] using ⟨ha, hx⟩
        rw [← List.cons_append] at hn hs ⊢
        have hlen : r.length ≤ n := by simp at hs; omega
        have hn' := notCut_tail hbx hn
        constructor
        · intro hd
          rw [edited_dropped hb hx]
          rcases noIndent_cases r with hr' | ⟨b', r, hb', rfl⟩
          · rw [unfold_next hx hr', ← List.append_assoc, replaceLines_line hk hax, if_pos (named_append x hd), edited_next hr',
              (ih r hlen hn').1]
          · have hc : NoLf (lineContent (x ++ ['\n'])) := fun e => hx ((content_prefix x).subset e)
            obtain ⟨i1, -⟩ := (ih _ hlen hn').2 (acc ++ lineContent (x ++ ['\n'])) b' r (by simpa [NoLf] using ⟨ha, hc⟩) hb' rfl
            rw [unfold_continued hx hb', ← List.append_assoc, i1 (named_append _ hd)]
        · intro hd
          refine ⟨x ++ '\n' :: edited k line false r, ?_, ?_⟩
          · rw [edited_line hk hi hbx, if_neg (hnb x)]
            simp
          · rcases noIndent_cases r with hr' | ⟨b', r, hb', rfl⟩
            · rw [unfold_next hx hr', unfold_next hx (hni' hr'), ← List.append_assoc, replaceLines_line hk hax, if_neg (hd x),
                (ih r hlen hn').1]
              simp
            · have hc : NoLf (lineContent (x ++ ['\n'])) := fun e => hx ((content_prefix x).subset e)
              obtain ⟨-, i2⟩ := (ih _ hlen hn').2 (acc ++ lineContent (x ++ ['\n'])) b' r (by simpa [NoLf] using ⟨ha, hc⟩) hb' rfl
              obtain ⟨r', e1, e2⟩ := i2 (fun t => by rw [List.append_assoc]; exact hd _)
              rw [e1, unfold_continued hx hb', unfold_continued hx hb', ← List.append_assoc, e2, List.append_assoc]

theorem replaceLines_empty (s : Str) : replaceLines k [] s = withoutLines k s := by
  unfold replaceLines withoutLines
  induction cutLines s with
  | nil => rfl
  | cons x l ih =>
    rw [List.map_cons, List.flatten_cons, ih]
    by_cases h : NamedLine k x <;> simp [h]

/-- **C154.** If no line is continued that ends within the name, then removing the lines of the name from the file, together
with the lines that continue them, comes to the same as removing the lines of the name from the unfolded file. -/
theorem removed_folded (hk : ∀ c ∈ k, c ≠ '\n' ∧ c ≠ '\r' ∧ c ≠ ' ' ∧ c ≠ '\t') {s : Str} (hn : NotCut k (cutLines s)) :
    unfold (withoutFolded k s) = withoutLines k (unfold s) := by
  rw [unfold_eq_spec, unfold_eq_spec, ← replaceLines_empty]
  exact (edit_unfold unfolds_nil (fun h => (hk _ h).1 rfl) (fun h => (hk _ h).2.1 rfl) (noIndent_plain hk) _ s (Nat.le_refl _) hn).1

/-- **C154.** If no line is continued that ends within the name, then putting a line in place of those of the name in the
file, and of the lines that continue them, comes to the same as replacing the lines of the name in the unfolded file. -/
theorem replaced_folded (hk : ∀ c ∈ k, c ≠ '\n' ∧ c ≠ '\r' ∧ c ≠ ' ' ∧ c ≠ '\t') {x s : Str} (hx : NoLf x)
    (hxi : NoIndent (x ++ ['\n'])) (hn : NotCut k (cutLines s)) :
    unfold (replaceFolded k (x ++ ['\n']) s) = replaceLines k (x ++ ['\n']) (unfold s) := by
  rw [unfold_eq_spec, unfold_eq_spec]
  have hl : Unfolds (x ++ ['\n']) (x ++ ['\n']) := by
    refine ⟨hxi, fun t ht => ?_⟩
    have := unfold_next hx ht
    simpa using this
  exact (edit_unfold hl (fun h => (hk _ h).1 rfl) (fun h => (hk _ h).2.1 rfl) (noIndent_plain hk) _ s (Nat.le_refl _) hn).1

end

/-! ### calendars -/

section

variable [Uni] {k : Str}

theorem name_unblank (hk : IsName k) : ∀ c ∈ k, c ≠ '\n' ∧ c ≠ '\r' ∧ c ≠ ' ' ∧ c ≠ '\t' := by
  obtain ⟨-, -, h2, h3⟩ := name_plain hk
  exact fun c hc => ⟨(h3 c hc).1, fun e => h2 (e ▸ hc), (h3 c hc).2⟩

/-- **C154.** Removing the lines of a name and those that continue them from a file removes the properties of this name from
the calendar that is read, at any depth, and changes nothing else. -/
theorem removed_calendar (hk : KeyOk k) {br : Break} {b e : Str} {l : List Item} (h : (Item.comp b e c!"VCALENDAR" l).Ok br)
    (hu : (Item.comp b e c!"VCALENDAR" l).Unbroken) {file : Str} (hp : Presents br (.comp b e c!"VCALENDAR" l) file)
    (hn : NotCut k (cutLines file)) :
    ∃ c d, Calendar.fromStr file = some c ∧ Calendar.fromStr (withoutFolded k file) = some d ∧ CalendarWithout k c d := by
  obtain ⟨h', hp'⟩ := presents_redacted hk h hu hp (removed_folded (name_unblank hk.name) hn)
  exact ⟨_, _, calendar_presented h hp, calendar_presented h' hp', props_without k l, kinds_without k l⟩

/-- **C154.** A written calendar is read, without the lines of a name and those that continue them, as the calendar without
the properties of this name. -/
theorem removed_written (hk : KeyOk k) {c : Calendar} (hc : CalendarOk c) (hs : CalendarSafe c)
    (hst : ∀ x ∈ c.comps, HasStamps x.toOther) (hu : UnbrokenCal c) (hf : ∀ p ∈ calendarProps c, Findable p) {w : World}
    (hw : World.Ok w) {out : Str} (h : c.fmtWrite w = .ok out) :
    ∃ d, Calendar.fromStr (withoutFolded k out) = some d ∧ CalendarWithout k c d := by
  have hok := calendar_item_ok (calendarOk_writable hc) hw
  have hi := calendar_unbroken hc hu hw
  have hp := presents_written hc hw h
  unfold Calendar.item at hok hi hp
  obtain ⟨c', d, e1, e2, e3⟩ := removed_calendar hk hok hi hp (written_notCut hk hc hu hf hw h)
  rw [calendar_roundtrip c hc hs hst w hw out h] at e1
  cases e1
  exact ⟨d, e2, e3⟩

/-- **C154.** Putting a line in place of those of its name in a file, and of the lines that continue them, replaces the
properties of this name in the calendar that is read, at any depth, and changes nothing else. -/
theorem exchanged_calendar (hk : KeyOk k) {params : List DParam} {val : Str} {br : Break} {b e : Str} {l : List Item}
    (h : (Item.comp b e c!"VCALENDAR" l).Ok br) (hu : (Item.comp b e c!"VCALENDAR" l).Unbroken) {file : Str}
    (hp : Presents br (.comp b e c!"VCALENDAR" l) file) (hn : NotCut k (cutLines file)) (hi : (Item.prop k params val).Ok br)
    (hiu : (Item.prop k params val).Unbroken) :
    ∃ c d, Calendar.fromStr file = some c ∧
      Calendar.fromStr (replaceFolded k ((Item.prop k params val).text br) file) = some d ∧
      CalendarWithReplaced (meaningProp k params val).toProperty c d := by
  obtain ⟨h', hp'⟩ := presents_restated hk h hu hp hi hiu (out := replaceFolded k ((Item.prop k params val).text br) file) (by
    have hc := name_unblank hk.name
    rw [unfold_eq_spec, unfold_eq_spec]
    exact (edit_unfold (unfolds_prop hi hiu) (fun h => (hc _ h).1 rfl) (fun h => (hc _ h).2.1 rfl) (noIndent_plain hc) _ file
      (Nat.le_refl _) hn).1)
  exact ⟨_, _, calendar_presented h hp, calendar_presented h' hp', props_restated k l, kinds_restated k l⟩

/-- **C154.** A written calendar is read, with the line of a property in place of those of its name and of the lines that
continue them, as the calendar with this property in place of the properties of its name. -/
theorem exchanged_written {c : Calendar} (hc : CalendarOk c) (hs : CalendarSafe c) (hst : ∀ x ∈ c.comps, HasStamps x.toOther)
    (hu : UnbrokenCal c) (hf : ∀ p ∈ calendarProps c, Findable p) {w : World} (hw : World.Ok w) {out : Str}
    (h : c.fmtWrite w = .ok out) {p : Property} (hp : PropOk p) (hps : ValueSafe p) (hpu : UnbrokenProp p) {w' : World}
    (hw' : World.Ok w') {line : Str} (hl : p.fmtWrite w' = .ok line) :
    ∃ d, Calendar.fromStr (replaceFolded p.key line out) = some d ∧ CalendarWithReplaced p c d := by
  have hok := calendar_item_ok (calendarOk_writable hc) hw
  have hi := calendar_unbroken hc hu hw
  have hpr := presents_written hc hw h
  have e1 := calendar_roundtrip c hc hs hst w hw out h
  unfold Calendar.item at hok hi hpr
  obtain ⟨h', hp'⟩ := presents_restated hp.key hok hi hpr (item_of_prop_ok hw' hp.key hp.params hp.value)
    (propItem_unbroken hp hpu hw') (out := replaceFolded p.key line out) (by
      have hk := name_unblank hp.key.name
      rw [unfold_eq_spec, unfold_eq_spec]
      exact (edit_unfold (flatTo_property hp hpu hw' hl).unfolds (fun h => (hk _ h).1 rfl) (fun h => (hk _ h).2.1 rfl)
        (noIndent_plain hk) _ out (Nat.le_refl _) (written_notCut hp.key hc hu hf hw h)).1)
  rw [calendar_presented hok hpr] at e1
  have hm := meaning_dparams p hp.params.sorted (hw'.order [] p.params)
  rw [readBack_eq hps] at hm
  rw [← Option.some.inj e1]
  refine ⟨_, calendar_presented h' hp', ?_, ?_⟩
  · have := props_restated (params := (w'.order [] p.params).map dparam) (val := p.valueText) p.key
      (propItems c.props (w.sub 0) ++ compItems c.comps (w.sub 1))
    rw [hm] at this
    exact this
  · have := kinds_restated (params := (w'.order [] p.params).map dparam) (val := p.valueText) p.key
      (propItems c.props (w.sub 0) ++ compItems c.comps (w.sub 1))
    rw [hm] at this
    exact this

end

end Ical
