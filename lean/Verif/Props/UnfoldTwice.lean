import Verif.Spec.Refold
import Verif.Proofs.CalendarIO
import Verif.Props.OwnLine

/-!
C126: unfolding a text that has been unfolded.
-/

namespace Ical

open Spec

theorem markerFree_cons_iff {c : Char} {s : Str} : MarkerFree (c :: s) ↔
    ¬ (c = '\n' ∧ ∃ x, (x = ' ' ∨ x = '\t') ∧ [x] <+: s) ∧ MarkerFree s := by
  have h : ∀ x : Char, ['\n', x] <:+: c :: s ↔ (c = '\n' ∧ [x] <+: s) ∨ ['\n', x] <:+: s := by
    intro x
    rw [List.infix_cons_iff, List.cons_prefix_cons]
    constructor
    · rintro (⟨h1, h2⟩ | h)
      · exact .inl ⟨h1.symm, h2⟩
      · exact .inr h
    · rintro (⟨h1, h2⟩ | h)
      · exact .inl ⟨h1.symm, h2⟩
      · exact .inr h
  simp only [MarkerFree, h]
  constructor
  · rintro ⟨h1, h2⟩
    refine ⟨?_, fun h => h1 (.inr h), fun h => h2 (.inr h)⟩
    rintro ⟨hc, x, rfl | rfl, hx⟩
    · exact h1 (.inl ⟨hc, hx⟩)
    · exact h2 (.inl ⟨hc, hx⟩)
  · rintro ⟨h1, h2, h3⟩
    constructor
    · rintro (⟨hc, hx⟩ | h)
      · exact h1 ⟨hc, ' ', .inl rfl, hx⟩
      · exact h2 h
    · rintro (⟨hc, hx⟩ | h)
      · exact h1 ⟨hc, '\t', .inr rfl, hx⟩
      · exact h3 h

theorem unfoldSpec_fix {s : Str} : unfoldSpec s = s ↔ MarkerFree s := ⟨markerFree_of_unfold, unfoldSpec_markerFree s⟩

theorem unfolded_blank (s : Str) : (∃ x, (x = ' ' ∨ x = '\t') ∧ [x] <+: unfoldSpec s) ↔
    ∃ (ms : List Marker) (x : Char), (x = ' ' ∨ x = '\t') ∧ (ms.flatMap Marker.text ++ [x]) <+: s := by
  constructor
  · have key : ∀ (m : Marker) (s : Str), (∃ (ms : List Marker) (x : Char), (x = ' ' ∨ x = '\t') ∧ (ms.flatMap Marker.text ++ [x]) <+: s) →
        ∃ (ms : List Marker) (x : Char), (x = ' ' ∨ x = '\t') ∧ (ms.flatMap Marker.text ++ [x]) <+: m.text ++ s := by
      rintro m s ⟨ms, x, hx, t, rfl⟩
      exact ⟨m :: ms, x, hx, t, by simp⟩
    fun_induction unfoldSpec s with
    | case1 => simp
    | case2 s ih => exact fun h => key .crlfSp s (ih h)
    | case3 s ih => exact fun h => key .crlfTab s (ih h)
    | case4 s ih => exact fun h => key .lfSp s (ih h)
    | case5 s ih => exact fun h => key .lfTab s (ih h)
    | case6 c s h1 h2 h3 h4 ih =>
      rintro ⟨x, hx, hp⟩
      rw [List.cons_prefix_cons] at hp
      exact ⟨[], x, hx, s, by simp [hp.1]⟩
  · rintro ⟨ms, x, hx, t, rfl⟩
    refine ⟨x, hx, ?_⟩
    induction ms with
    | nil => rcases hx with rfl | rfl <;> simp [unfoldSpec]
    | cons m ms ih => simpa [unfoldSpec_marker] using ih

theorem refolds_cons {c : Char} {s : Str} : Refolds (c :: s) ↔
    (c = '\n' ∧ ∃ (ms : List Marker) (x : Char), ms ≠ [] ∧ (x = ' ' ∨ x = '\t') ∧ (ms.flatMap Marker.text ++ [x]) <+: s) ∨
      Refolds s := by
  simp only [Refolds, List.infix_cons_iff, List.cons_prefix_cons]
  constructor
  · rintro ⟨ms, x, h1, h2, ⟨h3, h4⟩ | h3⟩
    · exact .inl ⟨h3.symm, ms, x, h1, h2, h4⟩
    · exact .inr ⟨ms, x, h1, h2, h3⟩
  · rintro (⟨h3, ms, x, h1, h2, h4⟩ | ⟨ms, x, h1, h2, h3⟩)
    · exact ⟨ms, x, h1, h2, .inl ⟨h3.symm, h4⟩⟩
    · exact ⟨ms, x, h1, h2, .inr h3⟩

theorem markers_not_blank {ms : List Marker} {x y : Char} {s : Str} (h : ms ≠ []) (hy : y ≠ '\r' ∧ y ≠ '\n') :
    ¬ (ms.flatMap Marker.text ++ [x]) <+: y :: s := by
  cases ms with
  | nil => exact absurd rfl h
  | cons m ms => cases m <;> simp [Marker.text, List.cons_prefix_cons] <;> intro h <;> simp [← h] at hy

theorem refolds_skip {c : Char} {s : Str} (h : c ≠ '\n') : Refolds (c :: s) ↔ Refolds s := by
  simp [refolds_cons, h]

theorem refolds_blank {y : Char} {s : Str} (h : y = ' ' ∨ y = '\t') : Refolds ('\n' :: y :: s) ↔ Refolds s := by
  rw [refolds_cons, refolds_skip (by rcases h with rfl | rfl <;> decide)]
  constructor
  · rintro (⟨_, ms, x, h1, _, h3⟩ | h)
    · exact absurd h3 (markers_not_blank h1 (by rcases h with rfl | rfl <;> decide))
    · exact h
  · exact .inr

theorem markerFree_unfoldSpec (t : Str) : MarkerFree (unfoldSpec t) ↔ ¬ Refolds t := by
  fun_induction unfoldSpec t with
  | case1 => simp [MarkerFree, Refolds]
  | case2 s ih => rw [ih, refolds_skip (by decide), refolds_blank (.inl rfl)]
  | case3 s ih => rw [ih, refolds_skip (by decide), refolds_blank (.inr rfl)]
  | case4 s ih => rw [ih, refolds_blank (.inl rfl)]
  | case5 s ih => rw [ih, refolds_blank (.inr rfl)]
  | case6 c s h1 h2 h3 h4 ih =>
    rw [markerFree_cons_iff, ih, refolds_cons, not_or, unfolded_blank]
    have : (c = '\n' ∧ ∃ (ms : List Marker) (x : Char), (x = ' ' ∨ x = '\t') ∧ (ms.flatMap Marker.text ++ [x]) <+: s) ↔
        (c = '\n' ∧ ∃ (ms : List Marker) (x : Char), ms ≠ [] ∧ (x = ' ' ∨ x = '\t') ∧ (ms.flatMap Marker.text ++ [x]) <+: s) := by
      constructor
      · rintro ⟨hc, ms, x, hx, hp⟩
        refine ⟨hc, ms, x, ?_, hx, hp⟩
        rintro rfl
        obtain ⟨t, rfl⟩ := hp
        rcases hx with rfl | rfl
        · exact h3 t hc rfl
        · exact h4 t hc rfl
      · rintro ⟨hc, ms, x, _, hx, hp⟩
        exact ⟨hc, ms, x, hx, hp⟩
    rw [this]

/-- **C126.** Unfolding a second time changes nothing exactly if no line feed is followed by markers and a blank. -/
theorem unfold_twice_iff (t : Str) : unfold (unfold t) = unfold t ↔ ¬ Refolds t := by
  rw [unfold_eq_spec, unfold_eq_spec, unfoldSpec_fix, markerFree_unfoldSpec]

variable [Uni]

/-- **C126** (partial: texts without such a place). A calendar that has been unfolded is read as the calendar it was. -/
theorem unfold_first_partial (t : Str) (h : ¬ Refolds t) : Calendar.fromStr (unfold t) = Calendar.fromStr t := by
  unfold Calendar.fromStr
  rw [(unfold_twice_iff t).2 h]

omit [Uni] in
theorem itemsFlat_append {a b : List Item} : ItemsFlat (a ++ b) ↔ ItemsFlat a ∧ ItemsFlat b := by
  induction a with
  | nil => simp [ItemsFlat]
  | cons i a ih => simp [ItemsFlat, ih, and_assoc]

theorem propItems_flat {l : List Property} (hl : ∀ p ∈ l, PropOk p) {w : World} (hw : World.Ok w) :
    ItemsFlat (propItems l w) := by
  induction l generalizing w with
  | nil => trivial
  | cons p l ih =>
    have hp := hl p (by simp)
    refine ⟨?_, ih (fun q hq => hl q (by simp [hq])) (worldOk_sub hw 1)⟩
    have := line_markerFree (worldOk_sub hw 0) hp.key.name hp.params (valueText_ok hp.value).2
    have e := line_item p (w.sub 0)
    simp only [Item.text, Break.text] at e
    rw [List.append_cancel_right e] at this
    exact this

theorem missing_flat {props : BMap Property} {k v : Str} (hk : KeyOk k) (hv : '\n' ∉ v) : ItemsFlat (missing props k v) := by
  unfold missing
  split
  · trivial
  · refine ⟨?_, trivial⟩
    apply markerFree_of_noLf
    simp only [List.map_nil, List.flatten_nil, List.append_nil, List.mem_append, not_or]
    exact ⟨⟨name_not_mem hk.name isKeyChar_lf, by simp⟩, hv⟩

mutual
theorem other_item_flat (o : Other) (ho : OtherWritable o) {w : World} (hw : World.Ok w) : (o.item w).Flat := by
  match o, ho with
  | .mk name props multi comps, ho =>
    obtain ⟨hn, hi, hc⟩ := ho
    simp only [Other.item, Item.Flat, itemsFlat_append]
    exact ⟨⟨⟨⟨missing_flat keyOk_dtstamp (fmtUtc_not_mem (w.now []) (by decide) (by decide)),
      propItems_flat (values_ok hi).1 (worldOk_sub hw 0)⟩,
      missing_flat keyOk_uid (uuid_not_mem hw (by decide) [])⟩,
      propItems_flat (values_ok hi).2 (worldOk_sub hw 1)⟩,
      other_items_flat comps hc (worldOk_sub hw 2)⟩
theorem other_items_flat (l : List Other) (hl : OthersWritable l) {w : World} (hw : World.Ok w) :
    ItemsFlat (otherItems l w) := by
  match l, hl with
  | [], _ => trivial
  | o :: l, hl =>
    exact ⟨other_item_flat o hl.1 (worldOk_sub hw 0), other_items_flat l hl.2 (worldOk_sub hw 1)⟩
end

theorem compItems_flat (l : List CalComp) (hl : ∀ x ∈ l, OtherWritable x.toOther) {w : World} (hw : World.Ok w) :
    ItemsFlat (compItems l w) := by
  induction l generalizing w with
  | nil => trivial
  | cons x l ih =>
    exact ⟨other_item_flat _ (hl x (by simp)) (worldOk_sub hw 0), ih (fun y hy => hl y (by simp [hy])) (worldOk_sub hw 1)⟩

/-- **C126** (partial: written calendars). What is written for a calendar can be unfolded any number of times. -/
theorem unfold_written_partial (c : Calendar) (hc : CalendarWritable c) (w : World) (hw : World.Ok w) (out : Str)
    (h : c.fmtWrite w = .ok out) :
    unfold (unfold out) = unfold out ∧ Calendar.fromStr (unfold out) = Calendar.fromStr out := by
  have hf : (c.item w).Flat := by
    simp only [Calendar.item, Item.Flat, itemsFlat_append]
    exact ⟨propItems_flat hc.props (worldOk_sub hw 0), compItems_flat _ hc.comps (worldOk_sub hw 1)⟩
  have e : unfold (unfold out) = unfold out := by
    rw [unfold_calendar hc hw h]
    exact unfold_doc (calendar_item_ok hc hw) hf
  exact ⟨e, unfold_first_partial out ((unfold_twice_iff out).1 e)⟩

omit [Uni] in
/-- **C126 is false for the code.** With a blank line before an indented one, what is read depends on whether the text was
unfolded before. -/
theorem unfold_twice_violated :
    let t := c!"BEGIN:VCALENDAR\r\nNAME:a\r\n\r\n  b\r\nEND:VCALENDAR\r\n"
    unfold t = c!"BEGIN:VCALENDAR\r\nNAME:a\r\n b\r\nEND:VCALENDAR\r\n" ∧
    unfold (unfold t) = c!"BEGIN:VCALENDAR\r\nNAME:ab\r\nEND:VCALENDAR\r\n" ∧
    (@Calendar.fromStr Uni.ascii t).map Calendar.props = some [] ∧
    (@Calendar.fromStr Uni.ascii (unfold t)).map Calendar.props = some [⟨c!"NAME", c!"ab", []⟩] := by
  decide +kernel

omit [Uni] in
/-- a folded text whose markers leave none -/
example : ¬ Refolds c!"BEGIN:VCALENDAR\r\nNAME:a\r\n \r\n  b\n\tc\r\nEND:VCALENDAR\r\n" :=
  (unfold_twice_iff _).1 (by decide +kernel)

example := unfold_first_partial c!"BEGIN:VCALENDAR\r\nNAME:a\r\n \r\n  b\n\tc\r\nEND:VCALENDAR\r\n"
  ((unfold_twice_iff _).1 (by decide +kernel))

end Ical
