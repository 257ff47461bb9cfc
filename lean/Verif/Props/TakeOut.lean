import Verif.Spec.TakeOut
import Verif.Props.Blocks
import Verif.Props.Grep

/-!
# Taking components out of a file by a line

C149: a component can be taken out of a written file, or everything else be left out, by one of its lines, such as that
of its UID.
-/

namespace Ical

open Nom Spec

variable [Uni]

omit [Uni] in
/-- without parameters there is one content line -/
theorem contentLine_single {p : Property} (h : p.params = []) {line : Str} : ContentLine p line ↔ line = p.key ++ ':' :: rawText p := by
  constructor
  · rintro ⟨params, forms, h1, h2, rfl⟩
    rw [h] at h1
    obtain rfl := h1.eq_nil
    cases forms with
    | nil => simp
    | cons => cases h2
  · rintro rfl
    exact ⟨[], [], by rw [h], trivial, by simp⟩

/-- a content line that has a colon after the name has no parameters -/
theorem contentLine_colon {p : Property} (hk : IsName p.key) {k v : Str} (hc : ':' ∉ k ∧ ';' ∉ k) (h : ContentLine p (k ++ ':' :: v)) :
    p.key = k ∧ p.params = [] ∧ rawText p = v := by
  obtain ⟨params, forms, h1, h2, e⟩ := h
  have hp := (name_plain hk).1
  have hkey : ∀ {d : Char} {t : Str}, (d = ':' ∨ d = ';') → k ++ ':' :: v = p.key ++ d :: t → p.key = k ∧ d = ':' ∧ t = v := by
    intro d t hd he
    have := (named_key hp hc (.inl rfl)).1 (by
      rcases hd with rfl | rfl
      · exact .inl ⟨t, by rw [he]; simp⟩
      · exact .inr ⟨t, by rw [he]; simp⟩)
    subst this
    rw [List.append_cancel_left_eq, List.cons.injEq] at he
    exact ⟨rfl, he.1.symm, he.2.symm⟩
  cases params with
  | nil =>
    cases forms with
    | nil =>
      obtain ⟨h3, -, h4⟩ := hkey (t := rawText p) (.inl rfl) (by simpa using e)
      exact ⟨h3, h1.symm.eq_nil, h4⟩
    | cons => cases h2
  | cons x l =>
    cases forms with
    | nil => cases h2
    | cons f forms =>
      obtain ⟨hf, -⟩ := h2
      unfold ParamForm at hf
      subst hf
      have := (hkey (d := ';') (.inr rfl) (by simpa only [List.flatten_cons, List.append_assoc, List.cons_append] using e)).2.1
      exact absurd this (by decide)

omit [Uni] in
theorem propsWithinAll_mem {l : List Other} {o : Other} (ho : o ∈ l) {p : Property} (hp : p ∈ propsWithin o) : p ∈ propsWithinAll l := by
  induction l with
  | nil => cases ho
  | cons a l ih =>
    rw [propsWithinAll, List.mem_append]
    rcases List.mem_cons.1 ho with rfl | ho
    · exact .inl hp
    · exact .inr (ih ho)

/-- the line is in the text of a component exactly if the component has the property -/
theorem line_carried {k v : Str} (hk : KeyOk k) {x : CalComp} (hx : CalCompOk x) (hu : UnbrokenOther x.toOther)
    (hs : (k ≠ c!"DTSTAMP" ∧ k ≠ c!"UID") ∨ HasStamps x.toOther)
    (hf : ∀ p ∈ propsWithin x.toOther, p.key = k → ∀ line, ContentLine p line → blen line ≤ 75) {w : World} (hw : World.Ok w) {out : Str}
    (h : x.fmtWrite w = .ok out) : k ++ ':' :: v ++ c!"\r\n" ∈ cutLines out ↔ Carries k v x := by
  have hkp := (name_plain hk.name).1
  rw [calComp_fmtWrite] at h
  have ho := calCompOk_other hx
  obtain ⟨pairs, h1, h2, h3⟩ := found_other hk _ ho hu hs hw h
  have h3 := h3 []
  rw [List.append_nil] at h3
  have hm : ∀ y ∈ pairs, (y.1 ∈ propsWithin x.toOther ∧ y.1.key = k) ∧ NamedLine k y.2 ∧ WholeLine y.1 y.2 := by
    intro y hy
    have hm : y.1 ∈ (propsWithin x.toOther).filter (·.key = k) := by rw [← h1]; exact List.mem_map.2 ⟨y, hy, rfl⟩
    rw [List.mem_filter, decide_eq_true_eq] at hm
    exact ⟨hm, (h2 y hy).2.2 (hf _ hm.1 hm.2)⟩
  have hnamed : NamedLine k (k ++ ':' :: v ++ c!"\r\n") := .inl ⟨v ++ c!"\r\n", by simp⟩
  have hin : k ++ ':' :: v ++ c!"\r\n" ∈ cutLines out ↔ k ++ ':' :: v ++ c!"\r\n" ∈ linesOfName k out := by
    unfold linesOfName
    rw [List.mem_filter]
    exact ⟨fun h => ⟨h, decide_eq_true hnamed⟩, fun h => h.1⟩
  have e : linesOfName k ([] : Str) = [] := rfl
  rw [hin, h3, e, List.append_nil, List.mem_filter]
  constructor
  · rintro ⟨hl, -⟩
    obtain ⟨y, hy, hyl⟩ := List.mem_map.1 hl
    obtain ⟨⟨m1, m2⟩, -, content, hc, hcl⟩ := hm y hy
    rw [hyl] at hcl
    obtain rfl := List.append_cancel_right hcl
    exact ⟨y.1, m1, contentLine_colon (by rw [m2]; exact hk.name) hkp hc⟩
  · rintro ⟨p, hp, hpk, hpp, hpv⟩
    have : p ∈ pairs.map Prod.fst := by rw [h1, List.mem_filter]; exact ⟨hp, by simpa using hpk⟩
    obtain ⟨y, hy, rfl⟩ := List.mem_map.1 this
    obtain ⟨-, m3, content, hc, hcl⟩ := hm y hy
    rw [contentLine_single hpp] at hc
    refine ⟨List.mem_map.2 ⟨y, hy, ?_⟩, decide_eq_true hnamed⟩
    rw [hcl, hc, hpk, hpv]

omit [Uni] in
theorem filter_fst {α β : Type} (l : List (α × β)) (f : β → Bool) (g : α → Bool) (h : ∀ x ∈ l, f x.2 = g x.1) :
    (l.filter (fun x => f x.2)).map Prod.fst = (l.map Prod.fst).filter g := by
  induction l with
  | nil => rfl
  | cons x l ih =>
    have ih := ih (fun y hy => h y (by simp [hy]))
    rw [List.map_cons, List.filter_cons, List.filter_cons, h x (by simp)]
    split
    · rw [List.map_cons, ih]
    · exact ih

section
variable {k v : Str} {c : Calendar} {w : World} {out : Str}

/-- **C149.** From the file without the components in which a line occurs the calendar is read without the components that
have the property of this line. -/
theorem taken_out (hk : KeyOk k) (hc : CalendarOk c) (hsafe : CalendarSafe c) (hst : ∀ x ∈ c.comps, HasStamps x.toOther) (hu : UnbrokenCal c)
    (hf : ∀ p ∈ calendarProps c, p.key = k → ∀ line, ContentLine p line → blen line ≤ 75) (hw : World.Ok w) (h : c.fmtWrite w = .ok out) :
    Calendar.fromStr (takeOut (k ++ ':' :: v ++ c!"\r\n") out) = some { c with comps := c.comps.filter (fun x => ¬ Carries k v x) } := by
  unfold takeOut
  obtain ⟨blocks, head, h1, -, h3, h4⟩ := selected_read hc hsafe hst hu hw h (fun block => decide (k ++ ':' :: v ++ c!"\r\n" ∉ cutLines block))
  rw [h4, filter_fst blocks (fun block => decide (k ++ ':' :: v ++ c!"\r\n" ∉ cutLines block)) (fun x => ¬ Carries k v x), h1]
  intro x hx
  have hxc : x.1 ∈ c.comps := by rw [← h1]; exact List.mem_map.2 ⟨x, hx, rfl⟩
  obtain ⟨w', hw', hwr⟩ := h3 x hx
  have := line_carried (v := v) hk (hc.comps _ hxc) (hu.comps _ hxc) (.inr (hst _ hxc))
    (fun p hp => hf p (by unfold calendarProps; exact List.mem_append_right _ (propsWithinAll_mem (List.mem_map.2 ⟨_, hxc, rfl⟩) hp))) hw' hwr
  simp only [this]

/-- **C149.** From the file with only the components in which a line occurs the calendar is read with only the components
that have the property of this line. -/
theorem taken_only (hk : KeyOk k) (hc : CalendarOk c) (hsafe : CalendarSafe c) (hst : ∀ x ∈ c.comps, HasStamps x.toOther) (hu : UnbrokenCal c)
    (hf : ∀ p ∈ calendarProps c, p.key = k → ∀ line, ContentLine p line → blen line ≤ 75) (hw : World.Ok w) (h : c.fmtWrite w = .ok out) :
    Calendar.fromStr (takeOnly (k ++ ':' :: v ++ c!"\r\n") out) = some { c with comps := c.comps.filter (fun x => Carries k v x) } := by
  unfold takeOnly
  obtain ⟨blocks, head, h1, -, h3, h4⟩ := selected_read hc hsafe hst hu hw h (fun block => decide (k ++ ':' :: v ++ c!"\r\n" ∈ cutLines block))
  rw [h4, filter_fst blocks (fun block => decide (k ++ ':' :: v ++ c!"\r\n" ∈ cutLines block)) (fun x => Carries k v x), h1]
  intro x hx
  have hxc : x.1 ∈ c.comps := by rw [← h1]; exact List.mem_map.2 ⟨x, hx, rfl⟩
  obtain ⟨w', hw', hwr⟩ := h3 x hx
  have := line_carried (v := v) hk (hc.comps _ hxc) (hu.comps _ hxc) (.inr (hst _ hxc))
    (fun p hp => hf p (by unfold calendarProps; exact List.mem_append_right _ (propsWithinAll_mem (List.mem_map.2 ⟨_, hxc, rfl⟩) hp))) hw' hwr
  simp only [this]
end

end Ical
