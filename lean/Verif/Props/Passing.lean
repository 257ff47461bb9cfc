import Verif.Spec.Passing
import Verif.Props.LineOrder
import Verif.Props.Merge
import Verif.Props.Print
import Verif.Props.Report
import Verif.Props.Roundtrip

/-!
C136: a calendar survives the programs its file passes through.
-/

namespace Ical

open Nom Spec

/-! ### Every file is a folded form of what it is unfolded to -/

theorem markerFree_keep {c : Char} {p s : Str} (h : ∀ m : Marker, ¬ m.text <+: c :: (p ++ s)) (hp : MarkerFree p) :
    MarkerFree (c :: p) := by
  refine ⟨fun hi => ?_, fun hi => ?_⟩
  · rcases List.infix_cons_iff.1 hi with ⟨t, ht⟩ | hi
    · exact h .lfSp ⟨t ++ s, by rw [← List.cons_append, ← ht]; simp [Marker.text]⟩
    · exact hp.1 hi
  · rcases List.infix_cons_iff.1 hi with ⟨t, ht⟩ | hi
    · exact h .lfTab ⟨t ++ s, by rw [← List.cons_append, ← ht]; simp [Marker.text]⟩
    · exact hp.2 hi

theorem crSafe_cons {c : Char} {p : Str} {rest : List (Marker × Str)} (h : ∀ m : Marker, ¬ m.text <+: c :: joinMarked p rest)
    (hc : CrSafe p rest) : CrSafe (c :: p) rest := by
  cases rest with
  | nil => trivial
  | cons x rest =>
    obtain ⟨m, q⟩ := x
    refine ⟨fun hm hs => ?_, hc.2⟩
    rcases List.suffix_cons_iff.1 hs with hs | hs
    · simp only [List.cons.injEq] at hs
      obtain ⟨rfl, rfl⟩ := hs
      cases m with
      | lfSp => exact h .crlfSp ⟨q ++ (rest.map (fun mp => mp.1.text ++ mp.2)).flatten, by simp [joinMarked, Marker.text]⟩
      | lfTab => exact h .crlfTab ⟨q ++ (rest.map (fun mp => mp.1.text ++ mp.2)).flatten, by simp [joinMarked, Marker.text]⟩
      | crlfSp => cases hm
      | crlfTab => cases hm
    · exact hc.1 hm hs

theorem foldedForm_self (s : Str) : FoldedForm (unfoldSpec s) s := by
  suffices H : ∀ n, ∀ s : Str, s.length ≤ n → FoldedForm (unfoldSpec s) s from H _ s (Nat.le_refl _)
  intro n
  induction n with
  | zero =>
    intro s hs
    obtain rfl : s = [] := List.length_eq_zero_iff.1 (by omega)
    exact ⟨[], [], rfl, rfl, by simp [MarkerFree], by simp, trivial⟩
  | succ n ih =>
    intro s hs
    rcases marked_cases s with rfl | ⟨m, r, rfl⟩ | ⟨c, r, rfl, hm⟩
    · exact ⟨[], [], rfl, rfl, by simp [MarkerFree], by simp, trivial⟩
    · have hr : r.length ≤ n := by
        have : 0 < m.text.length := by cases m <;> simp [Marker.text]
        rw [List.length_append] at hs
        omega
      obtain ⟨p, rest, h1, h2, h3, h4, h5⟩ := ih r hr
      refine ⟨[], (m, p) :: rest, ?_, ?_, by simp [MarkerFree], ?_, ⟨by simp, h5⟩⟩
      · rw [(markers_marker m r).2.1, h1]; simp [unmarked]
      · rw [h2]; simp [joinMarked]
      · intro x hx
        rcases List.mem_cons.1 hx with rfl | hx
        · exact h3
        · exact h4 x hx
    · obtain ⟨p, rest, h1, h2, h3, h4, h5⟩ := ih r (by simp at hs; omega)
      refine ⟨c :: p, rest, ?_, ?_, ?_, h4, ?_⟩
      · rw [(markers_cons hm).2, h1]; rfl
      · rw [h2]; rfl
      · rw [h2] at hm; exact markerFree_keep hm h3
      · rw [h2] at hm; exact crSafe_cons hm h5

/-! ### Lines that say the same -/

theorem said_property {k : Str} {ps qs : List DParam} {v v' : Str} (h : SameParams ps qs) (hv : SameValue k ps v v') :
    (meaningProp k ps v).toProperty = (meaningProp k qs v').toProperty := by
  have hp := lineMeans k ps v
  have hq := lineMeans k qs v'
  have hval : (meaningProp k ps v).toProperty.val = (meaningProp k qs v').toProperty.val := by
    by_cases ht : IsTextFor k ((ps.find? (fun d => d.key == c!"VALUE")).map DParam.value)
    · have ht' := ht
      rw [h.2] at ht'
      rcases hv with rfl | ⟨-, h1, h2, h3⟩
      · have hq' := lineMeans k qs v
        have hkey : (fun p : PParam => p.key == c!"VALUE") ∘ DParam.meaning = fun d : DParam => d.key == c!"VALUE" := by
          funext d
          have : d.meaning.key = d.key := by unfold DParam.meaning; split <;> rfl
          simp only [Function.comp_apply, this]
        have e : ∀ l : List DParam, IsTextFor k ((l.find? (fun d => d.key == c!"VALUE")).map DParam.value) →
            (meaningProp k l v).toProperty.val = unescaped v := by
          intro l hl
          show (if _ then _ else _) = _
          rw [if_pos]
          rw [List.find?_map, hkey]
          exact (isTextFor_empty _ _).2 hl
        rw [e _ ht, e _ ht']
      · rw [hp.text ht h1, hq.text ht' h2, h3]
    · have ht' := ht
      rw [h.2] at ht'
      rw [hp.verbatim ht, hq.verbatim ht']
      rcases hv with rfl | h'
      · rfl
      · exact absurd h'.1 ht
  have hpar : (meaningProp k ps v).toProperty.params = (meaningProp k qs v').toProperty.params := by
    refine BMap.ext (BMap.sorted_ofList _) (BMap.sorted_ofList _) fun n => ?_
    rw [← lookup_eq_get, ← lookup_eq_get]
    exact (hp.params n).trans ((h.1 n).trans (hq.params n).symm)
  have hkey : (meaningProp k ps v).toProperty.key = (meaningProp k qs v').toProperty.key := rfl
  revert hval hpar hkey
  generalize (meaningProp k ps v).toProperty = x
  generalize (meaningProp k qs v').toProperty = y
  intro h1 h2 h3
  cases x; cases y
  simp_all

theorem inner_properties {l l' : List PProp} (h : l.map PProp.toProperty = l'.map PProp.toProperty) (comps : List Other) :
    innerOfProps l comps = innerOfProps l' comps := by
  have e1 : ∀ l : List PProp, (l.filter (fun p => p.isMulti)).map PProp.toProperty =
      (l.map PProp.toProperty).filter (fun p => multis.contains p.key) := by
    intro l; rw [List.filter_map]; rfl
  have e2 : ∀ l : List PProp, (l.filter (fun p => !p.isMulti)).map (fun p => (p.name, p.toProperty)) =
      ((l.map PProp.toProperty).filter (fun p => !multis.contains p.key)).map (fun p => (p.key, p)) := by
    intro l; rw [List.filter_map, List.map_map]; rfl
  have e3 : ∀ (l : List PProp) (i : Inner), l.foldl (fun c p => c.insertMulti p.toProperty) i =
      (l.map PProp.toProperty).foldl Inner.insertMulti i := by
    intro l i
    rw [List.foldl_map]
  unfold innerOfProps
  rw [e3, e3, e1, e1, e2, e2, h]

mutual
theorem sameSaid_other : {i i' : Item} → SameSaid i i' →
    (∃ k ps v k' qs v', i = .prop k ps v ∧ i' = .prop k' qs v' ∧
      (meaningProp k ps v).toProperty = (meaningProp k' qs v').toProperty) ∨
    ∃ b e b' e' n l l', i = .comp b e n l ∧ i' = .comp b' e' n l' ∧
      (PComp.mk n (itemsProps l) (itemsComps l)).toOther = (PComp.mk n (itemsProps l') (itemsComps l')).toOther
  | _, _, .prop h hv => .inl ⟨_, _, _, _, _, _, rfl, rfl, said_property h hv⟩
  | _, _, .comp h => by
    refine .inr ⟨_, _, _, _, _, _, _, rfl, rfl, ?_⟩
    unfold PComp.toOther
    rw [(allSaid_both h).2, inner_properties (allSaid_both h).1]
theorem allSaid_both : {l l' : List Item} → AllSaid l l' →
    (itemsProps l).map PProp.toProperty = (itemsProps l').map PProp.toProperty ∧
    toOthers (itemsComps l) = toOthers (itemsComps l')
  | _, _, .nil => ⟨rfl, rfl⟩
  | _, _, .cons h h' => by
    obtain ⟨h1, h2⟩ := allSaid_both h'
    rcases sameSaid_other h with ⟨k, ps, v, k', qs, v', rfl, rfl, h3⟩ | ⟨b, e, b', e', n, l, l', rfl, rfl, h3⟩
    · simp only [itemsProps, itemsComps, List.map_cons, h1, h2, h3, and_self]
    · simp only [itemsProps, itemsComps, toOthers, h1, h2, h3, and_self]
end

theorem others_calComps : ∀ l l' : List PComp, toOthers l = toOthers l' → l.map PComp.toCalComp = l'.map PComp.toCalComp := by
  intro l
  induction l with
  | nil =>
    intro l' h
    cases l' with
    | nil => rfl
    | cons c l' => rw [toOthers, toOthers] at h; cases h
  | cons c l ih =>
    intro l' h
    cases l' with
    | nil => rw [toOthers, toOthers] at h; cases h
    | cons c' l' =>
      rw [toOthers, toOthers, List.cons.injEq] at h
      rw [List.map_cons, List.map_cons, ih l' h.2]
      have h1 : c.toInner = c'.toInner := by rw [toOther_inner, toOther_inner, h.1]
      have h2 : c.name = c'.name := by rw [← toOther_name, ← toOther_name, h.1]
      unfold PComp.toCalComp
      rw [h1, h2]

/-! ### C136 -/

variable [Uni]

/-- **C136.** Two files that say the same line by line are read as the same calendar. -/
theorem respelt_same {br br' : Break} {b e b' e' : Str} {l l' : List Item} (h : (Item.comp b e c!"VCALENDAR" l).Ok br)
    (h' : (Item.comp b' e' c!"VCALENDAR" l').Ok br') (said : AllSaid l l') {file file' : Str}
    (hf : Presents br (.comp b e c!"VCALENDAR" l) file) (hf' : Presents br' (.comp b' e' c!"VCALENDAR" l') file') :
    ∃ c, Calendar.fromStr file = some c ∧ Calendar.fromStr file' = some c := by
  refine ⟨_, presents_calendar h hf, ?_⟩
  rw [presents_calendar h' hf', (allSaid_both said).1, others_calComps _ _ (allSaid_both said).2]

theorem replaced_same {file file' : Str} (h : Replaced file file') :
    ∃ c, Calendar.fromStr file = some c ∧ Calendar.fromStr file' = some c := by
  cases h with
  | reordered h h' own subs hf hf' => exact line_order_irrelevant h h' own subs hf hf'
  | respelt h h' said hf hf' => exact respelt_same h h' said hf hf'

/-- **C136.** Whatever files a calendar becomes on its way, it is read from them unchanged. -/
theorem becomes_read {c : Calendar} (hc : CalendarOk c) (hs : CalendarSafe c) (hst : ∀ x ∈ c.comps, HasStamps x.toOther)
    {file : Str} (h : Becomes c file) : Calendar.fromStr file = some c := by
  induction h with
  | written hw h => exact calendar_roundtrip c hc hs hst _ hw _ h
  | replaced _ hr ih =>
    obtain ⟨d, h1, h2⟩ := replaced_same hr
    rw [h2, ← h1, ih]
  | reread _ hd hw h ih =>
    obtain rfl : _ = c := Option.some.inj (hd.symm.trans ih)
    exact calendar_roundtrip _ hc hs hst _ hw _ h

theorem presents_written {c : Calendar} (hc : CalendarOk c) {w : World} (hw : World.Ok w) {file : Str}
    (h : c.fmtWrite w = .ok file) : Presents .crlf (c.item w) file := by
  have hu := unfold_calendar (calendarOk_writable hc) hw h
  unfold Calendar.item at hu ⊢
  simp only [Presents]
  refine ⟨[], [], _, Break.text .crlf, ⟨[], rfl⟩, ⟨[], rfl⟩, ⟨[.crlf], by simp⟩, spacedAll_self .crlf _, nofun, ?_⟩
  have := foldedForm_self file
  rw [← unfold_eq_spec, hu] at this
  have e : ∀ (b n e i : Str), [] ++ (b ++ (n ++ (Break.text .crlf ++ [] ++ (i ++ (e ++ (n ++ Break.text .crlf)))))) =
      b ++ n ++ Break.text .crlf ++ i ++ (e ++ n ++ Break.text .crlf) := by
    intro b n e i; simp
  rw [e]
  rwa [Item.text] at this

/-- **C136.** What is written is a file programs can work on: it presents a document, and every other file that presents
this document is read as the calendar too. -/
theorem written_presents {c : Calendar} (hc : CalendarOk c) (hs : CalendarSafe c)
    (hst : ∀ x ∈ c.comps, HasStamps x.toOther) {w : World} (hw : World.Ok w) {file : Str} (h : c.fmtWrite w = .ok file) :
    ∃ l, (Item.comp c!"BEGIN:" c!"END:" c!"VCALENDAR" l).Ok .crlf ∧
      Presents .crlf (.comp c!"BEGIN:" c!"END:" c!"VCALENDAR" l) file ∧
      ∀ br file', (Item.comp c!"BEGIN:" c!"END:" c!"VCALENDAR" l).Ok br →
        Presents br (.comp c!"BEGIN:" c!"END:" c!"VCALENDAR" l) file' → Calendar.fromStr file' = some c := by
  have hok := calendar_item_ok (calendarOk_writable hc) hw
  have hp := presents_written hc hw h
  unfold Calendar.item at hok hp
  refine ⟨_, hok, hp, fun br file' h1 h2 => ?_⟩
  have := presentation_irrelevant hok h1 hp h2
  rw [← this.2.1]
  exact calendar_roundtrip c hc hs hst w hw file h

end Ical
