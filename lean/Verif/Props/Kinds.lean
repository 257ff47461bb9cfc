import Verif.Proofs.CalendarIO
import Verif.Spec.Structure

/-!
C30, C31: what becomes of parsed components and of repeated properties.
-/

namespace Ical

open Nom Spec

/-! ### C30 -/

/-- the kind a component name stands for -/
def Spec.kindOf (name : Str) (x : CalComp) : Prop :=
  if name = c!"VEVENT" then ∃ e, x = .event e
  else if name = c!"VTODO" then ∃ t, x = .todo t
  else if name = c!"VVENUE" then ∃ v, x = .venue v
  else ∃ o, x = .other o

theorem toOthers_map (l : List PComp) : toOthers l = l.map PComp.toOther := by
  induction l with
  | nil => simp [toOthers]
  | cons c l ih => simp [toOthers, ih]

theorem foldl_insertMulti_rest (l : List PProp) (i : Inner) :
    (l.foldl (fun c p => c.insertMulti p.toProperty) i).props = i.props ∧
    (l.foldl (fun c p => c.insertMulti p.toProperty) i).comps = i.comps := by
  induction l generalizing i with
  | nil => exact ⟨rfl, rfl⟩
  | cons p l ih => exact ih (i.insertMulti p.toProperty)

theorem toOther_toCalComp (c : PComp) : c.toCalComp.toOther = c.toOther := by
  have h1 := toOther_inner c
  have h2 := toOther_name c
  unfold PComp.toCalComp
  rw [h1]
  generalize c.toOther = o at *
  obtain ⟨n, p, m, l⟩ := o
  have h2 : n = c.name := h2
  split
  · rename_i h; rw [h] at h2; subst h2; rfl
  · split
    · rename_i h; rw [h] at h2; subst h2; rfl
    · split
      · rename_i h; rw [h] at h2; subst h2; rfl
      · subst h2; rfl

theorem toOther_comps (c : PComp) : c.toOther.inner.comps = c.comps.map PComp.toOther := by
  obtain ⟨n, p, l⟩ := c
  rw [PComp.comps, ← toOthers_map, PComp.toOther]
  unfold Other.ofInner innerOfProps
  simp only [Other.inner, (foldl_insertMulti_rest _ _).2]

/-- **C30.** Every parsed component becomes one of the kind its name stands for; it has the same name and
exactly the sub-components of the parsed one, converted in turn; whatever it writes is enclosed in BEGIN and
END lines of that name; and no component of a calendar is lost. -/
theorem kinds_preserved [Uni] (c : PComp) (pc : PCal) :
    kindOf c.name c.toCalComp ∧
    c.toCalComp.toOther.name = c.name ∧
    c.toCalComp.toOther.inner.comps = c.comps.map (fun d => d.toCalComp.toOther) ∧
    (∀ w out, c.toCalComp.fmtWrite w = .ok out →
      c!"BEGIN:" ++ c.name ++ c!"\r\n" <+: out ∧ c!"END:" ++ c.name ++ c!"\r\n" <:+ out) ∧
    pc.toCalendar.comps.length = pc.comps.length ∧
    (∀ i : Nat, pc.toCalendar.comps[i]? = pc.comps[i]?.map PComp.toCalComp) := by
  refine ⟨?_, ?_, ?_, ?_, ?_, ?_⟩
  · unfold kindOf PComp.toCalComp
    split
    · exact ⟨_, rfl⟩
    · split
      · exact ⟨_, rfl⟩
      · split
        · exact ⟨_, rfl⟩
        · exact ⟨_, rfl⟩
  · rw [toOther_toCalComp, toOther_name]
  · simp only [toOther_toCalComp]
    exact toOther_comps c
  · intro w out h
    rw [calComp_fmtWrite, toOther_toCalComp] at h
    have hn := toOther_name c
    generalize c.toOther = o at *
    obtain ⟨n, props, multi, comps⟩ := o
    have hn : n = c.name := hn
    rw [← hn]
    unfold Other.fmtWrite at h
    cases hps : fmtProps props.values (w.sub 0) with
    | error e => simp only [hps] at h; cases h
    | ok ps =>
      cases hms : fmtProps multi.values.flatten (w.sub 1) with
      | error e => simp only [hps, hms] at h; cases h
      | ok ms =>
        cases hcs : fmtOthers comps (w.sub 2) with
        | error e => simp only [hps, hms, hcs] at h; cases h
        | ok cs =>
          simp only [hps, hms, hcs] at h
          have h := Except.ok.inj h
          subst h
          refine ⟨?_, ⟨_, rfl⟩⟩
          simp only [List.append_assoc]
          exact ⟨_, by simp only [List.append_assoc]; rfl⟩
  · simp [PCal.toCalendar]
  · intro i
    simp [PCal.toCalendar]

/-- **C30.** What a program sees of it: `as_event` gives something exactly for a VEVENT and `as_todo` exactly for a
VTODO, and then a component with that content. -/
theorem kinds_observed (c : PComp) :
    (c.toCalComp.asEvent.isSome ↔ c.name = c!"VEVENT") ∧ (c.toCalComp.asTodo.isSome ↔ c.name = c!"VTODO") ∧
    (∀ e, c.toCalComp.asEvent = some e → Component.toOther e = c.toCalComp.toOther) ∧
    (∀ t, c.toCalComp.asTodo = some t → Component.toOther t = c.toCalComp.toOther) := by
  unfold PComp.toCalComp
  split
  · rename_i h
    simp [CalComp.asEvent, CalComp.asTodo, CalComp.toOther, h]
  · split
    · rename_i h
      simp [CalComp.asEvent, CalComp.asTodo, CalComp.toOther, h]
    · split <;> simp_all [CalComp.asEvent, CalComp.asTodo]

/-- an event and an unknown component with one inside -/
example : ((@Calendar.fromStr Uni.ascii
      c!"BEGIN:VCALENDAR\r\nBEGIN:VEVENT\r\nEND:VEVENT\r\nBEGIN:VFOO\r\nBEGIN:VEVENT\r\nEND:VEVENT\r\nEND:VFOO\r\nEND:VCALENDAR\r\n").map
    (fun c => c.comps.map (fun x => (x.asEvent.isSome, x.toOther.name, x.toOther.inner.comps.map Other.name)))) =
      some [(true, c!"VEVENT", []), (false, c!"VFOO", [c!"VEVENT"])] := by
  rfl

/-! ### C31 -/

/-- The properties RFC 5545 lets occur more than once in events, to-dos, journals and free/busy components. -/
def Spec.rfcRepeatable : List Str :=
  [c!"ATTACH", c!"ATTENDEE", c!"CATEGORIES", c!"COMMENT", c!"CONTACT", c!"EXDATE", c!"FREEBUSY", c!"RDATE",
   c!"RELATED-TO", c!"REQUEST-STATUS", c!"RESOURCES"]

theorem multi_of_props (props : List PProp) (comps : List Other) {k : Str} (hk : k ∈ repeatable) :
    ((innerOfProps props comps).multi.get k).getD [] = (props.filter (fun p => p.name == k)).map PProp.toProperty := by
  have hm : multis.contains k = true := by rw [List.contains_eq_mem]; exact decide_eq_true hk
  unfold innerOfProps
  have hfold : ∀ (l : List PProp) (i : Inner), l.foldl (fun c p => c.insertMulti p.toProperty) i =
      (l.map PProp.toProperty).foldl Inner.insertMulti i := by
    intro l i
    rw [List.foldl_map]
  rw [hfold]
  have h := (foldl_insertMulti ((props.filter PProp.isMulti).map PProp.toProperty)
    { props := BMap.ofList ((props.filter (fun p => !p.isMulti)).map (fun p => (p.name, p.toProperty)))
      multi := [], comps := comps } .nil).2.2.2 k
  rw [h]
  have e : ((props.filter PProp.isMulti).map PProp.toProperty).filter (fun p => p.key == k) =
      (props.filter (fun p => p.name == k)).map PProp.toProperty := by
    rw [List.filter_map, List.filter_filter]
    congr 1
    apply List.filter_congr
    intro p _
    show (p.name == k && p.isMulti) = (p.name == k)
    by_cases hp : p.name = k
    · unfold PProp.isMulti
      rw [hp, hm]
      simp
    · simp [hp]
  rw [e]
  split
  · rename_i hn
    rw [hn]
    rfl
  · simp [BMap.get]

/-- **C31.** All occurrences of a repeatable property are kept, in order, except for RELATED-TO and
REQUEST-STATUS. -/
theorem repeated_kept_partial (c : PComp) (k : Str) (hk : k ∈ rfcRepeatable) (h1 : k ≠ c!"RELATED-TO")
    (h2 : k ≠ c!"REQUEST-STATUS") :
    (c.toCalComp.toOther.inner.multi.get k).getD [] = (c.props.filter (fun p => p.name == k)).map PProp.toProperty := by
  rw [toOther_toCalComp]
  obtain ⟨n, p, l⟩ := c
  unfold PComp.toOther
  refine multi_of_props p _ ?_
  simp only [rfcRepeatable, List.mem_cons, List.not_mem_nil, or_false] at hk
  rcases hk with rfl | rfl | rfl | rfl | rfl | rfl | rfl | rfl | rfl | rfl | rfl <;>
    first | decide | exact absurd rfl h1 | exact absurd rfl h2

/-- **C31.** Of a property that is not taken as repeatable, exactly the last occurrence is kept. -/
theorem repeated_single (c : PComp) (k : Str) (hk : k ∉ repeatable) :
    c.toCalComp.toOther.inner.props.get k = (c.props.reverse.find? (fun p => p.name == k)).map PProp.toProperty := by
  rw [toOther_toCalComp]
  obtain ⟨n, props, l⟩ := c
  have hm : multis.contains k = false := by rw [List.contains_eq_mem]; exact decide_eq_false hk
  unfold PComp.toOther Other.ofInner innerOfProps
  simp only [Other.inner, (foldl_insertMulti_rest _ _).1, PComp.props]
  rw [BMap.get_ofList, ← List.map_reverse, List.find?_map, ← List.filter_reverse, List.find?_filter]
  rw [Option.map_map]
  have e : (fun a : PProp => decide ((!a.isMulti) = true ∧
      ((fun x : Str × Property => x.1 == k) ∘ fun p : PProp => (p.name, p.toProperty)) a = true)) =
      fun p => p.name == k := by
    funext a
    simp only [Function.comp_apply]
    by_cases ha : a.name = k
    · simp only [PProp.isMulti, ha, hm]
      simp
    · simp [ha]
  rw [e]
  rfl

/-- two categories and two summaries -/
example : (PComp.mk c!"VEVENT" [⟨c!"CATEGORIES", c!"a", []⟩, ⟨c!"SUMMARY", c!"s", []⟩, ⟨c!"CATEGORIES", c!"b", []⟩,
      ⟨c!"SUMMARY", c!"t", []⟩] []).toCalComp.toOther =
    .mk c!"VEVENT" [(c!"SUMMARY", ⟨c!"SUMMARY", c!"t", []⟩)]
      [(c!"CATEGORIES", [⟨c!"CATEGORIES", c!"a", []⟩, ⟨c!"CATEGORIES", c!"b", []⟩])] [] := by
  rfl

/-- **C31, what is missing.** Of two RELATED-TO, REQUEST-STATUS or experimental properties only the last is
kept. -/
theorem repeated_kept_violated (k : Str) (hk : k = c!"RELATED-TO" ∨ k = c!"REQUEST-STATUS" ∨ k = c!"X-FOO")
    (a b : Str) :
    (PComp.mk c!"VEVENT" [⟨k, a, []⟩, ⟨k, b, []⟩] []).toCalComp.toOther = .mk c!"VEVENT" [(k, ⟨k, b, []⟩)] [] [] := by
  rcases hk with rfl | rfl | rfl <;> rfl

end Ical
