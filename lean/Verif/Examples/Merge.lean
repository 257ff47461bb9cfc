import Verif.Examples.Writing
import Verif.Examples.FileGetters
import Verif.Props.Merge

/-!
Applications of the theorems about merging and splitting calendars (C134).
-/

namespace Ical.Sample

open Nom Spec

theorem writes {x : Except Crash Str} (h : x.isOk = true) : ∃ out, x = .ok out := by
  cases x with
  | ok out => exact ⟨out, rfl⟩
  | error _ => cases h

/-- files that have been read -/
theorem twice_read : FilesRead [(cText, c), (cText, c)] := by
  intro f hf
  simp only [List.mem_cons, List.not_mem_nil, or_false, or_self] at hf
  subst hf
  exact ⟨c_read, c_clean⟩

/-- the to-do twice, with the default header -/
def taken : Calendar := ⟨Calendar.new.props, [.todo todo, .event ⟨event.inner⟩, .todo todo]⟩

theorem taken_text : ∃ out, taken.fmtWrite w = .ok out := writes (by decide +kernel)

example : ∃ out c', taken.fmtWrite w = .ok out ∧ Calendar.fromStr out = some c' ∧ CalStamped (rereadCal taken) c' := by
  obtain ⟨out, h⟩ := taken_text
  obtain ⟨c', h1, h2⟩ := taken_reread (d := taken) twice_read
    ⟨by
      intro x hx
      simp only [taken, List.mem_cons, List.not_mem_nil, or_false] at hx
      refine ⟨_, List.mem_cons_self, ?_⟩
      rcases hx with rfl | rfl | rfl <;> simp [c],
    fun p hp => .inl hp⟩ w w_ok out h
  exact ⟨out, c', h, h1, h2⟩

/-- the calendar merged with itself -/
theorem double_text : ∃ out, (c.append c).1.fmtWrite w = .ok out := writes (by decide +kernel)

example : ∃ out c', (c.append c).1.fmtWrite w = .ok out ∧ Calendar.fromStr out = some c' ∧
    CalStamped (rereadCal ⟨c.props, c.comps ++ (c.comps ++ [])⟩) c' := by
  obtain ⟨out, h⟩ := double_text
  obtain ⟨c', h1, h2⟩ := merged_reread twice_read w w_ok out h
  exact ⟨out, c', h, h1, h2⟩

/-- each component in a file of its own -/
theorem split_texts : ∃ files, SplitInto c c.comps files := by
  have h : ∀ x ∈ c.comps, (Calendar.fmtWrite ⟨c.props, [x]⟩ w).isOk = true :=
    c_comps (by decide +kernel) (by decide +kernel) (by decide +kernel) (by decide +kernel)
  suffices h : ∀ l : List CalComp, (∀ x ∈ l, (Calendar.fmtWrite ⟨c.props, [x]⟩ w).isOk = true) →
      ∃ files, SplitInto c l files from h _ ‹_›
  intro l
  induction l with
  | nil => exact fun _ => ⟨[], trivial⟩
  | cons x l ih =>
    intro h
    obtain ⟨f, hf⟩ := writes (h x List.mem_cons_self)
    obtain ⟨fs, hfs⟩ := ih fun y hy => h y (List.mem_cons_of_mem _ hy)
    exact ⟨f :: fs, ⟨w, w_ok, hf⟩, hfs⟩

example : ∃ files cs, SplitInto c c.comps files ∧ ReadEach files cs ∧
    cs.foldl (fun c d => (c.append d).1) { props := c.props, comps := [] } = c := by
  obtain ⟨files, h⟩ := split_texts
  obtain ⟨cs, h1, h2⟩ := split_merge c_ok c_safe c_stamps files h
  exact ⟨files, cs, h, h1, h2⟩

/-- two documents, and the one with the components of both -/
def mergedDoc : Item := .comp c!"BEGIN:" c!"END:" c!"VCALENDAR" (getterItems ++ onlyComps getterItems)

theorem mergedDoc_ok : Item.Ok .crlf mergedDoc := by
  simp only [mergedDoc, onlyComps, getterItems, getterEvent, getterTodo, Item.Ok, ItemsOk, ValOk, DParam.Ok, and_true,
    List.forall_mem_cons, List.not_mem_nil, false_implies, implies_true, List.cons_append, List.nil_append]
  repeat' apply And.intro
  all_goals decide +kernel

example := merged_file getterDoc_ok getterDoc_ok mergedDoc_ok (presents (br := .crlf) ✓ nofun) (presents (br := .crlf) ✓ nofun)
  (presents (br := .crlf) ✓ nofun)

end Ical.Sample
