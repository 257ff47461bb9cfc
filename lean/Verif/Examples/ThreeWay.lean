import Verif.Examples.Reading
import Verif.Props.ThreeWay

/-! The theorems about merged files, applied to concrete files. -/

namespace Ical.Sample

open Nom Spec

/-- a calendar with an event: its summary, what is added to it and what is added to the calendar -/
def shared (summary : Str) (more comps : List Item) : List Item :=
  .prop c!"VERSION" [] c!"2.0" ::
   .comp c!"BEGIN:" c!"END:" c!"VEVENT" (.prop c!"UID" [] c!"1" :: .prop c!"SUMMARY" [] summary :: more) :: comps

/-- what one adds to the event -/
def place : Item := .prop c!"LOCATION" [] c!"Hall 2"

/-- what the other adds to the calendar -/
def task : Item := .comp c!"BEGIN:" c!"END:" c!"VTODO" [.prop c!"UID" [] c!"2"]

theorem shared_ok (br : Break) (v : Str) (h : '\r' ∉ v ∧ '\n' ∉ v) {more comps : List Item} (hm : ItemsOk br more)
    (hc : ItemsOk br comps) : (Item.comp c!"BEGIN:" c!"END:" c!"VCALENDAR" (shared v more comps)).Ok br := by
  have hs := summary_ok br v h
  simp only [ItemsOk] at hs
  cases br <;>
  · simp only [shared, Item.Ok, ItemsOk, ValOk, hm, hc, and_true, List.not_mem_nil, false_implies, implies_true] at hs ⊢
    refine ⟨✓, ✓, ✓, ⟨✓, trivial, ✓⟩, ✓, ✓, ✓, ⟨✓, trivial, ✓⟩, hs⟩

theorem place_ok (br : Break) : ItemsOk br [place] := by
  cases br <;>
  · simp only [place, ItemsOk, Item.Ok, ValOk, and_true, List.not_mem_nil, false_implies, implies_true, true_and]
    decide +kernel

theorem task_ok (br : Break) : ItemsOk br [task] := by
  cases br <;>
  · simp only [task, ItemsOk, Item.Ok, ValOk, and_true, List.not_mem_nil, false_implies, implies_true, true_and]
    decide +kernel

/-- one changes the summary and adds a to-do, the other adds a location -/
theorem shared_merged : MergedItems (fun _ => .both) (shared c!"Meeting" [] []) (shared c!"Lunch" [] [task])
    (shared c!"Meeting" [place] []) (shared c!"Lunch" [place] [task]) := by
  refine .keep _ (.inside (fun k => if k = c!"LOCATION" then .right else .left) (.keep _ ?_) ?_)
  · refine .left [.prop c!"SUMMARY" [] c!"Meeting"] [.prop c!"SUMMARY" [] c!"Lunch"] ?_ ?_ (.right [] [place] ?_ ?_ .nil)
    · intro k ps v h; simp at h; rw [h.1]; decide
    · intro k ps v h; simp at h; rw [h.1]; decide
    · intro k ps v h; cases h
    · intro k ps v h; simp [place] at h; rw [h.1]; decide
  · exact .left [] [task] (fun _ _ _ h => by cases h) (fun _ _ _ h => by simp [task] at h) .nil

-- C142
example := merged_lines shared_merged
example := lines_of_text .crlf (shared c!"Meeting" [] [])
example : ItemsOk .lf (shared c!"Lunch" [place] [task]) :=
  merged_ok shared_merged (shared_ok .lf c!"Lunch" ✓ (more := []) trivial (task_ok _)).2.2.2
    (shared_ok .lf c!"Meeting" ✓ (place_ok _) (comps := []) trivial).2.2.2
example := calendar_merged shared_merged (shared_ok .crlf c!"Meeting" ✓ trivial trivial)
  (shared_ok .lf c!"Lunch" ✓ trivial (task_ok _)) (shared_ok .crlf c!"Meeting" ✓ (place_ok _) trivial)
  (shared_ok .crlf c!"Lunch" ✓ (place_ok _) (task_ok _)) (presents ✓ nofun) (presents ✓ (fun _ => ✓)) (presents ✓ nofun)
  (presents ✓ nofun)

/-- both add a location, in different places -/
theorem twice_ok : (Item.comp c!"BEGIN:" c!"END:" c!"VEVENT" [.prop c!"UID" [] c!"1", .prop c!"LOCATION" [] c!"Hall 1",
    .prop c!"SUMMARY" [] c!"x", place]).Ok .crlf ∧
    (Item.comp c!"BEGIN:" c!"END:" c!"VEVENT" [.prop c!"UID" [] c!"1", .prop c!"SUMMARY" [] c!"x", place]).Ok .lf := by
  simp only [place, ItemsOk, Item.Ok, ValOk, and_true, List.not_mem_nil, false_implies, implies_true, true_and]
  decide +kernel
example := merged_same_name (pre := [.prop c!"UID" [] c!"1"]) (mid := [.prop c!"SUMMARY" [] c!"x"]) (post := []) ✓
  twice_ok.1 twice_ok.2 (presents ✓ nofun) (presents ✓ (fun _ => ✓))

end Ical.Sample
