import Verif.Props.Writes
import Verif.Props.Clean
import Verif.Props.Reproducible
import Verif.Props.Injection
import Verif.Spec.Foreign
import Verif.Spec.Told
import Verif.Spec.Truncated
import Verif.Props.Parsing
import Verif.Props.Roundtrip
import Verif.Spec.Structure
import Verif.Spec.WriteSizes

/-!
Concrete objects to which the examples in this directory apply the theorems. Each example states that all hypotheses of a
theorem are met by something that is not trivial. They are tests of the theorems, not properties.
-/

namespace Ical.Sample

open Nom Spec

/-- characters as in ASCII -/
scoped instance ascii : Uni := Uni.ascii

/-- a fact about concrete objects, found by evaluation -/
scoped macro "✓" : term => `(by decide +kernel)

/-- a world -/
def w : World := ⟨fun _ => ⟨⟨⟨2026, 1, 1⟩, 0, 0, 0, 0⟩⟩, fun _ => c!"01234567-89ab-cdef-0123-456789abcdef", fun _ l => l⟩

theorem w_ok : World.Ok w where
  order := fun _ _ => .refl _
  uuid := fun _ => by simp only [w]; decide
  now := fun _ => by simp only [w]; decide

/-- another one, with maps in the opposite order -/
def w' : World := { w with order := fun _ l => l.reverse }

theorem w'_ok : World.Ok w' where
  order := fun _ l => l.reverse_perm
  uuid := fun _ => by simp only [w', w]; decide
  now := fun _ => by simp only [w', w]; decide

/-- a property with parameters, one of them in quotes, and a long text -/
def p : Property :=
  ⟨c!"DESCRIPTION", c!"first, second; third\nand a text that is long enough to be folded when it is written, bäh",
    [(c!"ALTREP", c!"http://a;b"), (c!"LANGUAGE", c!"en")]⟩

/-- what is written for it -/
def pText : Str :=
  c!"DESCRIPTION;ALTREP=\"http://a;b\";LANGUAGE=en:first\\, second\\; third\\Nand a t\r\n ext that is long enough to be folded when it is written\\, bäh\r\n"

theorem p_text : p.fmtWrite w = .ok pText := by decide +kernel

def pText' : Str :=
  c!"DESCRIPTION;LANGUAGE=en;ALTREP=\"http://a;b\":first\\, second\\; third\\Nand a t\r\n ext that is long enough to be folded when it is written\\, bäh\r\n"

theorem p_text' : p.fmtWrite w' = .ok pText' := by decide +kernel

theorem p_ok : PropOk p := by decide +kernel

/-- a component with single and repeated properties and a component inside -/
def event : Other :=
  .mk c!"VEVENT"
    [(c!"DESCRIPTION", p), (c!"DTSTAMP", ⟨c!"DTSTAMP", c!"20260101T000000Z", []⟩),
      (c!"DTSTART", ⟨c!"DTSTART", c!"20260102", [(c!"VALUE", c!"DATE")]⟩), (c!"UID", ⟨c!"UID", c!"u1", []⟩)]
    [(c!"ATTENDEE", [⟨c!"ATTENDEE", c!"mailto:a", [(c!"CN", c!"A")]⟩, ⟨c!"ATTENDEE", c!"mailto:b", []⟩])]
    [.mk c!"VALARM" [(c!"ACTION", ⟨c!"ACTION", c!"AUDIO", []⟩), (c!"DTSTAMP", ⟨c!"DTSTAMP", c!"20260101T000000Z", []⟩),
      (c!"UID", ⟨c!"UID", c!"u2", []⟩)] [] []]

/-- components that have time stamps and identifiers -/
def todo : Todo := ⟨⟨[(c!"DTSTAMP", ⟨c!"DTSTAMP", c!"20260101T000000Z", []⟩),
  (c!"UID", ⟨c!"UID", c!"u3", []⟩)], [], []⟩⟩

def venue : Venue := ⟨⟨[(c!"DTSTAMP", ⟨c!"DTSTAMP", c!"20260101T000000Z", []⟩), (c!"LOCALITY", ⟨c!"LOCALITY", c!"Bonn", []⟩),
  (c!"UID", ⟨c!"UID", c!"u4", []⟩)], [], []⟩⟩

/-- a calendar with such components -/
def c : Calendar :=
  ⟨[⟨c!"VERSION", c!"2.0", []⟩, ⟨c!"NAME", c!"a, b", []⟩], [.event ⟨event.inner⟩, .todo todo, .venue venue,
    .other (.mk c!"VJOURNAL" [(c!"DTSTAMP", ⟨c!"DTSTAMP", c!"20260101T000000Z", []⟩), (c!"UID", ⟨c!"UID", c!"u5", []⟩)] [] [])]⟩

/-- what is written for it -/
def cText : Str :=
  c!"BEGIN:VCALENDAR\r\nVERSION:2.0\r\nNAME:a, b\r\nBEGIN:VEVENT\r\n" ++ pText ++
  c!"DTSTAMP:20260101T000000Z\r\nDTSTART;VALUE=DATE:20260102\r\nUID:u1\r\nATTENDEE;CN=A:mailto:a\r\nATTENDEE:mailto:b\r\n" ++
  c!"BEGIN:VALARM\r\nACTION:AUDIO\r\nDTSTAMP:20260101T000000Z\r\nUID:u2\r\nEND:VALARM\r\nEND:VEVENT\r\n" ++
  c!"BEGIN:VTODO\r\nDTSTAMP:20260101T000000Z\r\nUID:u3\r\nEND:VTODO\r\n" ++
  c!"BEGIN:VVENUE\r\nDTSTAMP:20260101T000000Z\r\nLOCALITY:Bonn\r\nUID:u4\r\nEND:VVENUE\r\n" ++
  c!"BEGIN:VJOURNAL\r\nDTSTAMP:20260101T000000Z\r\nUID:u5\r\nEND:VJOURNAL\r\nEND:VCALENDAR\r\n"

theorem c_text : c.fmtWrite w = .ok cText := by decide +kernel

theorem inner_ok (props : BMap Property) (multi : BMap (List Property)) (h : InOrder props ∧
    (∀ x ∈ props, x.2.key = x.1 ∧ x.1 ∉ repeatable ∧ PropOk x.2) ∧ InOrder multi ∧
    (∀ x ∈ multi, x.1 ∈ repeatable ∧ x.2 ≠ [] ∧ ∀ p ∈ x.2, p.key = x.1 ∧ PropOk p)) : InnerOk props multi :=
  ⟨h.1, h.2.1, h.2.2.1, h.2.2.2⟩

theorem event_ok : OtherOk event :=
  ⟨by decide +kernel, inner_ok _ _ (by decide +kernel), ⟨by decide +kernel, inner_ok _ _ (by decide +kernel), trivial⟩, trivial⟩

/-- texts written for the event and a calendar with few parameters -/
def eventText : Str :=
  c!"BEGIN:VEVENT\r\n" ++ pText ++
  c!"DTSTAMP:20260101T000000Z\r\nDTSTART;VALUE=DATE:20260102\r\nUID:u1\r\nATTENDEE;CN=A:mailto:a\r\nATTENDEE:mailto:b\r\n" ++
  c!"BEGIN:VALARM\r\nACTION:AUDIO\r\nDTSTAMP:20260101T000000Z\r\nUID:u2\r\nEND:VALARM\r\nEND:VEVENT\r\n"

theorem event_text : Component.fmtWrite event w = .ok eventText := ✓

/-- to prove something of all components of the calendar -/
theorem c_comps {P : CalComp → Prop} (h1 : P (.event ⟨event.inner⟩)) (h2 : P (.todo todo)) (h3 : P (.venue venue))
    (h4 : P (.other (.mk c!"VJOURNAL" [(c!"DTSTAMP", ⟨c!"DTSTAMP", c!"20260101T000000Z", []⟩),
      (c!"UID", ⟨c!"UID", c!"u5", []⟩)] [] []))) : ∀ x ∈ c.comps, P x := by
  intro x hx
  simp only [c, List.mem_cons, List.not_mem_nil, or_false] at hx
  rcases hx with rfl | rfl | rfl | rfl <;> assumption

theorem c_ok : CalendarOk c :=
  ⟨by decide +kernel, c_comps event_ok ⟨by decide +kernel, inner_ok _ _ (by decide +kernel), trivial⟩
    ⟨by decide +kernel, inner_ok _ _ (by decide +kernel), trivial⟩
    ⟨⟨by decide +kernel, inner_ok _ _ (by decide +kernel), trivial⟩, by decide, by decide, by decide⟩⟩

theorem event_writable : OtherWritable event := by
  have hi : ∀ props multi, (InOrder props ∧ (∀ x ∈ props, x.2.key = x.1 ∧ PropOk x.2) ∧ InOrder multi ∧
      (∀ x ∈ multi, x.2 ≠ [] ∧ ∀ p ∈ x.2, p.key = x.1 ∧ PropOk p)) → InnerWritable props multi :=
    fun _ _ h => ⟨h.1, h.2.1, h.2.2.1, h.2.2.2⟩
  exact ⟨by decide +kernel, hi _ _ (by decide +kernel), ⟨by decide +kernel, hi _ _ (by decide +kernel), trivial⟩, trivial⟩

theorem c_writable : CalendarWritable c := by
  have hi : ∀ props multi, (InOrder props ∧ (∀ x ∈ props, x.2.key = x.1 ∧ PropOk x.2) ∧ InOrder multi ∧
      (∀ x ∈ multi, x.2 ≠ [] ∧ ∀ p ∈ x.2, p.key = x.1 ∧ PropOk p)) → InnerWritable props multi :=
    fun _ _ h => ⟨h.1, h.2.1, h.2.2.1, h.2.2.2⟩
  exact ⟨by decide +kernel, c_comps event_writable ⟨by decide +kernel, hi _ _ (by decide +kernel), trivial⟩
    ⟨by decide +kernel, hi _ _ (by decide +kernel), trivial⟩ ⟨by decide +kernel, hi _ _ (by decide +kernel), trivial⟩⟩

theorem event_safe : OtherSafe event :=
  ⟨by decide +kernel, by decide +kernel, ⟨by decide +kernel, by decide +kernel, trivial⟩, trivial⟩

theorem c_safe : CalendarSafe c :=
  ⟨by decide +kernel, c_comps event_safe ⟨by decide +kernel, by decide +kernel, trivial⟩
    ⟨by decide +kernel, by decide +kernel, trivial⟩ ⟨by decide +kernel, by decide +kernel, trivial⟩⟩

theorem event_stamps : HasStamps event :=
  ⟨by decide +kernel, by decide +kernel, ⟨by decide +kernel, by decide +kernel, trivial⟩, trivial⟩

theorem c_stamps : ∀ x ∈ c.comps, HasStamps x.toOther :=
  c_comps event_stamps ⟨by decide +kernel, by decide +kernel, trivial⟩
    ⟨by decide +kernel, by decide +kernel, trivial⟩ ⟨by decide +kernel, by decide +kernel, trivial⟩

instance (p : Property) : Decidable (PlainProp p) :=
  decidable_of_iff (NoLf p.key ∧ (¬ [' '] <+: p.key ∧ ¬ ['\t'] <+: p.key) ∧
      (afterKeyword c!"begin:" (p.key ++ [':']) = none ∧ afterKeyword c!"end:" (p.key ++ [':']) = none) ∧
      (∀ x ∈ p.params, NoLf x.1 ∧ NoLf x.2) ∧ (IsText p ∨ NoLf p.val))
    ⟨fun h => ⟨h.1, h.2.1, h.2.2.1, h.2.2.2.1, h.2.2.2.2⟩, fun h => ⟨h.key, h.indent, h.keyword, h.params, h.value⟩⟩

theorem event_plain : PlainOther event :=
  ⟨by decide +kernel, by decide +kernel, by decide +kernel, ⟨by decide +kernel, by decide +kernel, by decide +kernel, trivial⟩, trivial⟩

theorem c_plain : (∀ p ∈ c.props, PlainProp p) ∧ ∀ x ∈ c.comps, PlainOther x.toOther :=
  ⟨by decide +kernel, c_comps event_plain ⟨by decide +kernel, by decide +kernel, by decide +kernel, trivial⟩
    ⟨by decide +kernel, by decide +kernel, by decide +kernel, trivial⟩ ⟨by decide +kernel, by decide +kernel, by decide +kernel, trivial⟩⟩

theorem event_clean : CleanOther event :=
  ⟨by decide +kernel, by decide +kernel, ⟨by decide +kernel, by decide +kernel, trivial⟩, trivial⟩

theorem c_clean : CleanCal c :=
  ⟨by decide +kernel, c_comps event_clean ⟨by decide +kernel, by decide +kernel, trivial⟩
    ⟨by decide +kernel, by decide +kernel, trivial⟩ ⟨by decide +kernel, by decide +kernel, trivial⟩⟩

instance (p : Property) : Decidable (NotKeyword p) := by unfold NotKeyword; infer_instance

theorem event_notKeyword : EachProp NotKeyword event :=
  ⟨by decide +kernel, by decide +kernel, ⟨by decide +kernel, by decide +kernel, trivial⟩, trivial⟩

theorem c_notKeyword : CalProps NotKeyword c :=
  ⟨by decide +kernel, c_comps event_notKeyword ⟨by decide +kernel, by decide +kernel, trivial⟩
    ⟨by decide +kernel, by decide +kernel, trivial⟩ ⟨by decide +kernel, by decide +kernel, trivial⟩⟩

/-- it is read back -/
theorem c_read : Calendar.fromStr cText = some c := calendar_roundtrip c c_ok c_safe c_stamps w w_ok _ c_text

/-- and stays the same when that is repeated -/
theorem c_chain : Chain (fun _ => c) := fun _ => ⟨w, _, w_ok, c_text, c_read⟩

/-- a document with keywords in different letter cases -/
theorem doc_ok (br : Break) : Item.Ok br (exampleDoc c!"BEGIN:" c!"End:") := (exampleDoc_ok br).1

theorem doc_flat : (exampleDoc c!"BEGIN:" c!"End:").Flat := (exampleDoc_ok .lf).2.1

theorem doc_noCr : '\r' ∉ (exampleDoc c!"BEGIN:" c!"End:").text .lf := (exampleDoc_ok .lf).2.2

/-- one with an alarm in an event -/
def doc : Item :=
  .comp c!"BEGIN:" c!"END:" c!"VCALENDAR" [.prop c!"NAME" [] c!"x\\,y",
    .comp c!"BEGIN:" c!"end:" c!"VEVENT" [.prop c!"DTSTART" [⟨c!"VALUE", some (false, c!"DATE")⟩, ⟨c!"X", some (true, c!"a:b")⟩]
      c!"20260101", .comp c!"BEGIN:" c!"END:" c!"VALARM" [.prop c!"ACTION" [] c!"AUDIO"]], .prop c!"VERSION" [] c!"2.0"]

theorem doc2_ok (br : Break) : Item.Ok br doc := by
  cases br <;>
  · simp only [doc, Item.Ok, ItemsOk, ValOk, DParam.Ok, and_true, List.forall_mem_cons, List.not_mem_nil, false_implies,
      implies_true]
    repeat' apply And.intro
    all_goals decide +kernel

theorem doc2_flat : doc.Flat := by
  simp only [doc, Item.Flat, ItemsFlat, MarkerFree]
  decide +kernel

theorem doc2_clean : doc.Clean := by
  simp only [doc, Item.Clean, ItemsClean]
  decide +kernel

theorem doc2_noLf : doc.NoLf := by
  simp only [doc, Item.NoLf, ItemsNoLf]
  decide +kernel

theorem spaced (br : Break) : (∀ i : Item, Spaced br i (i.text br)) ∧ ∀ l : List Item, SpacedAll br l (itemsText br l) := by
  have hl : ∀ l : List Item, (∀ i ∈ l, Spaced br i (i.text br)) → SpacedAll br l (itemsText br l) := by
    intro l h
    induction l with
    | nil => simp only [SpacedAll, itemsText]
    | cons i l ih =>
      simp only [SpacedAll, itemsText]
      exact ⟨_, _, h i (by simp), ih (fun j hj => h j (by simp [hj])), rfl⟩
  have hi : ∀ i : Item, Spaced br i (i.text br) := by
    intro i
    induction i using Item.rec (motive_2 := fun l => ∀ i ∈ l, Spaced br i (i.text br)) with
    | prop => exact (by simp only [Spaced]; exact ⟨[], ⟨[], rfl⟩, by simp⟩)
    | comp b e n l ih =>
      simp only [Spaced, Item.text]
      exact ⟨[], _, [], ⟨[], rfl⟩, ⟨[], rfl⟩, hl l ih, by simp⟩
    | nil => contradiction
    | cons i l h1 h2 =>
      rename_i j hj
      rcases List.mem_cons.1 hj with rfl | hj
      · exact h1
      · exact h2 j hj
  exact ⟨hi, fun l => hl l (fun i _ => hi i)⟩

/-- the text of a document presents it -/
theorem presents {br : Break} {b e n : Str} {l : List Item} (h : MarkerFree ((Item.comp b e n l).text br))
    (hq : br = .lf → '\r' ∉ (Item.comp b e n l).text br) : Presents br (.comp b e n l) ((Item.comp b e n l).text br) := by
  have he : [] ++ (b ++ (n ++ (br.text ++ [] ++ (itemsText br l ++ (e ++ (n ++ br.text)))))) =
      (Item.comp b e n l).text br := by
    simp [Item.text]
  simp only [Presents]
  refine ⟨[], [], itemsText br l, br.text, ⟨[], rfl⟩, ⟨[], rfl⟩, ⟨[br], by simp⟩, (spaced br).2 l, ?_, ?_⟩
  · rw [he]; exact hq
  · rw [he]; exact ⟨_, [], by simp [unmarked], by simp [joinMarked], h, by simp, trivial⟩

theorem doc2_presents : Presents .crlf doc (doc.text .crlf) := presents ✓ nofun

theorem doc2_presents_lf : Presents .lf doc (doc.text .lf) := presents ✓ (fun _ => ✓)

theorem doc2_folded : FoldedForm (doc.text .crlf) (doc.text .crlf) :=
  ⟨doc.text .crlf, [], by simp [unmarked], by simp [joinMarked], ✓, by simp, trivial⟩

/-- components that are not closed -/
def frames : List Frame := [(c!"BEGIN:", c!"VCALENDAR", [.prop c!"NAME" [] c!"x"]),
  (c!"BEGIN:", c!"VEVENT", [.prop c!"SUMMARY" [⟨c!"X", some (true, c!"a:b")⟩] c!"y", .comp c!"BEGIN:" c!"END:" c!"VALARM" []])]

theorem frames_ok (br : Break) : FramesOk br frames := by
  cases br <;>
  · simp only [frames, FramesOk, Item.Ok, ItemsOk, ValOk, DParam.Ok, and_true, List.forall_mem_cons, List.not_mem_nil,
      false_implies, implies_true]
    repeat' apply And.intro
    all_goals decide +kernel

/-- the innermost of them -/
def frame : Frame := (c!"BEGIN:", c!"VALARM", [.prop c!"ACTION" [] c!"AUDIO"])

theorem frame_ok (br : Break) : FramesOk br [frame] := by
  cases br <;>
  · simp only [frame, FramesOk, Item.Ok, ItemsOk, ValOk, DParam.Ok, and_true, List.not_mem_nil, false_implies, implies_true]
    repeat' apply And.intro
    all_goals decide +kernel

end Ical.Sample
