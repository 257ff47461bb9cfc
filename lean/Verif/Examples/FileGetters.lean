import Verif.Examples.Samples
import Verif.Props.Escaping
import Verif.Props.FileGetters
import Verif.Props.FileAlarms

/-!
Applications of the theorems about the getters of a file (C133).
-/

namespace Ical.Sample

open Nom Spec

/-- the lines of an event, with two titles, a time in a zone and an escaped text -/
def getterEvent : List Item :=
  [.prop c!"SUMMARY" [] c!"old", .prop c!"DTSTART" [⟨c!"TZID", some (true, c!"Europe/Berlin")⟩] c!"20260228T235960",
   .prop c!"DTEND" [⟨c!"VALUE", some (false, c!"DATE")⟩] c!"20260229",
   .comp c!"BEGIN:" c!"END:" c!"VALARM" [.prop c!"SUMMARY" [] c!"inner",
     .prop c!"TRIGGER" [⟨c!"RELATED", some (false, c!"END")⟩] c!"PT900S"],
   .prop c!"PRIORITY" [] c!"+7", .prop c!"CLASS" [] c!"PRIVATE", .prop c!"STATUS" [] c!"confirmed",
   .prop c!"URL" [] c!"a\\,b", .prop c!"SUMMARY" [⟨c!"LANGUAGE", some (false, c!"en")⟩] c!"a\\, b\\n\\\\"]

/-- the lines of a to-do -/
def getterTodo : List Item :=
  [.prop c!"PERCENT-COMPLETE" [] c!"256", .prop c!"COMPLETED" [] c!"20260101T120000Z", .prop c!"STATUS" [] c!"IN-PROCESS"]

/-- a document with both -/
def getterItems : List Item :=
  [.prop c!"X-WR-CALNAME" [] c!"late", .comp c!"BEGIN:" c!"END:" c!"VEVENT" getterEvent, .prop c!"NAME" [] c!"one",
   .prop c!"NAME" [] c!"two", .comp c!"begin:" c!"END:" c!"VTODO" getterTodo]

def getterDoc : Item := .comp c!"BEGIN:" c!"END:" c!"VCALENDAR" getterItems

theorem getterDoc_ok : Item.Ok .crlf getterDoc := by
  simp only [getterDoc, getterItems, getterEvent, getterTodo, Item.Ok, ItemsOk, ValOk, DParam.Ok, and_true,
    List.forall_mem_cons, List.not_mem_nil, false_implies, implies_true]
  repeat' apply And.intro
  all_goals decide +kernel

/-- what the getters of the calendar and the components return -/
example : ∃ c e t, Calendar.fromStr (getterDoc.text .crlf) = some c ∧ c.comps = [.event e, .todo t] ∧
    c.getName = some c!"one" ∧ c.getDescription = none ∧
    Component.getSummary e = some c!"a, b\n\\" ∧ Component.getUrl e = some c!"a\\,b" ∧
    Component.getStart e = some (.dateTime (.zoned ⟨⟨2026, 2, 28⟩, 23, 59, 59, 1000000000⟩ c!"Europe/Berlin")) ∧
    Component.getEnd e = none ∧ Component.getPriority e = some 7 ∧ Component.getClass e = some .priv ∧
    e.getStatus = none ∧ Component.getUid e = none ∧
    t.getPercentComplete = none ∧ t.getStatus = some .inProcess ∧
    t.getCompleted = some ⟨⟨2026, 1, 1⟩, 12, 0, 0, 0⟩ := by
  obtain ⟨c, hc, h1, h2⟩ := file_getters getterDoc_ok (presents (br := .crlf) ✓ nofun)
  match hcs : c.comps, h2 with
  | [x, y], ⟨k1, s1, k2, s2, _⟩ =>
    obtain ⟨e, rfl⟩ : ∃ e, x = .event e := k1
    obtain ⟨t, rfl⟩ : ∃ t, y = .todo t := k2
    obtain ⟨g, st⟩ := s1
    obtain ⟨g', st', pc, _, co⟩ := s2
    refine ⟨c, e, t, hc, hcs, ?_, ?_, ?_, ?_, ?_, ?_, ?_, ?_, ?_, ?_, ?_, ?_, ?_⟩
    · exact h1.name.2.1 [] c!"one" _ rfl nofun
    · exact h1.description.1 rfl rfl
    · have := g.summary.2 [([], c!"old")] [⟨c!"LANGUAGE", some (false, c!"en")⟩] c!"a\\, b\\n\\\\" rfl
        (by intro d hd; rw [List.mem_singleton.1 hd]; decide)
        ((unescape_rfc_partial _).1 (by decide +kernel))
      rw [this]
      decide +kernel
    · exact g.url.2 [] [] _ rfl nofun
    · have := ((g.start.2 [] _ _ rfl).2.1 c!"20260228" c!"235960" 2026 2 28 23 59 60 rfl
        ⟨c!"2026", c!"02", c!"28", rfl, by unfold Number; decide, by unfold Number; decide, by unfold Number; decide⟩
        ⟨c!"23", c!"59", c!"60", rfl, by unfold Number; decide, by unfold Number; decide, by unfold Number; decide⟩
        (by decide)).1 (by unfold DayExists TimeExists; decide)
      rw [this]
      rfl
    · exact ((g.end_.2 [] _ _ rfl).1 2026 2 29
        ⟨c!"2026", c!"02", c!"29", rfl, by unfold Number; decide, by unfold Number; decide, by unfold Number; decide⟩
        (by decide)).2 (by unfold DayExists; decide)
    · exact (g.priority.2 [] [] _ rfl (by decide) 7).2
        ⟨⟨c!"7", .inr rfl, by decide, by unfold Number; decide⟩, by decide⟩
    · exact (g.class_.2 [] [] _ rfl (by decide) .priv).2 rfl
    · have := st.2 [] [] _ rfl (by decide)
      cases hs : e.getStatus with
      | none => rfl
      | some v => have := (this v).1 hs; cases v <;> revert this <;> decide
    · exact g.uid.1 rfl
    · have := pc.2 [] [] _ rfl (by decide)
      cases hs : t.getPercentComplete with
      | none => rfl
      | some n =>
        obtain ⟨⟨ds, hd, _, _, _, hn⟩, hm⟩ := (this n).1 hs
        rcases hd with rfl | hd
        · rw [← hn] at hm
          exact absurd hm (by decide)
        · cases hd
    · exact (st'.2 [] [] _ rfl (by decide) .inProcess).2 rfl
    · exact ((co.2 [] _ _ rfl) c!"20260101" c!"120000" 2026 1 1 12 0 0 rfl
        ⟨c!"2026", c!"01", c!"01", rfl, by unfold Number; decide, by unfold Number; decide, by unfold Number; decide⟩
        ⟨c!"12", c!"00", c!"00", rfl, by unfold Number; decide, by unfold Number; decide, by unfold Number; decide⟩).1
        (by unfold DayExists TimeExists; decide)

/-- the alarm in the event -/
example [Iso8601] : ∃ c e o, Calendar.fromStr (getterDoc.text .crlf) = some c ∧ c.comps.head? = some e ∧
    e.toOther.inner.comps = [o] ∧ o.name = c!"VALARM" ∧ Component.getSummary o = some c!"inner" ∧
    (o.inner.props.lookup c!"TRIGGER").bind Trigger.tryFrom = some (.duration ⟨900000000000⟩ (some .end_)) := by
  obtain ⟨c, hc, h⟩ := file_alarms getterDoc_ok (presents (br := .crlf) ✓ nofun)
  match hcs : c.comps, h with
  | [x, y], ⟨h1, _⟩ =>
    simp only [getterEvent, SubsSay] at h1
    match ho : x.toOther.inner.comps, h1 with
    | [.mk n props multi comps], h1 =>
      simp only [SubsSay, SubSays] at h1
      obtain ⟨⟨hn, g, t, _⟩, _⟩ := h1
      refine ⟨c, x, _, hc, by rw [hcs]; rfl, ho, hn, ?_, ?_⟩
      · exact g.summary.2 [] [] _ rfl nofun trivial
      · obtain ⟨rel, hr, hy⟩ := (t.2 [] _ _ rfl).1 900 (by decide) (by decide +kernel) (.inl (by decide))
        rw [(hy .end_).2 (by decide)] at hr
        exact hr

end Ical.Sample
