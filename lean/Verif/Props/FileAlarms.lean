import Verif.Spec.FileAlarms
import Verif.Props.FileGetters
import Verif.Props.Triggers

/-!
C133, for components inside components: alarms of a file are the ones its lines say.
-/

namespace Ical

open Nom Spec

theorem digits_plain (n : Nat) : '\\' ∉ Nat.toDigits 10 n := by
  intro h
  have := Nat.isDigit_of_mem_toDigits (by decide) (by decide) h
  exact absurd this (by decide)

theorem relation_iff (o : Option Str) (y : Related) : relationNamed o = some y ↔ o = some (relatedText y) := by
  cases o with
  | none => simp [relationNamed]
  | some s =>
    simp only [relationNamed, Option.some.injEq]
    constructor
    · split
      · intro h; cases h; assumption
      · split
        · intro h; cases h; assumption
        · nofun
    · rintro rfl
      cases y <;> rfl

theorem triggerSays [Iso8601] {items : List Item} {e : Option Property} (he : EntryMeans c!"TRIGGER" items e) :
    TriggerSays items (e.bind Trigger.tryFrom) := by
  refine says_of_entry he (by rintro rfl; rfl) ?_
  rintro p ps raw rfl hm
  rw [Option.bind_some]
  refine ⟨?_, ?_, ?_⟩
  · intro n hn hr hv
    have hp : p.val = raw := line_plain hm (by
      rw [hr]
      have := digits_plain n
      simp [this])
    have := (trigger_duration_read p hm.key (by rw [hm.params]; exact hv)).1 n hn (.inl (hp.trans hr))
    rw [hm.params] at this
    exact ⟨_, this, relation_iff _⟩
  · intro s t y m d h mi sec hr hs ht hv
    have hp := line_plain hm (hr ▸ (dateTime_plain hs ht).1)
    rw [(trigger_date_time_read p hm.key (by rw [hm.params]; exact hv) s t y m d h mi sec hs ht).2.1 (hp.trans hr)]
    exact ⟨fun hc => if_pos hc, fun hc => if_neg hc⟩
  · intro s t y m d h mi sec hr hs ht hv
    have hp := line_plain hm (hr ▸ (dateTime_plain hs ht).2)
    rw [(trigger_date_time_read p hm.key (by rw [hm.params]; exact hv) s t y m d h mi sec hs ht).1 (hp.trans hr)]
    exact ⟨fun hc => if_pos hc, fun hc => if_neg hc⟩

variable [Uni] [Iso8601]

mutual
theorem subSays : (i : Item) → (o : Other) → Contains i o → SubSays i o
  | .comp b e n items, .mk name props multi comps, h => by
    have h' := h
    unfold Contains at h
    unfold SubSays
    refine ⟨h.1, gettersSay (contains_entries (c := Other.mk name props multi comps) h'), ?_, subsSay items comps h.2.2.2⟩
    exact triggerSays (h.2.1 _ (by decide)).1
  | .prop _ _ _, _, h => by simp [Contains] at h
theorem subsSay : (l : List Item) → (os : List Other) → ContainsAll l os → SubsSay l os
  | [], [], _ => by unfold SubsSay; trivial
  | [], _ :: _, h => by simp [ContainsAll] at h
  | .prop _ _ _ :: l, os, h => by
    unfold ContainsAll at h
    unfold SubsSay
    exact subsSay l os h
  | .comp _ _ _ _ :: _, [], h => by simp [ContainsAll] at h
  | .comp b e n items :: l, o :: os, h => by
    unfold ContainsAll at h
    unfold SubsSay
    exact ⟨subSays (.comp b e n items) o h.1, subsSay l os h.2⟩
end

theorem insideSay : (items : List Item) → (l : List CalComp) → CompsContain items l → InsideSay (compsOf items) l
  | [], [], _ => trivial
  | [], _ :: _, h => by simp [CompsContain] at h
  | .prop _ _ _ :: items, l, h => by
    unfold CompsContain at h
    exact insideSay items l h
  | .comp _ _ _ _ :: _, [], h => by simp [CompsContain] at h
  | .comp b e n is :: items, x :: l, h => by
    unfold CompsContain at h
    refine ⟨?_, insideSay items l h.2.2⟩
    have := h.2.1
    cases hx : x.toOther with
    | mk name props multi comps =>
      rw [hx] at this
      unfold Contains at this
      exact subsSay is comps this.2.2.2

/-- **C133.** The same for the components inside the components of a file, at any depth: their getters, and the
triggers of alarms, say what their lines say. -/
theorem file_alarms {br : Break} {b e : Str} {items : List Item}
    (h : (Item.comp b e c!"VCALENDAR" items).Ok br) {file : Str}
    (hf : Presents br (.comp b e c!"VCALENDAR" items) file) :
    ∃ c, Calendar.fromStr file = some c ∧ InsideSay (compsOf items) c.comps := by
  obtain ⟨c, hc, _, h2⟩ := presentation_content h hf
  exact ⟨c, hc, insideSay items _ h2⟩

end Ical
