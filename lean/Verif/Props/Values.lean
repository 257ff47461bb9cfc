import Verif.Props.Builders
import Verif.Spec.EnumTexts
import Verif.Proofs.Digits

/-!
C37–C40: numbers and enumerations in properties.
-/

namespace Ical

open Spec

/-! ### C37 -/

/-- **C37.** `get_priority` returns what `priority` was given, clamped to 10. -/
theorem priority_clamped {C : Type} [Component C] (c : C) (before after : List Call) (n : Nat)
    (h : ∀ y ∈ after, ∀ q ∈ y.sets, q.key ≠ c!"PRIORITY") :
    Component.getPriority ((before ++ .priority n :: after).foldl Call.run c) = some (min n 10) := by
  have := (last_set_wins c before after (.priority n)
    ⟨c!"PRIORITY", natToStr (if n < 10 then n else 10), []⟩ rfl h).1
  unfold Component.getPriority
  rw [this]
  have hle : (if n < 10 then n else 10) ≤ 10 := by split <;> omega
  have hp := parseUnsigned_natToStr (max := u32Max) (n := if n < 10 then n else 10) (by unfold u32Max; omega)
  simp only [Option.bind_some, hp]
  rw [if_pos hle]
  congr 1
  split <;> omega

/-- **C37.** Whatever the stored text is, `get_priority` is at most 10. -/
theorem priority_bounded {C : Type} [Component C] (c : C) (n : Nat) (h : Component.getPriority c = some n) :
    n ≤ 10 := by
  unfold Component.getPriority at h
  split at h
  · split at h
    · cases h
      assumption
    · cases h
  · cases h

/-- 4 stays, 4294967295 becomes 10, a stored 11 is not reported -/
example (c : Event) : Component.getPriority (Component.priority c 4) = some 4 ∧
    Component.getPriority (Component.priority c 4294967295) = some 10 ∧
    Component.getPriority (Component.addProperty Event.new c!"PRIORITY" c!"11") = none :=
  ⟨priority_clamped c [] [] 4 (by simp), priority_clamped c [] [] 4294967295 (by simp), by decide +kernel⟩

/-! ### C38, C39 -/

theorem todo_runs (l : List TodoCall) (t : Todo) :
    l.foldl TodoCall.run t = (l.map TodoCall.generic).foldl Call.run t := by
  induction l generalizing t with
  | nil => rfl
  | cons x l ih =>
    rw [List.foldl_cons, ih, List.map_cons, List.foldl_cons, (specific_calls ⟨.empty⟩ (.common (.url [])) t x
      ⟨.empty⟩ (.common (.url []))).2.1]

theorem event_runs (l : List EventCall) (e : Event) :
    l.foldl EventCall.run e = (l.map EventCall.generic).foldl Call.run e := by
  induction l generalizing e with
  | nil => rfl
  | cons x l ih =>
    rw [List.foldl_cons, ih, List.map_cons, List.foldl_cons, (specific_calls e x ⟨.empty⟩ (.common (.url []))
      ⟨.empty⟩ (.common (.url []))).1]

/-- the value of a key set by a todo call -/
theorem todo_last {t : Todo} {before after : List TodoCall} {x : TodoCall} {p : Property}
    (hx : x.generic.sets = [p]) (ha : ∀ y ∈ after, ∀ q ∈ y.generic.sets, q.key ≠ p.key) :
    (Component.properties ((before ++ x :: after).foldl TodoCall.run t)).get p.key = some p := by
  rw [todo_runs, List.map_append, List.map_cons]
  refine (last_set_wins t _ _ x.generic p (by rw [hx]; rfl) ?_).2
  intro y hy
  rw [List.mem_map] at hy
  obtain ⟨z, hz, rfl⟩ := hy
  exact ha z hz

theorem event_last {t : Event} {before after : List EventCall} {x : EventCall} {p : Property}
    (hx : x.generic.sets = [p]) (ha : ∀ y ∈ after, ∀ q ∈ y.generic.sets, q.key ≠ p.key) :
    (Component.properties ((before ++ x :: after).foldl EventCall.run t)).get p.key = some p := by
  rw [event_runs, List.map_append, List.map_cons]
  refine (last_set_wins t _ _ x.generic p (by rw [hx]; rfl) ?_).2
  intro y hy
  rw [List.mem_map] at hy
  obtain ⟨z, hz, rfl⟩ := hy
  exact ha z hz

/-- **C38.** The sequence number (a `u32`) is read back. -/
theorem sequence_roundtrip {C : Type} [Component C] (c : C) (before after : List Call) (n : Nat)
    (hn : n < 2 ^ 32) (h : ∀ y ∈ after, ∀ q ∈ y.sets, q.key ≠ c!"SEQUENCE") :
    Component.getSequence ((before ++ .sequence n :: after).foldl Call.run c) = some n := by
  have := (last_set_wins c before after (.sequence n) ⟨c!"SEQUENCE", natToStr n, []⟩ rfl h).1
  unfold Component.getSequence
  rw [this]
  exact parseUnsigned_natToStr (by unfold u32Max; omega)

/-- **C38.** The percentage (a `u8`) is read back. -/
theorem percent_roundtrip (t : Todo) (before after : List TodoCall) (n : Nat) (hn : n < 2 ^ 8)
    (h : ∀ y ∈ after, ∀ q ∈ y.generic.sets, q.key ≠ c!"PERCENT-COMPLETE") :
    ((before ++ .percentComplete n :: after).foldl TodoCall.run t).getPercentComplete = some n := by
  have := todo_last (t := t) (before := before) (x := .percentComplete n)
    (p := ⟨c!"PERCENT-COMPLETE", natToStr n, []⟩) rfl h
  unfold Todo.getPercentComplete Component.propertyValue
  rw [this]
  exact parseUnsigned_natToStr (by unfold u8Max; omega)

/-- the largest numbers -/
example (c : Venue) (t : Todo) : Component.getSequence (Component.sequence c 4294967295) = some 4294967295 ∧
    (t.percentComplete 255).getPercentComplete = some 255 :=
  ⟨sequence_roundtrip c [] [] _ (by decide) (by simp), percent_roundtrip t [] [] 255 (by decide) (by simp)⟩

/-- **C39** (partial: only for percentages set within 0..=100). -/
theorem percent_bounded_partial (t : Todo) (before after : List TodoCall) (n : Nat) (hn : n ≤ 100)
    (h : ∀ y ∈ after, ∀ q ∈ y.generic.sets, q.key ≠ c!"PERCENT-COMPLETE") (m : Nat)
    (hm : ((before ++ .percentComplete n :: after).foldl TodoCall.run t).getPercentComplete = some m) :
    m ≤ 100 := by
  rw [percent_roundtrip t before after n (by omega) h] at hm
  cases hm
  exact hn

/-- **C39 (violated).** 101..=255 are written and read back, contrary to the documented range; nothing
above 255 is. -/
theorem percent_violated (t : Todo) :
    (t.percentComplete 200).getPercentComplete = some 200 ∧ ∀ m, t.getPercentComplete = some m → m ≤ 255 := by
  refine ⟨percent_roundtrip t [] [] 200 (by decide) (by simp), ?_⟩
  intro m hm
  unfold Todo.getPercentComplete at hm
  cases hp : Component.propertyValue t c!"PERCENT-COMPLETE" with
  | none => rw [hp] at hm; cases hm
  | some v =>
    rw [hp] at hm
    exact parseUnsigned_le hm

/-! ### C40 -/

/-- **C40.** `class`, `status` set by a call are read back as the same variant. -/
theorem enum_setters {C : Type} [Component C] (c : C) (before after : List Call) (k : Class)
    (e : Event) (eb ea : List EventCall) (es : EventStatus) (t : Todo) (tb ta : List TodoCall) (ts : TodoStatus) :
    ((∀ y ∈ after, ∀ q ∈ y.sets, q.key ≠ c!"CLASS") →
      Component.getClass ((before ++ .class_ k :: after).foldl Call.run c) = some k) ∧
    ((∀ y ∈ ea, ∀ q ∈ y.generic.sets, q.key ≠ c!"STATUS") →
      ((eb ++ .status es :: ea).foldl EventCall.run e).getStatus = some es) ∧
    ((∀ y ∈ ta, ∀ q ∈ y.generic.sets, q.key ≠ c!"STATUS") →
      ((tb ++ .status ts :: ta).foldl TodoCall.run t).getStatus = some ts) := by
  refine ⟨?_, ?_, ?_⟩
  · intro h
    have := (last_set_wins c before after (.class_ k) ⟨c!"CLASS", Call.classText k, []⟩ rfl h).1
    unfold Component.getClass
    rw [this]
    cases k <;> rfl
  · intro h
    have := event_last (t := e) (before := eb) (x := .status es)
      (p := ⟨c!"STATUS", eventStatusText es, []⟩) (by cases es <;> rfl) h
    unfold Event.getStatus Component.propertyValue
    rw [this]
    cases es <;> rfl
  · intro h
    have := todo_last (t := t) (before := tb) (x := .status ts)
      (p := ⟨c!"STATUS", todoStatusText ts, []⟩) (by cases ts <;> rfl) h
    unfold Todo.getStatus Component.propertyValue
    rw [this]
    cases ts <;> rfl

/-- **C40.** A text is read as a variant exactly if it is the text of that variant, so any other text is
read as none. -/
theorem enum_texts (s : Str) :
    (∀ k, Class.fromStr s = some k ↔ s = Call.classText k) ∧
    (∀ k, EventStatus.fromStr s = some k ↔ s = eventStatusText k) ∧
    (∀ k, TodoStatus.fromStr s = some k ↔ s = todoStatusText k) ∧
    (∀ k, Related.fromStr s = some k ↔ s = relatedText k) ∧
    (∀ k, ValueType.fromStr s = some k ↔ s = k.toStr) := by
  refine ⟨?_, ?_, ?_, ?_, ?_⟩
  · intro k
    constructor
    · unfold Class.fromStr
      split
      · intro h; cases h; assumption
      · split
        · intro h; cases h; assumption
        · split
          · intro h; cases h; assumption
          · intro h; cases h
    · rintro rfl; cases k <;> rfl
  · intro k
    constructor
    · unfold EventStatus.fromStr
      split
      · intro h; cases h; assumption
      · split
        · intro h; cases h; assumption
        · split
          · intro h; cases h; assumption
          · intro h; cases h
    · rintro rfl; cases k <;> rfl
  · intro k
    constructor
    · unfold TodoStatus.fromStr
      split
      · intro h; cases h; assumption
      · split
        · intro h; cases h; assumption
        · split
          · intro h; cases h; assumption
          · split
            · intro h; cases h; assumption
            · intro h; cases h
    · rintro rfl; cases k <;> rfl
  · intro k
    constructor
    · unfold Related.fromStr
      split
      · intro h; cases h; assumption
      · split
        · intro h; cases h; assumption
        · intro h; cases h
    · rintro rfl; cases k <;> rfl
  · intro k
    constructor
    · unfold ValueType.fromStr
      intro h
      have : ∀ (l : List (Str × ValueType)), l.lookup s = some k → (s, k) ∈ l := by
        intro l
        induction l with
        | nil => intro h; cases h
        | cons x l ih =>
          obtain ⟨a, b⟩ := x
          intro h
          rw [List.lookup_cons] at h
          split at h
          · rename_i heq
            cases h
            rw [beq_iff_eq] at heq
            subst heq
            simp
          · exact List.mem_cons_of_mem _ (ih h)
      have hm := this _ h
      have hall : ∀ x ∈ fromStrTable, x.1 = x.2.toStr := by decide
      exact hall _ hm
    · rintro rfl; cases k <;> rfl

/-- **C40.** Alarm actions: every alarm built by `audio` or `display` reports its action, and any text
other than the three names is kept verbatim. -/
theorem action_texts (tr : Trigger) (d s : Str) :
    (Alarm.audio tr).getAction = some .audio ∧ (Alarm.display d tr).getAction = some .display ∧
    (Action.fromStr s).toStr = s ∧
    (Action.fromStr s = .other s ↔ s ≠ c!"AUDIO" ∧ s ≠ c!"EMAIL" ∧ s ≠ c!"DISPLAY") := by
  have hk : tr.toProperty.key = c!"TRIGGER" := by
    cases tr with
    | duration d r => cases r <;> rfl
    | dateTime t => cases t <;> rfl
  refine ⟨?_, ?_, ?_, ?_⟩
  · have h := (last_set_wins (⟨.empty⟩ : Alarm) [] [.appendProperty tr.toProperty]
      (.appendProperty Action.audio.toProperty) Action.audio.toProperty rfl (by
        intro y hy q hq
        simp at hy
        subst hy
        simp [Call.sets] at hq
        subst hq
        rw [hk]
        decide)).1
    unfold Alarm.getAction
    have e : Alarm.audio tr = ([.appendProperty Action.audio.toProperty, .appendProperty tr.toProperty] : List Call).foldl
      Call.run (⟨.empty⟩ : Alarm) := rfl
    rw [e]
    exact congrArg (Option.map Action.fromStr) h
  · have h := (last_set_wins (⟨.empty⟩ : Alarm) [] [.appendProperty tr.toProperty, .addProperty c!"DESCRIPTION" d]
      (.appendProperty Action.display.toProperty) Action.display.toProperty rfl (by
        intro y hy q hq
        simp at hy
        rcases hy with hy | hy
        · subst hy
          simp [Call.sets] at hq
          subst hq
          rw [hk]
          decide
        · subst hy
          simp [Call.sets] at hq
          subst hq
          show c!"DESCRIPTION" ≠ c!"ACTION"
          decide)).1
    unfold Alarm.getAction
    have e : Alarm.display d tr = ([.appendProperty Action.display.toProperty, .appendProperty tr.toProperty,
      .addProperty c!"DESCRIPTION" d] : List Call).foldl Call.run (⟨.empty⟩ : Alarm) := rfl
    rw [e]
    exact congrArg (Option.map Action.fromStr) h
  · unfold Action.fromStr
    split
    · rename_i h; exact h.symm
    · split
      · rename_i h; exact h.symm
      · split
        · rename_i h; exact h.symm
        · rfl
  · unfold Action.fromStr
    split
    · rename_i h; simp [h]
    · split
      · rename_i h; simp [h]
      · split
        · rename_i h; simp [h]
        · simp [*]

/-- reading is case-sensitive -/
example : Class.fromStr c!"public" = none ∧ ValueType.fromStr c!"TEXT" = some .text ∧
    Action.fromStr c!"PROCEDURE" = .other c!"PROCEDURE" := by decide

end Ical
