import Verif.Spec.Calls
import Verif.Model.Calendar
import Verif.Proofs.Map

/-!
C33, C34, C36, C41: components as built by any history of builder calls.
-/

namespace Ical

open Spec

/-- the inner component after an elementary history -/
theorem inner_run {C : Type} [Component C] (c : C) (x : Call) :
    Component.inner (x.run c) =
      { props := x.sets.foldl (fun m p => m.insert p.key p) (Component.inner c).props
        multi := match x.appends with
          | some p => ((Component.inner c).insertMulti p).multi
          | none => (Component.inner c).multi
        comps := (Component.inner c).comps ++ x.adds.toList } := by
  cases x <;>
    simp only [Call.run, Call.sets, Call.appends, Call.adds, Component.appendProperty, Component.addProperty,
      Component.appendMultiProperty, Component.addMultiProperty, Component.appendComponent,
      Component.timestamp, Component.priority, Component.summary, Component.description, Component.uid,
      Component.sequence, Component.class_, Component.url, Component.lastModified, Component.created,
      Component.starts, Component.ends, Component.allDay, Component.venue, Component.location,
      Component.alarm, Component.inner_withInner, Inner.appendProperty, Inner.appendComponent,
      Inner.insertMulti, List.foldl, List.append_nil, Option.toList, Component.toOther, Other.ofInner]
  case priority n =>
    have : Nat.min n 10 = if n ≤ 10 then n else 10 := rfl
    have e : (if n < 10 then n else 10) = Nat.min n 10 := by
      rw [this]
      split <;> split <;> omega
    rw [e]
    rfl
  case class_ k => cases k <;> rfl
  case starts d => cases d with
    | date => rfl
    | dateTime t => cases t <;> rfl
  case ends d => cases d with
    | date => rfl
    | dateTime t => cases t <;> rfl
  all_goals rfl

/-- the properties after a history -/
theorem props_runs {C : Type} [Component C] (calls : List Call) (c : C) :
    (Component.inner (calls.foldl Call.run c)).props =
      (calls.flatMap Call.sets).foldl (fun m p => m.insert p.key p) (Component.inner c).props := by
  induction calls generalizing c with
  | nil => rfl
  | cons x calls ih =>
    rw [List.foldl_cons, ih, inner_run]
    simp [List.flatMap_cons]

theorem get_sets (l : List Property) (m : BMap Property) (k : Str) :
    (l.foldl (fun m p => m.insert p.key p) m).get k = (l.reverse.find? (fun p => p.key == k)).or (m.get k) := by
  have := BMap.get_foldl (l.map fun p => (p.key, p)) m k
  rw [List.foldl_map] at this
  rw [this, ← List.map_reverse, List.find?_map]
  congr 1
  show ((l.reverse.find? (fun p => p.key == k)).map _).map Prod.snd = _
  rw [Option.map_map]
  show Option.map id _ = _
  simp

/-- **C33.** After any history of builder calls, the property stored under a key is the one set last under
that key, or what was there before. -/
theorem component_map {C : Type} [Component C] (c : C) (calls : List Call) (k : Str) :
    (Component.properties (calls.foldl Call.run c)).get k =
      ((calls.flatMap Call.sets).reverse.find? (fun p => p.key == k)).or ((Component.properties c).get k) := by
  unfold Component.properties
  rw [props_runs, get_sets]

/-- **C33.** The last call decides. -/
theorem last_set_wins {C : Type} [Component C] (c : C) (before after : List Call) (x : Call) (p : Property)
    (hp : x.sets.getLast? = some p) (ha : ∀ y ∈ after, ∀ q ∈ y.sets, q.key ≠ p.key) :
    Component.propertyValue ((before ++ x :: after).foldl Call.run c) p.key = some p.val ∧
    (Component.properties ((before ++ x :: after).foldl Call.run c)).get p.key = some p := by
  have h : (Component.properties ((before ++ x :: after).foldl Call.run c)).get p.key = some p := by
    rw [component_map]
    rw [List.flatMap_append, List.flatMap_cons, List.reverse_append, List.reverse_append, List.find?_append,
      List.find?_append]
    have h1 : (after.flatMap Call.sets).reverse.find? (fun q => q.key == p.key) = none := by
      rw [List.find?_eq_none]
      intro q hq
      rw [List.mem_reverse, List.mem_flatMap] at hq
      obtain ⟨y, hy, hq⟩ := hq
      simpa using ha y hy q hq
    have h2 : x.sets.reverse.find? (fun q => q.key == p.key) = some p := by
      rw [List.getLast?_eq_head?_reverse] at hp
      cases hr : x.sets.reverse with
      | nil => rw [hr] at hp; simp at hp
      | cons y l =>
        rw [hr] at hp
        simp at hp
        subst hp
        simp
    rw [h1, h2]
    rfl
  refine ⟨?_, h⟩
  unfold Component.propertyValue
  rw [h]
  rfl

/-- **C33.** A key that no call sets keeps its value: absent in a new component. -/
theorem unset_key {C : Type} [Component C] (c : C) (calls : List Call) (k : Str)
    (h : ∀ y ∈ calls, ∀ q ∈ y.sets, q.key ≠ k) :
    Component.propertyValue (calls.foldl Call.run c) k = Component.propertyValue c k := by
  unfold Component.propertyValue
  rw [component_map]
  have h1 : (calls.flatMap Call.sets).reverse.find? (fun q => q.key == k) = none := by
    rw [List.find?_eq_none]
    intro q hq
    rw [List.mem_reverse, List.mem_flatMap] at hq
    obtain ⟨y, hy, hq⟩ := hq
    simpa using h y hy q hq
  rw [h1]
  rfl

/-- **C33.** The calls of events, todos and venues have the effect of a generic call, so that the above
speaks about their histories too. -/
theorem specific_calls (e : Event) (ec : EventCall) (t : Todo) (tc : TodoCall) (v : Venue) (vc : VenueCall) :
    ec.run e = ec.generic.run e ∧ tc.run t = tc.generic.run t ∧ vc.run v = vc.generic.run v := by
  refine ⟨?_, ?_, ?_⟩
  · cases ec with
    | common c => rfl
    | status s => cases s <;> rfl
  · cases tc with
    | status s => cases s <;> rfl
    | due d =>
      cases d with
      | date => rfl
      | dateTime x => cases x <;> rfl
    | _ => rfl
  · cases vc <;> rfl

/-- three calls, two of them for the same key -/
example (c : Event) : Component.propertyValue ([Call.summary c!"a", .priority 3, .summary c!"b"].foldl
    Call.run c) c!"SUMMARY" = some c!"b" :=
  (last_set_wins c [Call.summary c!"a", .priority 3] [] (.summary c!"b") ⟨c!"SUMMARY", c!"b", []⟩ rfl (by simp)).1

/-! ### C34 -/

theorem get_insertMulti (i : Inner) (p : Property) (k : Str) :
    (i.insertMulti p).multi.get k =
      if k = p.key then some ((i.multi.get k).getD [] ++ [p]) else i.multi.get k := by
  unfold Inner.insertMulti
  by_cases hk : k = p.key
  · subst hk
    rw [if_pos rfl]
    cases hg : i.multi.get p.key with
    | none => simp [BMap.get_insert_self]
    | some v => simp [BMap.get_insert_self]
  · rw [if_neg hk]
    cases hg : i.multi.get p.key with
    | none => simp [BMap.get_insert_ne _ _ _ hk]
    | some v => simp [BMap.get_insert_ne _ _ _ hk]

/-- **C34.** After any history, the multi-properties under a key are those that were there, followed by
those appended for that key in call order. -/
theorem multi_keeps_all {C : Type} [Component C] (c : C) (calls : List Call) (k : Str) :
    ((Component.multiProperties (calls.foldl Call.run c)).get k).getD [] =
      ((Component.multiProperties c).get k).getD [] ++
        (calls.filterMap Call.appends).filter (fun p => p.key == k) ∧
    ((Component.multiProperties (calls.foldl Call.run c)).get k = none ↔
      (Component.multiProperties c).get k = none ∧ ∀ p ∈ calls.filterMap Call.appends, p.key ≠ k) := by
  unfold Component.multiProperties
  induction calls generalizing c with
  | nil => simp
  | cons x calls ih =>
    rw [List.foldl_cons]
    have ih := ih (x.run c)
    rw [inner_run] at ih
    cases ha : x.appends with
    | none =>
      simp only [ha] at ih
      rw [ih.1, ih.2, List.filterMap_cons, ha]
      simp
    | some p =>
      simp only [ha, get_insertMulti] at ih
      rw [ih.1, ih.2, List.filterMap_cons, ha]
      by_cases hk : k = p.key
      · subst hk
        simp
      · have hk' : p.key ≠ k := fun h => hk h.symm
        simp [hk, hk']

/-- **C34.** Appending multi-properties leaves the ordinary properties and the sub-components alone, and
the other way round. -/
theorem multi_independent {C : Type} [Component C] (c : C) (x : Call) (h : x.appends.isSome) :
    Component.properties (x.run c) = Component.properties c ∧
    Component.subComponents (x.run c) = Component.subComponents c := by
  unfold Component.properties Component.subComponents
  rw [inner_run]
  cases x <;> simp [Call.appends] at h <;> simp [Call.sets, Call.adds]

/-- **C34.** The sub-components are those added, in call order. -/
theorem sub_components {C : Type} [Component C] (c : C) (calls : List Call) :
    Component.subComponents (calls.foldl Call.run c) =
      Component.subComponents c ++ calls.filterMap Call.adds := by
  unfold Component.subComponents
  induction calls generalizing c with
  | nil => simp
  | cons x calls ih =>
    rw [List.foldl_cons, ih, inner_run, List.filterMap_cons]
    cases x.adds <;> simp

/-- two attendees with a category in between -/
example : ((Component.multiProperties ([Call.addMultiProperty c!"ATTENDEE" c!"a", .addMultiProperty c!"CATEGORIES" c!"x",
    .summary c!"s", .addMultiProperty c!"ATTENDEE" c!"b"].foldl Call.run Event.new)).get c!"ATTENDEE") =
    some [⟨c!"ATTENDEE", c!"a", []⟩, ⟨c!"ATTENDEE", c!"b", []⟩] := by
  decide +kernel

/-! ### C36 -/

/-- **C36.** The text getters return the text set last, whatever was set before and whatever other
properties are set afterwards. -/
theorem text_getters {C : Type} [Component C] (c : C) (before after : List Call) (s : Str) :
    ((∀ y ∈ after, ∀ q ∈ y.sets, q.key ≠ c!"SUMMARY") →
      Component.getSummary ((before ++ .summary s :: after).foldl Call.run c) = some s) ∧
    ((∀ y ∈ after, ∀ q ∈ y.sets, q.key ≠ c!"DESCRIPTION") →
      Component.getDescription ((before ++ .description s :: after).foldl Call.run c) = some s) ∧
    ((∀ y ∈ after, ∀ q ∈ y.sets, q.key ≠ c!"UID") →
      Component.getUid ((before ++ .uid s :: after).foldl Call.run c) = some s) ∧
    ((∀ y ∈ after, ∀ q ∈ y.sets, q.key ≠ c!"URL") →
      Component.getUrl ((before ++ .url s :: after).foldl Call.run c) = some s) ∧
    ((∀ y ∈ after, ∀ q ∈ y.sets, q.key ≠ c!"LOCATION") →
      Component.getLocation ((before ++ .location s :: after).foldl Call.run c) = some s) ∧
    (∀ u, (∀ y ∈ after, ∀ q ∈ y.sets, q.key ≠ c!"LOCATION") →
      Component.getLocation ((before ++ .venue s u :: after).foldl Call.run c) = some s) :=
  ⟨fun h => (last_set_wins c before after (.summary s) ⟨c!"SUMMARY", s, []⟩ rfl h).1,
   fun h => (last_set_wins c before after (.description s) ⟨c!"DESCRIPTION", s, []⟩ rfl h).1,
   fun h => (last_set_wins c before after (.uid s) ⟨c!"UID", s, []⟩ rfl h).1,
   fun h => (last_set_wins c before after (.url s) ⟨c!"URL", s, []⟩ rfl h).1,
   fun h => (last_set_wins c before after (.location s) ⟨c!"LOCATION", s, []⟩ rfl h).1,
   fun u h => (last_set_wins c before after (.venue s u) ⟨c!"LOCATION", s, [(c!"VVENUE", u)]⟩ rfl h).1⟩

theorem venue_runs (l : List VenueCall) (v : Venue) :
    l.foldl VenueCall.run v = (l.map VenueCall.generic).foldl Call.run v := by
  induction l generalizing v with
  | nil => rfl
  | cons x l ih =>
    rw [List.foldl_cons, ih, List.map_cons, List.foldl_cons, (specific_calls ⟨.empty⟩ (.common (.url [])) ⟨.empty⟩
      (.common (.url [])) v x).2.2]

/-- **C36.** The address getters of a venue return the text set last. -/
theorem venue_getters (v : Venue) (before after : List VenueCall) (s : Str) :
    ((∀ y ∈ after, ∀ q ∈ y.generic.sets, q.key ≠ c!"STREET-ADDRESS") →
      ((before ++ .streetAddress s :: after).foldl VenueCall.run v).getStreetAddress = some s) ∧
    ((∀ y ∈ after, ∀ q ∈ y.generic.sets, q.key ≠ c!"EXTENDED-ADDRESS") →
      ((before ++ .extendedAddress s :: after).foldl VenueCall.run v).getExtendedAddress = some s) ∧
    ((∀ y ∈ after, ∀ q ∈ y.generic.sets, q.key ≠ c!"LOCALITY") →
      ((before ++ .locality s :: after).foldl VenueCall.run v).getLocality = some s) ∧
    ((∀ y ∈ after, ∀ q ∈ y.generic.sets, q.key ≠ c!"REGION") →
      ((before ++ .region s :: after).foldl VenueCall.run v).getRegion = some s) ∧
    ((∀ y ∈ after, ∀ q ∈ y.generic.sets, q.key ≠ c!"COUNTRY") →
      ((before ++ .country s :: after).foldl VenueCall.run v).getCountry = some s) ∧
    ((∀ y ∈ after, ∀ q ∈ y.generic.sets, q.key ≠ c!"POSTAL-CODE") →
      ((before ++ .postalCode s :: after).foldl VenueCall.run v).getPostalCode = some s) := by
  have key : ∀ (x : VenueCall) (k : Str), x.generic = .addProperty k s →
      (∀ y ∈ after, ∀ q ∈ y.generic.sets, q.key ≠ k) →
      Component.propertyValue ((before ++ x :: after).foldl VenueCall.run v) k = some s := by
    intro x k hx ha
    rw [venue_runs, List.map_append, List.map_cons, hx]
    refine (last_set_wins v _ _ (.addProperty k s) ⟨k, s, []⟩ rfl ?_).1
    intro y hy
    rw [List.mem_map] at hy
    obtain ⟨z, hz, rfl⟩ := hy
    exact ha z hz
  exact ⟨key (.streetAddress s) _ rfl, key (.extendedAddress s) _ rfl, key (.locality s) _ rfl,
    key (.region s) _ rfl, key (.country s) _ rfl, key (.postalCode s) _ rfl⟩

/-- a later `description` does not disturb the summary -/
example (c : Todo) (before : List Call) :
    Component.getSummary ((before ++ [Call.summary c!"s", .description c!"d", .location c!"l"]).foldl Call.run c) =
      some c!"s" :=
  (text_getters c before [.description c!"d", .location c!"l"] c!"s").1 (by decide)

/-! ### C41 -/

/-- **C41.** `done` returns the content built so far and leaves an empty builder. -/
theorem done_moves (e : Event) (t : Todo) (v : Venue) (a : Alarm) (c : Calendar) (p : Property) :
    e.done = (e, Event.new) ∧ t.done = (t, Todo.new) ∧ v.done = (v, Venue.new) ∧ a.done = (a, ⟨.empty⟩) ∧
    c.done = (c, Calendar.empty) ∧ p.done = (p, Property.new [] []) := ⟨rfl, rfl, rfl, rfl, rfl, rfl⟩

/-- a builder is used again after `done` -/
example (s : Str) : (Component.summary (Component.summary Event.new c!"x").done.2 s).inner =
    (Component.summary Event.new s).inner := rfl

end Ical
