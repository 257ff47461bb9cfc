import Verif.Model.Calendar
import Verif.Proofs.Digits

/-!
C42–C45, C55 (before serialization), C58: calendars as built by any history of calls.
-/

namespace Ical

namespace Spec

/-- The calls of a calendar. `append` takes the other calendar. -/
inductive CalCall
  | push (x : CalComp)
  | extend (l : List CalComp)
  | append (other : Calendar)
  | appendProperty (p : Property)
  | name (s : Str)
  | description (s : Str)
  | timezone (s : Str)
  | ttl (d : Duration)

/-- Performing a call. -/
def CalCall.run (c : Calendar) : CalCall → Calendar
  | push x => c.push x
  | extend l => c.extend l
  | append o => (c.append o).1
  | appendProperty p => c.appendProperty p
  | name s => c.name s
  | description s => c.description s
  | timezone s => c.timezone s
  | ttl d => c.ttl d

/-- The components a call adds at the end. -/
def CalCall.comps : CalCall → List CalComp
  | push x => [x]
  | extend l => l
  | append o => o.comps
  | _ => []

/-- The properties a call adds at the end. -/
def CalCall.props : CalCall → List Property
  | appendProperty p => [p]
  | name s => [⟨c!"NAME", s, []⟩, ⟨c!"X-WR-CALNAME", s, []⟩]
  | description s => [⟨c!"DESCRIPTION", s, []⟩, ⟨c!"X-WR-CALDESC", s, []⟩]
  | timezone s => [⟨c!"TIMEZONE-ID", s, []⟩, ⟨c!"X-WR-TIMEZONE", s, []⟩]
  | ttl d => [⟨c!"REFRESH-INTERVAL", d.toStr, [(c!"VALUE", c!"DURATION")]⟩, ⟨c!"X-PUBLISHED-TTL", d.toStr, []⟩]
  | _ => []

end Spec

open Spec

/-! ### C42 -/

/-- **C42.** After any history of calls the components are those given, in order, after those that were
there, and the properties likewise. -/
theorem calendar_history (c : Calendar) (calls : List CalCall) :
    (calls.foldl CalCall.run c).comps = c.comps ++ calls.flatMap CalCall.comps ∧
    (calls.foldl CalCall.run c).props = c.props ++ calls.flatMap CalCall.props := by
  induction calls generalizing c with
  | nil => simp
  | cons x calls ih =>
    rw [List.foldl_cons, (ih _).1, (ih _).2, List.flatMap_cons, List.flatMap_cons, ← List.append_assoc,
      ← List.append_assoc]
    have h : (x.run c).comps = c.comps ++ x.comps ∧ (x.run c).props = c.props ++ x.props := by
      cases x <;>
        simp [CalCall.run, CalCall.comps, CalCall.props, Calendar.push, Calendar.extend, Calendar.append,
          Calendar.appendProperty, Calendar.name, Calendar.description, Calendar.timezone, Calendar.ttl,
          Property.new, Property.addParameter, BMap.insert]
    rw [h.1, h.2]
    exact ⟨rfl, rfl⟩

/-- **C42.** `append` moves the other calendar's components and leaves its properties; `collect` and `From`
give exactly the given components. -/
theorem calendar_constructors (c other : Calendar) (l : List CalComp) (x : CalComp) :
    (c.append other).1.comps = c.comps ++ other.comps ∧ (c.append other).1.props = c.props ∧
    (c.append other).2.comps = [] ∧ (c.append other).2.props = other.props ∧
    (Calendar.fromIter l).comps = l ∧ (Calendar.ofComp x).comps = [x] ∧
    Calendar.new.comps = [] ∧ Calendar.empty.comps = [] := by
  simp [Calendar.append, Calendar.fromIter, Calendar.ofComp, Calendar.new, Calendar.empty]

/-- two pushes around an append -/
example (a b : CalComp) (o : Calendar) :
    (([.push a, .append o, .name c!"n", .push b] : List CalCall).foldl CalCall.run Calendar.new).comps =
      [a] ++ o.comps ++ [b] := by
  rw [(calendar_history _ _).1]
  simp [CalCall.comps, Calendar.new]

/-! ### C43 -/

/-- a value that is found stays -/
theorem propertyValue_stays {c : Calendar} {k v : Str} (calls : List CalCall)
    (h : c.propertyValue k = some v) : (calls.foldl CalCall.run c).propertyValue k = some v := by
  unfold Calendar.propertyValue at h ⊢
  rw [(calendar_history c calls).2, List.find?_append]
  cases hf : c.props.find? (fun p => p.key == k) with
  | none => rw [hf] at h; cases h
  | some p => rw [hf] at h; exact h

theorem propertyValue_none {c : Calendar} {k : Str} (calls : List CalCall)
    (h : c.propertyValue k = none) (hc : ∀ p ∈ calls.flatMap CalCall.props, p.key ≠ k) :
    (calls.foldl CalCall.run c).propertyValue k = none := by
  unfold Calendar.propertyValue at h ⊢
  rw [(calendar_history c calls).2, List.find?_append]
  rw [Option.map_eq_none_iff] at h
  rw [h]
  simp only [Option.none_or, Option.map_eq_none_iff, List.find?_eq_none]
  intro p hp
  simpa using hc p hp

/-- **C43.** The first `name`/`description` given to a calendar that had none is what the getter returns,
whatever is called afterwards. -/
theorem calendar_getters (c : Calendar) (s : Str) (after : List CalCall) :
    (c.propertyValue c!"NAME" = none →
      ((.name s :: after).foldl CalCall.run c).getName = some s) ∧
    (c.propertyValue c!"DESCRIPTION" = none →
      ((.description s :: after).foldl CalCall.run c).getDescription = some s) := by
  constructor
  · intro h
    have h1 : (CalCall.run c (.name s)).propertyValue c!"NAME" = some s := by
      unfold Calendar.propertyValue at h ⊢
      rw [Option.map_eq_none_iff] at h
      simp [CalCall.run, Calendar.name, Calendar.appendProperty, List.find?_append, h, Property.new]
    unfold Calendar.getName
    rw [List.foldl_cons, propertyValue_stays after h1]
    rfl
  · intro h
    have h1 : (CalCall.run c (.description s)).propertyValue c!"DESCRIPTION" = some s := by
      unfold Calendar.propertyValue at h ⊢
      rw [Option.map_eq_none_iff] at h
      simp [CalCall.run, Calendar.description, Calendar.appendProperty, List.find?_append, h, Property.new]
    unfold Calendar.getDescription
    rw [List.foldl_cons, propertyValue_stays after h1]
    rfl

/-- **C43.** The first `timezone` given to a calendar that had none is what the getter returns, unless a
property called `TIMEZONE_ID` is appended. -/
theorem calendar_timezone (c : Calendar) (s : Str) (after : List CalCall) (h : c.getTimezone = none)
    (ha : ∀ p ∈ after.flatMap CalCall.props, p.key ≠ c!"TIMEZONE_ID") :
    ((.timezone s :: after).foldl CalCall.run c).getTimezone = some s := by
  unfold Calendar.getTimezone at h
  rw [Option.or_eq_none_iff] at h
  have h1 : (CalCall.run c (.timezone s)).propertyValue c!"X-WR-TIMEZONE" = some s := by
    have h := h.2
    unfold Calendar.propertyValue at h ⊢
    rw [Option.map_eq_none_iff] at h
    simp [CalCall.run, Calendar.timezone, Calendar.appendProperty, List.find?_append, h, Property.new]
  have h2 : (CalCall.run c (.timezone s)).propertyValue c!"TIMEZONE_ID" = none := by
    have h := h.1
    unfold Calendar.propertyValue at h ⊢
    rw [Option.map_eq_none_iff] at h
    simp [CalCall.run, Calendar.timezone, Calendar.appendProperty, List.find?_append, h, Property.new]
  unfold Calendar.getTimezone
  rw [List.foldl_cons, propertyValue_stays after h1, propertyValue_none after h2 ha]
  rfl

/-- **C43.** The time zone a calendar has stays the one the getter returns, unless a property called `TIMEZONE_ID` is
appended. -/
theorem calendar_timezone_earliest (c : Calendar) (v : Str) (after : List CalCall) (h : c.getTimezone = some v)
    (ha : ∀ p ∈ after.flatMap CalCall.props, p.key ≠ c!"TIMEZONE_ID") :
    (after.foldl CalCall.run c).getTimezone = some v := by
  unfold Calendar.getTimezone at h ⊢
  cases h1 : c.propertyValue c!"TIMEZONE_ID" with
  | some u =>
    rw [h1] at h
    rw [propertyValue_stays after h1]
    exact h
  | none =>
    rw [h1] at h
    rw [propertyValue_none after h1 ha, propertyValue_stays after (show c.propertyValue c!"X-WR-TIMEZONE" = some v from h)]
    rfl

/-- a later time zone does not matter -/
example : ((((Calendar.new.timezone c!"Europe/Berlin").timezone c!"UTC")).getTimezone = some c!"Europe/Berlin") := by
  decide +kernel

/-- **C43.** A value that was there first stays the one reported, and one under the alternative name only is
found. -/
theorem calendar_getters_earliest (c : Calendar) (v : Str) (after : List CalCall) :
    (c.propertyValue c!"NAME" = some v → (after.foldl CalCall.run c).getName = some v) ∧
    (c.propertyValue c!"DESCRIPTION" = some v → (after.foldl CalCall.run c).getDescription = some v) ∧
    (c.propertyValue c!"NAME" = none → c.propertyValue c!"X-WR-CALNAME" = some v → c.getName = some v) ∧
    (c.propertyValue c!"DESCRIPTION" = none → c.propertyValue c!"X-WR-CALDESC" = some v →
      c.getDescription = some v) ∧
    (c.propertyValue c!"TIMEZONE_ID" = none → c.propertyValue c!"X-WR-TIMEZONE" = some v →
      c.getTimezone = some v) := by
  refine ⟨?_, ?_, ?_, ?_, ?_⟩
  · intro h
    unfold Calendar.getName
    rw [propertyValue_stays after h]
    rfl
  · intro h
    unfold Calendar.getDescription
    rw [propertyValue_stays after h]
    rfl
  · intro h1 h2
    unfold Calendar.getName
    rw [h1, h2]
    rfl
  · intro h1 h2
    unfold Calendar.getDescription
    rw [h1, h2]
    rfl
  · intro h1 h2
    unfold Calendar.getTimezone
    rw [h1, h2]
    rfl

/-- the earlier of two names -/
example : (([.name c!"a", .description c!"d", .name c!"b", .timezone c!"z"] : List CalCall).foldl CalCall.run Calendar.new).getName =
    some c!"a" ∧
    (([.name c!"a", .description c!"d", .name c!"b", .timezone c!"z"] : List CalCall).foldl CalCall.run Calendar.new).getTimezone =
    some c!"z" := ⟨(calendar_getters Calendar.new c!"a" _).1 rfl, rfl⟩

/-! ### C44 -/

/-- **C44 (violated).** `get_timezone` looks for `TIMEZONE_ID`: a calendar with the property TIMEZONE-ID that
the documentation names reports no time zone. -/
theorem timezone_id_violated (s : Str) :
    (Calendar.new.appendProperty (.new c!"TIMEZONE-ID" s)).propertyValue c!"TIMEZONE-ID" = some s ∧
    (Calendar.new.appendProperty (.new c!"TIMEZONE-ID" s)).getTimezone = none := ⟨rfl, rfl⟩

/-- **C44** (partial: what the getter does find). A calendar that also has X-WR-TIMEZONE with the same value,
as `timezone` writes it, and no `TIMEZONE_ID`, reports it. -/
theorem timezone_id_partial (c : Calendar) (s : Str) (h1 : c.propertyValue c!"TIMEZONE_ID" = none)
    (h2 : c.propertyValue c!"X-WR-TIMEZONE" = some s) : c.getTimezone = some s := by
  unfold Calendar.getTimezone
  rw [h1, h2]
  rfl

/-! ### C45 -/

/-- the default header -/
def Spec.header : List Property :=
  [⟨c!"VERSION", c!"2.0", []⟩, ⟨c!"PRODID", c!"ICALENDAR-RS", []⟩, ⟨c!"CALSCALE", c!"GREGORIAN", []⟩]

/-- **C45.** New, collected and converted calendars have exactly the default header; `empty()` has no
properties; a parsed calendar has exactly the parsed properties. -/
theorem calendar_header (l : List CalComp) (x : CalComp) (pl : List PComp) (pc : PCal) :
    Calendar.new.props = header ∧ (Calendar.fromIter l).props = header ∧ (Calendar.ofComp x).props = header ∧
    (Calendar.ofComponents pl).props = header ∧ Calendar.empty.props = [] ∧
    pc.toCalendar.props.map (fun p => (p.key, p.val)) = pc.props.map (fun p => (p.name, p.val)) := by
  refine ⟨rfl, rfl, rfl, ?_, rfl, ?_⟩
  · unfold Calendar.ofComponents
    cases pl with
    | nil => rfl
    | cons r l =>
      simp only
      split <;> rfl
  · simp [PCal.toCalendar, PProp.toProperty, Function.comp_def]

/-- **C45.** `Calendar::from_str` adds nothing to what was read. -/
theorem parsed_header [Uni] (s : Str) (c : Calendar) (h : Calendar.fromStr s = some c) :
    ∃ pc, readCalendar (unfold s) = some pc ∧ c.props.length = pc.props.length ∧
      c.props.map (fun p => (p.key, p.val)) = pc.props.map (fun p => (p.name, p.val)) ∧
      c.comps.length = pc.comps.length := by
  unfold Calendar.fromStr at h
  cases hr : readCalendar (unfold s) with
  | none => rw [hr] at h; cases h
  | some pc =>
    rw [hr] at h
    cases h
    exact ⟨pc, rfl, by simp [PCal.toCalendar], (calendar_header [] (.event .new) [] pc).2.2.2.2.2,
      by simp [PCal.toCalendar]⟩

/-- a calendar without any property stays so -/
example [Uni] : (Calendar.fromStr c!"BEGIN:VCALENDAR\r\nEND:VCALENDAR\r\n").map (fun c => (c.props, c.comps.length)) =
    some ([], 0) := rfl

/-! ### C55 -/

theorem toStr_secs (n : Nat) : (⟨n * 1000000000⟩ : Duration).toStr =
    if n = 0 then c!"P0D" else c!"PT" ++ natToStr n ++ ['S'] := by
  unfold Duration.toStr
  have h1 : ((n : Int) * 1000000000).natAbs = n * 1000000000 := by omega
  have h2 : ¬ ((n : Int) * 1000000000 < 0) := by omega
  simp only [h1, h2, if_false, List.nil_append]
  by_cases hn : n = 0
  · subst hn
    rfl
  · rw [if_neg (by omega), if_neg hn]
    have h3 : n * 1000000000 / 1000000000 = n := by omega
    have h4 : n * 1000000000 % 1000000000 = 0 := by omega
    rw [h3, h4, if_pos rfl, List.append_nil]

/-- reading the text of a duration of whole seconds -/
theorem parse_toStr_secs [Iso8601] (n : Nat) (h : n < 4294967296) :
    (Iso8601.read (⟨n * 1000000000⟩ : Duration).toStr).bind Iso8601.conv = some ⟨n * 1000000000⟩ := by
  rw [toStr_secs]
  split
  · rename_i h0
    subst h0
    exact Iso8601.parse_zero
  · exact Iso8601.parse_secs n h

/-- **C55** (for whole, non-negative numbers of seconds below 2^32, on a calendar without refresh
interval). `get_ttl` returns what `ttl` was given, whatever is called afterwards. For the way through text see
`ttl_document`. -/
theorem ttl_roundtrip [Iso8601] (c : Calendar) (n : Nat) (hn : n < 4294967296) (after : List CalCall)
    (h : c.propertyValue c!"REFRESH-INTERVAL" = none) :
    ((.ttl ⟨n * 1000000000⟩ :: after).foldl CalCall.run c).getTtl = some ⟨n * 1000000000⟩ := by
  have h1 : (CalCall.run c (.ttl ⟨n * 1000000000⟩)).propertyValue c!"REFRESH-INTERVAL" =
      some (⟨n * 1000000000⟩ : Duration).toStr := by
    unfold Calendar.propertyValue at h ⊢
    rw [Option.map_eq_none_iff] at h
    simp [CalCall.run, Calendar.ttl, Calendar.appendProperty, List.find?_append, h, Property.new,
      Property.addParameter]
  unfold Calendar.getTtl
  rw [List.foldl_cons, propertyValue_stays after h1, Option.bind_some]
  have := parse_toStr_secs n hn
  cases hr : Iso8601.read (⟨n * 1000000000⟩ : Duration).toStr with
  | none => rw [hr] at this; cases this
  | some d => rw [hr] at this; exact this

/-- **C55**, outside its range. A negative refresh interval is written but not read back. -/
theorem ttl_negative [Iso8601] (n : Nat) : (Calendar.new.ttl ⟨-((n + 1 : Nat) : Int)⟩).getTtl = none := by
  have h : ∃ s, (⟨-((n + 1 : Nat) : Int)⟩ : Duration).toStr = '-' :: s := by
    unfold Duration.toStr
    have h1 : (-((n + 1 : Nat) : Int)).natAbs = n + 1 := by omega
    have h2 : -((n + 1 : Nat) : Int) < 0 := by omega
    simp only [h1, h2, if_true]
    rw [if_neg (by omega)]
    exact ⟨_, by simp [List.append_assoc]; rfl⟩
  obtain ⟨s, hs⟩ := h
  have e1 : (Calendar.new.ttl ⟨-((n + 1 : Nat) : Int)⟩).propertyValue c!"REFRESH-INTERVAL" = some ('-' :: s) := by
    rw [← hs]; rfl
  have e2 : (Calendar.new.ttl ⟨-((n + 1 : Nat) : Int)⟩).propertyValue c!"X-PUBLISHED-TTL" = some ('-' :: s) := by
    rw [← hs]; rfl
  unfold Calendar.getTtl
  rw [e1, e2]
  simp [Iso8601.parse_neg]

/-- **C55.** Without a readable refresh interval the published time to live is taken, as in documents that only have
that one. -/
theorem ttl_fallback [Iso8601] (c : Calendar) (n : Nat) (hn : n < 4294967296)
    (h : (c.propertyValue c!"REFRESH-INTERVAL").bind Iso8601.read = none)
    (h' : c.propertyValue c!"X-PUBLISHED-TTL" = some (⟨n * 1000000000⟩ : Duration).toStr) :
    c.getTtl = some ⟨n * 1000000000⟩ := by
  unfold Calendar.getTtl
  rw [h, h', Option.bind_some, Option.none_or]
  have := parse_toStr_secs n hn
  cases hr : Iso8601.read (⟨n * 1000000000⟩ : Duration).toStr with
  | none => rw [hr] at this; cases this
  | some d => rw [hr] at this; exact this

/-- a calendar that only publishes a time to live of one day -/
example [Iso8601] : (Calendar.mk [.new c!"X-PUBLISHED-TTL" c!"PT86400S"] []).getTtl = some ⟨86400 * 1000000000⟩ :=
  ttl_fallback _ 86400 (by decide) rfl (by decide +kernel)

/-- the text of a day -/
example : (⟨86400 * 1000000000⟩ : Duration).toStr = c!"PT86400S" := by decide +kernel

/-! ### C58 -/

/-- **C58** (partial: the components only). Converting the list of components read by the simple reader gives
the components of a calendar root, in order. -/
theorem simple_conversion_partial (props : List PProp) (comps rest : List PComp) :
    (Calendar.ofComponents (.mk c!"VCALENDAR" props comps :: rest)).comps = comps.map PComp.toCalComp := rfl

/-- **C58** (partial: the components only). For every text, reading it with the simple reader and converting gives an
error or a calendar with the default header and the components that `Calendar::from_str` gives. -/
theorem simple_reader_partial [Uni] (s : Str) :
    (readComponents (unfold s)).map Calendar.ofComponents =
      (Calendar.fromStr s).map (fun c => { Calendar.new with comps := c.comps }) := by
  unfold Calendar.fromStr readCalendar readComponents
  cases finish (components (unfold s)) with
  | none => rfl
  | some l =>
    cases l with
    | nil => rfl
    | cons root rest =>
      simp only [Option.map_some, Calendar.ofComponents, Calendar.fromIter]
      by_cases h : root.name = c!"VCALENDAR"
      · rw [if_pos h, if_pos h]; rfl
      · rw [if_neg h, if_neg h]; rfl

/-- an event without a calendar around it is read by both -/
example : (@readComponents Uni.ascii (unfold c!"BEGIN:VEVENT\r\nUID:1\r\nEND:VEVENT\r\n")).map
      (fun l => ((Calendar.ofComponents l).props.length, (Calendar.ofComponents l).comps.length)) = some (3, 1) ∧
    (@Calendar.fromStr Uni.ascii c!"BEGIN:VEVENT\r\nUID:1\r\nEND:VEVENT\r\n").map
      (fun c => (c.props.length, c.comps.length)) = some (0, 1) := by
  decide +kernel

/-- **C58 (violated).** The properties of the calendar root are replaced by the default header, and further
roots are dropped. -/
theorem simple_conversion_violated :
    let root := PComp.mk c!"VCALENDAR" [⟨c!"X-WR-CALNAME", c!"mine", []⟩] []
    let other := PComp.mk c!"VCALENDAR" [] [.mk c!"VEVENT" [] []]
    (Calendar.ofComponents [root, other]).getName = none ∧ (Calendar.ofComponents [root, other]).comps = [] :=
  ⟨rfl, rfl⟩

end Ical
