import Verif.Spec.Occurs
import Verif.Props.Stamps
import Verif.Props.Order
import Verif.Props.Values
import Verif.Props.Calendars

/-!
C129: properties occur as often as RFC 5545 allows and requires.
-/

namespace Ical

open Nom Spec

variable [Uni]

omit [Uni] in
theorem occurs_missing (props : BMap Property) (k k' v : Str) :
    (linesNamed k (missing props k' v)).length = if k = k' ∧ props.containsKey k = false then 1 else 0 := by
  unfold missing
  by_cases h : k = k'
  · subst h
    cases props.containsKey k <;> simp [linesNamed, genItem]
  · cases props.containsKey k' <;> simp [linesNamed, genItem, h, Ne.symm h]

omit [Uni] in
theorem count_single {props : BMap Property} (hs : BMap.Sorted props) (hk : ∀ x ∈ props, x.2.key = x.1) (k : Str) :
    (props.values.filter (fun p => p.key == k)).length = if props.containsKey k then 1 else 0 := by
  induction props with
  | nil => rfl
  | cons x props ih =>
    obtain ⟨k', q⟩ := x
    have hs' := List.pairwise_cons.1 hs
    have hq : q.key = k' := hk (k', q) (by simp)
    have ih := ih hs'.2 (fun y hy => hk y (by simp [hy]))
    have e : BMap.values ((k', q) :: props) = q :: BMap.values props := rfl
    rw [e]
    by_cases h : k = k'
    · have h0 : (BMap.values props).filter (fun p => p.key == k) = [] := by
        rw [List.filter_eq_nil_iff]
        intro r hr
        obtain ⟨y, hy, rfl⟩ := List.mem_map.1 hr
        rw [hk y (by simp [hy])]
        intro hc
        have := hs'.1 y hy
        simp only [beq_iff_eq] at hc
        simp only [hc, h] at this
        exact strCmp_irrefl this
      rw [List.filter_cons_of_pos (by simp [hq, h]), h0]
      simp [BMap.containsKey, BMap.get, h]
    · rw [List.filter_cons_of_neg (by simp [hq, Ne.symm h]), ih]
      have : BMap.containsKey k ((k', q) :: props) = BMap.containsKey k props := by
        simp [BMap.containsKey, BMap.get, h]
      rw [this]

/-- How often each property occurs in what is written for a component. -/
theorem occurs_other (o : Other) (ho : OtherWritable o) (w : World) (hw : World.Ok w) (out : Str)
    (h : Component.fmtWrite o w = .ok out) :
    ∃ b e items, (Item.comp b e o.name items).Ok .crlf ∧ unfold out = (Item.comp b e o.name items).text .crlf ∧
      ∀ k, occurs k items = (if o.inner.props.containsKey k ∨ k = c!"DTSTAMP" ∨ k = c!"UID" then 1 else 0) +
        ((o.inner.multi.get k).getD []).length := by
  have h' : o.fmtWrite w = .ok out := by
    have e : Component.toOther o = o := by obtain ⟨n, p, m, c⟩ := o; rfl
    unfold Component.fmtWrite at h
    rwa [e] at h
  have hok := other_item_ok o ho hw
  have hun : unfold out = (o.item w).text .crlf := by
    have := (unfold_other o ho hw h' noIndent_nil).1
    rw [List.append_nil] at this
    rw [unfold_eq_spec, this]
    exact List.append_nil _
  obtain ⟨name, props, multi, comps⟩ := o
  unfold Other.item at hok hun
  refine ⟨_, _, _, hok, hun, fun k => ?_⟩
  obtain ⟨-, hi, -⟩ := ho
  have hcm := count_multi hi.multiInOrder (fun x hx p hp => ((hi.multiple x hx).2 p hp).1) k
  have hcs := count_single hi.inOrder (fun x hx => (hi.single x hx).1) k
  have hlook : List.lookup k multi = BMap.get k multi := by
    clear hcm hi hok hun h h'
    induction multi with
    | nil => rfl
    | cons x m ih =>
      obtain ⟨k', q⟩ := x
      simp only [List.lookup, BMap.get]
      by_cases he : k = k'
      · rw [if_pos he]; simp [he]
      · rw [if_neg he, beq_false_of_ne he]; exact ih
  unfold occurs
  simp only [linesNamed_append, linesNamed_others, List.append_nil, List.length_append, linesNamed_count, occurs_missing,
    hcm, hcs, hlook]
  show _ = _ + ((BMap.get k multi).getD []).length
  have : (Other.mk name props multi comps).inner.props = props := rfl
  rw [this]
  have hne : c!"DTSTAMP" ≠ c!"UID" := by decide
  cases props.containsKey k
  · by_cases h1 : k = c!"DTSTAMP"
    · subst h1; simp
    · by_cases h2 : k = c!"UID"
      · subst h2; simp
      · simp [h1, h2]
  · simp

/-- **C129.** How often each property occurs in what is written for a component, after any history of calls: as often as
it was given, and DTSTAMP and UID once more if they were not set. -/
theorem occurs_built {C : Type} [Component C] (c : C) (hnew : Component.inner c = Inner.empty) (calls : List Call)
    (ho : OtherWritable (Component.toOther (calls.foldl Call.run c))) (w : World) (hw : World.Ok w) (out : Str)
    (h : Component.fmtWrite (calls.foldl Call.run c) w = .ok out) :
    ∃ b e items, (Item.comp b e (Component.kind (calls.foldl Call.run c)) items).Ok .crlf ∧
      unfold out = (Item.comp b e (Component.kind (calls.foldl Call.run c)) items).text .crlf ∧
      ∀ k, occurs k items = given calls k +
        if (k = c!"DTSTAMP" ∨ k = c!"UID") ∧ ∀ p ∈ calls.flatMap Call.sets, p.key ≠ k then 1 else 0 := by
  have h' : Component.fmtWrite (Component.toOther (calls.foldl Call.run c)) w = .ok out := h
  obtain ⟨b, e, items, h1, h2, h3⟩ := occurs_other _ ho w hw out h'
  refine ⟨b, e, items, h1, h2, fun k => ?_⟩
  rw [h3 k]
  have hm := (multi_keeps_all c calls k).1
  have hp := component_map c calls k
  unfold Component.multiProperties at hm
  unfold Component.properties at hp
  rw [hnew] at hm hp
  have e1 : (Component.toOther (calls.foldl Call.run c)).inner.multi = (Component.inner (calls.foldl Call.run c)).multi := rfl
  have e2 : (Component.toOther (calls.foldl Call.run c)).inner.props = (Component.inner (calls.foldl Call.run c)).props := rfl
  rw [e1, e2, hm]
  unfold given BMap.containsKey
  rw [hp]
  have e3 : (BMap.get k Inner.empty.multi).getD [] = ([] : List Property) := rfl
  have e4 : BMap.get k Inner.empty.props = (none : Option Property) := rfl
  rw [e3, e4, List.nil_append, List.countP_eq_length_filter, Option.or_none]
  by_cases hex : ∃ p ∈ calls.flatMap Call.sets, p.key = k
  · have ha : (calls.flatMap Call.sets).any (fun p => p.key == k) = true := by
      obtain ⟨p, hp, hpk⟩ := hex
      exact List.any_eq_true.2 ⟨p, hp, by simpa using hpk⟩
    have hb : ((calls.flatMap Call.sets).reverse.find? (fun p => p.key == k)).isSome = true := by
      obtain ⟨p, hp, hpk⟩ := hex
      rw [List.find?_isSome]
      exact ⟨p, List.mem_reverse.2 hp, by simpa using hpk⟩
    have hn : ¬ ∀ p ∈ calls.flatMap Call.sets, p.key ≠ k := by
      obtain ⟨p, hp, hpk⟩ := hex
      exact fun hc => hc p hp hpk
    rw [ha, hb, if_pos (.inl rfl), if_pos rfl, if_neg (fun hc => hn hc.2)]
    rfl
  · have hn : ∀ p ∈ calls.flatMap Call.sets, p.key ≠ k := fun p hp hpk => hex ⟨p, hp, hpk⟩
    have ha : (calls.flatMap Call.sets).any (fun p => p.key == k) = false := by
      rw [List.any_eq_false]
      intro p hp
      simpa using hn p hp
    have hb : ((calls.flatMap Call.sets).reverse.find? (fun p => p.key == k)) = none := by
      rw [List.find?_eq_none]
      intro p hp
      simpa using hn p (List.mem_reverse.1 hp)
    rw [ha, hb]
    by_cases hk : k = c!"DTSTAMP" ∨ k = c!"UID"
    · rw [if_pos (.inr hk), if_neg (show ¬ false = true by decide), if_pos ⟨hk, hn⟩]
      omega
    · rw [if_neg (fun hc => hc.elim (fun hc => by cases hc) hk), if_neg (show ¬ false = true by decide),
        if_neg (fun hc => hk hc.1)]
      rfl

omit [Uni] in
/-- the lines DTSTAMP and UID -/
theorem stamp_occurs (calls : List Call) (k : Str) (hk : k = c!"DTSTAMP" ∨ k = c!"UID") (n : Nat)
    (h : n = given calls k + if (k = c!"DTSTAMP" ∨ k = c!"UID") ∧ ∀ p ∈ calls.flatMap Call.sets, p.key ≠ k then 1 else 0) :
    n ≠ 0 ∧ (n ≤ 1 ↔ ∀ p ∈ calls.filterMap Call.appends, p.key ≠ k) := by
  have hc : (calls.filterMap Call.appends).countP (fun p => p.key == k) = 0 ↔
      ∀ p ∈ calls.filterMap Call.appends, p.key ≠ k := by
    rw [List.countP_eq_zero]
    simp
  rw [← hc]
  unfold given at h
  by_cases hex : ∃ p ∈ calls.flatMap Call.sets, p.key = k
  · have ha : (calls.flatMap Call.sets).any (fun p => p.key == k) = true := by
      obtain ⟨p, hp, hpk⟩ := hex
      exact List.any_eq_true.2 ⟨p, hp, by simpa using hpk⟩
    have hn : ¬ ∀ p ∈ calls.flatMap Call.sets, p.key ≠ k := by
      obtain ⟨p, hp, hpk⟩ := hex
      exact fun hc => hc p hp hpk
    rw [ha, if_pos rfl, if_neg (fun hc => hn hc.2)] at h
    omega
  · have hn : ∀ p ∈ calls.flatMap Call.sets, p.key ≠ k := fun p hp hpk => hex ⟨p, hp, hpk⟩
    have ha : (calls.flatMap Call.sets).any (fun p => p.key == k) = false := by
      rw [List.any_eq_false]
      intro p hp
      simpa using hn p hp
    rw [ha, if_neg (show ¬ false = true by decide), if_pos ⟨hk, hn⟩] at h
    omega

omit [Uni] in
theorem given_le (calls : List Call) (k : Str) : given calls k ≤ 1 + (calls.filterMap Call.appends).countP (fun p => p.key == k) := by
  unfold given
  split <;> omega

/-- **C129, exactly, for events.** -/
theorem event_occurs_iff (calls : List EventCall)
    (ho : OtherWritable (Component.toOther (calls.foldl EventCall.run Event.new))) (w : World) (hw : World.Ok w) (out : Str)
    (h : Component.fmtWrite (calls.foldl EventCall.run Event.new) w = .ok out) :
    ∃ b e items, (Item.comp b e c!"VEVENT" items).Ok .crlf ∧ unfold out = (Item.comp b e c!"VEVENT" items).text .crlf ∧
      (RfcEvent items ↔ EventGiven (calls.map EventCall.generic)) := by
  rw [event_runs] at ho h
  obtain ⟨b, e, items, h1, h2, h3⟩ := occurs_built Event.new rfl _ ho w hw out h
  refine ⟨b, e, items, h1, h2, ?_⟩
  have hk : ∀ k, k ≠ c!"DTSTAMP" → k ≠ c!"UID" → occurs k items = given (calls.map EventCall.generic) k := by
    intro k a b
    rw [h3 k, if_neg (fun hc => hc.1.elim a b)]
    rfl
  have hs := stamp_occurs _ c!"DTSTAMP" (.inl rfl) _ (h3 c!"DTSTAMP")
  have hu := stamp_occurs _ c!"UID" (.inr rfl) _ (h3 c!"UID")
  have hst := hk c!"DTSTART" (by decide) (by decide)
  have hen := hk c!"DTEND" (by decide) (by decide)
  have hdu := hk c!"DURATION" (by decide) (by decide)
  constructor
  · rintro ⟨-, -, a, b, c⟩
    refine ⟨by rwa [← hst], fun k hm => ?_, fun p hp => ⟨(hs.2.1 (b _ (by decide))) p hp, (hu.2.1 (b _ (by decide))) p hp⟩,
      by rwa [← hen, ← hdu]⟩
    have := b k hm
    have := h3 k
    omega
  · rintro ⟨a, b, c, d⟩
    refine ⟨hs.1, hu.1, by rwa [hst], fun k hm => ?_, by rwa [hen, hdu]⟩
    by_cases k1 : k = c!"DTSTAMP"
    · subst k1; exact hs.2.2 (fun p hp => (c p hp).1)
    by_cases k2 : k = c!"UID"
    · subst k2; exact hu.2.2 (fun p hp => (c p hp).2)
    rw [hk k k1 k2]
    exact b k hm

/-- **C129, exactly, for to-dos.** -/
theorem todo_occurs_iff (calls : List TodoCall)
    (ho : OtherWritable (Component.toOther (calls.foldl TodoCall.run Todo.new))) (w : World) (hw : World.Ok w) (out : Str)
    (h : Component.fmtWrite (calls.foldl TodoCall.run Todo.new) w = .ok out) :
    ∃ b e items, (Item.comp b e c!"VTODO" items).Ok .crlf ∧ unfold out = (Item.comp b e c!"VTODO" items).text .crlf ∧
      (RfcTodo items ↔ TodoGiven (calls.map TodoCall.generic)) := by
  rw [todo_runs] at ho h
  obtain ⟨b, e, items, h1, h2, h3⟩ := occurs_built Todo.new rfl _ ho w hw out h
  refine ⟨b, e, items, h1, h2, ?_⟩
  have hk : ∀ k, k ≠ c!"DTSTAMP" → k ≠ c!"UID" → occurs k items = given (calls.map TodoCall.generic) k := by
    intro k a b
    rw [h3 k, if_neg (fun hc => hc.1.elim a b)]
    rfl
  have hs := stamp_occurs _ c!"DTSTAMP" (.inl rfl) _ (h3 c!"DTSTAMP")
  have hu := stamp_occurs _ c!"UID" (.inr rfl) _ (h3 c!"UID")
  have hst := hk c!"DTSTART" (by decide) (by decide)
  have hen := hk c!"DUE" (by decide) (by decide)
  have hdu := hk c!"DURATION" (by decide) (by decide)
  constructor
  · rintro ⟨-, -, b, c, d⟩
    refine ⟨fun k hm => ?_, fun p hp => ⟨(hs.2.1 (b _ (by decide))) p hp, (hu.2.1 (b _ (by decide))) p hp⟩,
      by rwa [← hen, ← hdu], by rwa [← hst, ← hdu]⟩
    have := b k hm
    have := h3 k
    omega
  · rintro ⟨b, c, d, a⟩
    refine ⟨hs.1, hu.1, fun k hm => ?_, by rwa [hen, hdu], by rwa [hst, hdu]⟩
    by_cases k1 : k = c!"DTSTAMP"
    · subst k1; exact hs.2.2 (fun p hp => (c p hp).1)
    by_cases k2 : k = c!"UID"
    · subst k2; exact hu.2.2 (fun p hp => (c p hp).2)
    rw [hk k k1 k2]
    exact b k hm

omit [Uni] in
theorem given_zero (calls : List Call) (k : Str) :
    given calls k = 0 ↔ (∀ p ∈ calls.flatMap Call.sets, p.key ≠ k) ∧ ∀ p ∈ calls.filterMap Call.appends, p.key ≠ k := by
  unfold given
  rw [Nat.add_eq_zero_iff, List.countP_eq_zero]
  refine and_congr ?_ (by simp)
  constructor
  · intro h p hp hk
    rw [if_pos (List.any_eq_true.2 ⟨p, hp, by simpa using hk⟩)] at h
    cases h
  · intro h
    rw [if_neg]
    intro hc
    obtain ⟨p, hp, hk⟩ := List.any_eq_true.1 hc
    exact h p hp (by simpa using hk)

omit [Uni] in
theorem typed_appends {x : Call} (h : Typed x) : x.appends = none := by
  cases x <;> first | rfl | exact h.elim

omit [Uni] in
theorem dateProperty_key (k : Str) (d : DatePerhapsTime) : (Call.dateProperty k d).key = k := by
  rcases d with t | d
  · cases t <;> rfl
  · rfl

omit [Uni] in
theorem typed_duration {x : Call} (h : Typed x) : ∀ p ∈ x.sets, p.key ≠ c!"DURATION" := by
  cases x <;> first | exact h.elim | simp [Call.sets, dateProperty_key]

omit [Uni] in
theorem typed_start {x : EventCall} (h : TypedEvent x) : (∃ p ∈ x.generic.sets, p.key = c!"DTSTART") ↔ SaysStart x := by
  rcases x with x | s
  · cases x <;> first | exact h.elim | simp [EventCall.generic, Call.sets, dateProperty_key, SaysStart]
  · cases s <;> simp [EventCall.generic, Call.sets, SaysStart]

omit [Uni] in
theorem typedEvent_generic {x : EventCall} (h : TypedEvent x) :
    x.generic.appends = none ∧ ∀ p ∈ x.generic.sets, p.key ≠ c!"DURATION" := by
  rcases x with x | s
  · exact ⟨typed_appends h, typed_duration h⟩
  · cases s <;> simp [EventCall.generic, Call.sets, Call.appends]

omit [Uni] in
theorem typedTodo_generic {x : TodoCall} (h : TypedTodo x) :
    x.generic.appends = none ∧ ∀ p ∈ x.generic.sets, p.key ≠ c!"DURATION" := by
  rcases x with x | n | d | u | s
  · exact ⟨typed_appends h, typed_duration h⟩
  · simp [TodoCall.generic, Call.sets, Call.appends]
  · simp [TodoCall.generic, Call.sets, Call.appends, dateProperty_key]
  · simp [TodoCall.generic, Call.sets, Call.appends]
  · cases s <;> simp [TodoCall.generic, Call.sets, Call.appends]

omit [Uni] in
theorem given_typed {calls : List Call} (h : ∀ x ∈ calls, x.appends = none ∧ ∀ p ∈ x.sets, p.key ≠ c!"DURATION") :
    calls.filterMap Call.appends = [] ∧ given calls c!"DURATION" = 0 ∧ ∀ k, given calls k ≤ 1 := by
  have ha : calls.filterMap Call.appends = [] := List.filterMap_eq_nil_iff.2 (fun x hx => (h x hx).1)
  refine ⟨ha, (given_zero _ _).2 ⟨?_, by simp [ha]⟩, fun k => ?_⟩
  · intro p hp
    obtain ⟨x, hx, hpx⟩ := List.mem_flatMap.1 hp
    exact (h x hx).2 p hpx
  · have := given_le calls k
    rw [ha] at this
    simpa using this

/-- **C129 (partial), events.** The typed calls make an event complete if and only if one of them says when it starts. -/
theorem event_typed_partial (calls : List EventCall) (ht : ∀ x ∈ calls, TypedEvent x)
    (ho : OtherWritable (Component.toOther (calls.foldl EventCall.run Event.new))) (w : World) (hw : World.Ok w) (out : Str)
    (h : Component.fmtWrite (calls.foldl EventCall.run Event.new) w = .ok out) :
    ∃ b e items, (Item.comp b e c!"VEVENT" items).Ok .crlf ∧ unfold out = (Item.comp b e c!"VEVENT" items).text .crlf ∧
      (RfcEvent items ↔ ∃ x ∈ calls, SaysStart x) := by
  obtain ⟨b, e, items, h1, h2, h3⟩ := event_occurs_iff calls ho w hw out h
  refine ⟨b, e, items, h1, h2, h3.trans ?_⟩
  obtain ⟨ha, hd, hl⟩ := given_typed (calls := calls.map EventCall.generic) (fun x hx => by
    obtain ⟨y, hy, rfl⟩ := List.mem_map.1 hx
    exact typedEvent_generic (ht y hy))
  have hs : given (calls.map EventCall.generic) c!"DTSTART" ≠ 0 ↔ ∃ x ∈ calls, SaysStart x := by
    rw [Ne, given_zero, ha]
    constructor
    · intro hn
      refine Classical.byContradiction fun hc => hn ⟨fun p hp hk => ?_, by simp⟩
      obtain ⟨x, hx, hpx⟩ := List.mem_flatMap.1 hp
      obtain ⟨y, hy, rfl⟩ := List.mem_map.1 hx
      exact hc ⟨y, hy, (typed_start (ht y hy)).1 ⟨p, hpx, hk⟩⟩
    · rintro ⟨y, hy, hs⟩ ⟨hn, -⟩
      obtain ⟨p, hp, hk⟩ := (typed_start (ht y hy)).2 hs
      exact hn p (List.mem_flatMap.2 ⟨_, List.mem_map.2 ⟨y, hy, rfl⟩, hp⟩) hk
  rw [← hs]
  exact ⟨fun x => x.start, fun x => ⟨x, fun k _ => hl k, by simp [ha], .inr hd⟩⟩

/-- **C129 (partial), to-dos.** The typed calls always make a complete to-do. -/
theorem todo_typed_partial (calls : List TodoCall) (ht : ∀ x ∈ calls, TypedTodo x)
    (ho : OtherWritable (Component.toOther (calls.foldl TodoCall.run Todo.new))) (w : World) (hw : World.Ok w) (out : Str)
    (h : Component.fmtWrite (calls.foldl TodoCall.run Todo.new) w = .ok out) :
    ∃ b e items, (Item.comp b e c!"VTODO" items).Ok .crlf ∧ unfold out = (Item.comp b e c!"VTODO" items).text .crlf ∧
      RfcTodo items := by
  obtain ⟨b, e, items, h1, h2, h3⟩ := todo_occurs_iff calls ho w hw out h
  refine ⟨b, e, items, h1, h2, h3.2 ?_⟩
  obtain ⟨ha, hd, hl⟩ := given_typed (calls := calls.map TodoCall.generic) (fun x hx => by
    obtain ⟨y, hy, rfl⟩ := List.mem_map.1 hx
    exact typedTodo_generic (ht y hy))
  exact ⟨fun k _ => hl k, by simp [ha], .inr hd, .inl hd⟩

theorem linesNamed_comps {k : Str} (l : List CalComp) (w : World) : linesNamed k (compItems l w) = [] := by
  induction l generalizing w with
  | nil => rfl
  | cons x l ih =>
    simp only [compItems]
    generalize x.toOther = o
    obtain ⟨n, p, m, c⟩ := o
    simp only [Other.item, linesNamed]
    exact ih _

/-- **C129, exactly, for calendars.** A calendar built from the default header is complete if and only if it was given a
component, METHOD at most once, and no second version, product or calendar scale. -/
theorem calendar_occurs_iff (calls : List CalCall) (hc : CalendarWritable (calls.foldl CalCall.run Calendar.new)) (w : World)
    (hw : World.Ok w) (out : Str) (h : (calls.foldl CalCall.run Calendar.new).fmtWrite w = .ok out) :
    ∃ b e items, (Item.comp b e c!"VCALENDAR" items).Ok .crlf ∧
      unfold out = (Item.comp b e c!"VCALENDAR" items).text .crlf ∧
      (RfcCalendar items ↔ calls.flatMap CalCall.comps ≠ [] ∧
        (∀ p ∈ calls.flatMap CalCall.props, p.key ≠ c!"PRODID" ∧ p.key ≠ c!"VERSION" ∧ p.key ≠ c!"CALSCALE") ∧
        (calls.flatMap CalCall.props).countP (fun p => p.key == c!"METHOD") ≤ 1) := by
  refine ⟨_, _, _, calendar_item_ok hc hw, unfold_calendar hc hw h, ?_⟩
  obtain ⟨e1, e2⟩ := calendar_history Calendar.new calls
  rw [e1, e2]
  have hcount : ∀ k, occurs k (propItems (Calendar.new.props ++ calls.flatMap CalCall.props) (w.sub 0) ++
      compItems (Calendar.new.comps ++ calls.flatMap CalCall.comps) (w.sub 1)) =
      Calendar.new.props.countP (fun p => p.key == k) + (calls.flatMap CalCall.props).countP (fun p => p.key == k) := by
    intro k
    unfold occurs
    rw [linesNamed_append, linesNamed_comps, List.append_nil, linesNamed_count, ← List.countP_eq_length_filter,
      List.countP_append]
  have hv := hcount c!"VERSION"
  have hp := hcount c!"PRODID"
  have hs := hcount c!"CALSCALE"
  have hm := hcount c!"METHOD"
  rw [show Calendar.new.props.countP (fun p => p.key == c!"VERSION") = 1 by decide +kernel] at hv
  rw [show Calendar.new.props.countP (fun p => p.key == c!"PRODID") = 1 by decide +kernel] at hp
  rw [show Calendar.new.props.countP (fun p => p.key == c!"CALSCALE") = 1 by decide +kernel] at hs
  rw [show Calendar.new.props.countP (fun p => p.key == c!"METHOD") = 0 by decide +kernel] at hm
  have hz : ∀ k, (calls.flatMap CalCall.props).countP (fun p => p.key == k) = 0 ↔
      ∀ p ∈ calls.flatMap CalCall.props, p.key ≠ k := by
    intro k
    rw [List.countP_eq_zero]
    simp only [beq_iff_eq]
  have hcomp : (∃ b e n sub, Item.comp b e n sub ∈ propItems (Calendar.new.props ++ calls.flatMap CalCall.props) (w.sub 0) ++
      compItems (Calendar.new.comps ++ calls.flatMap CalCall.comps) (w.sub 1)) ↔ calls.flatMap CalCall.comps ≠ [] := by
    have hnew : Calendar.new.comps = [] := rfl
    rw [hnew, List.nil_append]
    constructor
    · rintro ⟨b, e, n, sub, hmem⟩ hnil
      rw [hnil] at hmem
      rcases List.mem_append.1 hmem with hmem | hmem
      · obtain ⟨k, ps, v, hx⟩ := propItems_prop _ _ _ hmem
        cases hx
      · cases hmem
    · intro hne
      cases hl : calls.flatMap CalCall.comps with
      | nil => exact absurd hl hne
      | cons x l =>
        generalize hx : x.toOther = o
        obtain ⟨n, p, m, c⟩ := o
        have hmem : x.toOther.item ((w.sub 1).sub 0) ∈ compItems (x :: l) (w.sub 1) := List.mem_cons_self
        rw [hx, Other.item] at hmem
        exact ⟨_, _, _, _, List.mem_append.2 (.inr hmem)⟩
  constructor
  · rintro ⟨-, -, a, b⟩
    have a1 := a c!"VERSION" (by decide)
    have a2 := a c!"PRODID" (by decide)
    have a3 := a c!"CALSCALE" (by decide)
    have a4 := a c!"METHOD" (by decide)
    refine ⟨hcomp.1 b, fun p hpm => ⟨(hz _).1 (by omega) p hpm, (hz _).1 (by omega) p hpm, (hz _).1 (by omega) p hpm⟩, by omega⟩
  · rintro ⟨a, b, c⟩
    have b1 := (hz c!"PRODID").2 (fun p hpm => (b p hpm).1)
    have b2 := (hz c!"VERSION").2 (fun p hpm => (b p hpm).2.1)
    have b3 := (hz c!"CALSCALE").2 (fun p hpm => (b p hpm).2.2)
    refine ⟨by omega, by omega, ?_, hcomp.2 a⟩
    intro k hk
    simp only [calendarOnce, List.mem_cons, List.not_mem_nil, or_false] at hk
    rcases hk with rfl | rfl | rfl | rfl <;> omega

omit [Uni] in
/-- **C129, what is missing.** An event without start, a repeated summary, and a calendar without component. -/
theorem occurs_violated :
    @Component.fmtWrite Event _ Uni.ascii (Component.summary Event.new c!"a")
      ⟨fun _ => ⟨⟨⟨2026, 1, 1⟩, 0, 0, 0, 0⟩⟩, fun _ => c!"0-f", fun _ l => l⟩ =
      .ok c!"BEGIN:VEVENT\r\nDTSTAMP:20260101T000000Z\r\nSUMMARY:a\r\nUID:0-f\r\nEND:VEVENT\r\n" ∧
    @Component.fmtWrite Event _ Uni.ascii (Component.addMultiProperty (Component.summary Event.new c!"a") c!"SUMMARY" c!"b")
      ⟨fun _ => ⟨⟨⟨2026, 1, 1⟩, 0, 0, 0, 0⟩⟩, fun _ => c!"0-f", fun _ l => l⟩ =
      .ok c!"BEGIN:VEVENT\r\nDTSTAMP:20260101T000000Z\r\nSUMMARY:a\r\nUID:0-f\r\nSUMMARY:b\r\nEND:VEVENT\r\n" ∧
    @Calendar.fmtWrite Uni.ascii Calendar.new
      ⟨fun _ => ⟨⟨⟨2026, 1, 1⟩, 0, 0, 0, 0⟩⟩, fun _ => c!"0-f", fun _ l => l⟩ =
      .ok c!"BEGIN:VCALENDAR\r\nVERSION:2.0\r\nPRODID:ICALENDAR-RS\r\nCALSCALE:GREGORIAN\r\nEND:VCALENDAR\r\n" := by
  decide +kernel

end Ical
