import Verif.Props.Built
import Verif.Props.Rewrite

/-!
C99: calendars that are read, changed and written.
-/

namespace Ical

open Nom Spec

namespace Spec

/-- What a program does to a calendar it has: calls of calendar methods, calls of component methods on one of the
components, and changes of the list of components (a public field). -/
inductive Edit
  | calendar (x : CalCall)
  | component (i : Nat) (calls : List Call)
  | remove (i : Nat)
  | put (i : Nat) (x : CalComp)

/-- Calls of component methods on a component of a calendar. -/
def callAll (calls : List Call) : CalComp → CalComp
  | .event e => .event (calls.foldl Call.run e)
  | .todo e => .todo (calls.foldl Call.run e)
  | .venue e => .venue (calls.foldl Call.run e)
  | .other o => .other (calls.foldl Call.run o)

/-- Performing an edit. -/
def Edit.run (c : Calendar) : Edit → Calendar
  | calendar x => x.run c
  | component i calls => { c with comps := c.comps.modify i (callAll calls) }
  | remove i => { c with comps := c.comps.eraseIdx i }
  | put i x => { c with comps := c.comps.set i x }

variable [Uni]

/-- What an edit must be given: as for the calls, and well-formed components. -/
def Edit.ArgsOk : Edit → Prop
  | calendar x => x.ArgsOk
  | component _ calls => ∀ x ∈ calls, x.ArgsOk
  | remove _ => True
  | put _ x => CalCompOk x

end Spec

theorem foldl_name (calls : List Call) (o : Other) : (calls.foldl Call.run o).name = o.name := by
  induction calls generalizing o with
  | nil => rfl
  | cons x calls ih =>
    rw [List.foldl_cons, ih]
    obtain ⟨n, p, m, l⟩ := o
    cases x <;> rfl

theorem callAll_toOther_name (calls : List Call) (x : CalComp) : (callAll calls x).toOther.name = x.toOther.name := by
  cases x with
  | other o => exact foldl_name calls o
  | _ => rfl

theorem callAll_kind (calls : List Call) (x : CalComp) : SameKind x (callAll calls x) := by
  cases x <;> trivial

theorem callAll_props (calls : List Call) (x : CalComp) (k : Str) :
    (callAll calls x).toOther.inner.props.get k =
      ((calls.flatMap Call.sets).reverse.find? (fun p => p.key == k)).or (x.toOther.inner.props.get k) := by
  cases x with
  | event e | todo e | venue e =>
    show (Component.inner (calls.foldl Call.run e)).props.get k = _
    rw [props_runs, get_sets]
    rfl
  | other o =>
    have : (callAll calls (.other o)).toOther.inner = Component.inner (calls.foldl Call.run o) := by
      show (calls.foldl Call.run o).inner = _
      rfl
    rw [this, props_runs, get_sets]
    rfl

variable [Uni]

theorem callAll_ok {calls : List Call} (h : ∀ x ∈ calls, x.ArgsOk) {x : CalComp} (hx : CalCompOk x) :
    CalCompOk (callAll calls x) := by
  cases x with
  | event e | todo e | venue e =>
    obtain ⟨h1, h2, h3⟩ := hx
    have := good_runs (c := e) ⟨h2, h3⟩ h
    exact ⟨h1, this.inner, this.comps⟩
  | other o =>
    obtain ⟨ho, hn⟩ := hx
    have hname := foldl_name calls o
    have : Good (Component.inner o) := by
      obtain ⟨n, p, m, l⟩ := o
      exact ⟨ho.2.1, ho.2.2⟩
    have := good_runs (c := o) this h
    have h1 : IsName o.name := by
      obtain ⟨n, p, m, l⟩ := o
      exact ho.1
    show OtherOk (calls.foldl Call.run o) ∧ _
    generalize calls.foldl Call.run o = r at *
    rw [hname]
    refine ⟨?_, hn⟩
    obtain ⟨n, p, m, l⟩ := r
    exact ⟨by rw [← hname] at h1; exact h1, this.inner, this.comps⟩

/-- **C99.** Every edit of a well-formed calendar gives a well-formed calendar. -/
theorem edits_ok (c : Calendar) (hc : CalendarOk c) (edits : List Edit) (h : ∀ x ∈ edits, x.ArgsOk) :
    CalendarOk (edits.foldl Edit.run c) := by
  induction edits generalizing c with
  | nil => exact hc
  | cons x edits ih =>
    refine ih _ ?_ (fun y hy => h y (by simp [hy]))
    have hx := h x (by simp)
    cases x with
    | calendar x =>
      have hb := built_calendar_ok Calendar.empty (.inr rfl) [x] (by simpa [Edit.ArgsOk] using hx)
      obtain ⟨e1, e2⟩ := calendar_history Calendar.empty [x]
      obtain ⟨f1, f2⟩ := calendar_history c [x]
      refine ⟨?_, ?_⟩
      · show ∀ p ∈ ([x].foldl CalCall.run c).props, _
        rw [f2]
        intro p hp
        rcases List.mem_append.1 hp with hp | hp
        · exact hc.props p hp
        · exact hb.props p (by rw [e2]; exact List.mem_append.2 (.inr hp))
      · show ∀ p ∈ ([x].foldl CalCall.run c).comps, _
        rw [f1]
        intro p hp
        rcases List.mem_append.1 hp with hp | hp
        · exact hc.comps p hp
        · exact hb.comps p (by rw [e1]; exact List.mem_append.2 (.inr hp))
    | component i calls =>
      refine ⟨hc.props, ?_⟩
      intro y hy
      obtain ⟨j, hj⟩ := List.mem_iff_getElem?.1 hy
      simp only [Edit.run, List.getElem?_modify] at hj
      obtain ⟨z, hz, rfl⟩ := Option.map_eq_some_iff.1 hj
      have hz := hc.comps z (List.mem_of_getElem? hz)
      split
      · exact callAll_ok hx hz
      · exact hz
    | remove i => exact ⟨hc.props, fun y hy => hc.comps y (List.mem_of_mem_eraseIdx hy)⟩
    | put i z =>
      refine ⟨hc.props, ?_⟩
      intro y hy
      rcases List.mem_or_eq_of_mem_set hy with hy | rfl
      · exact hc.comps y hy
      · exact hx

/-- **C99.** A calendar read from a text without the odd parts of C94, changed in any way, written and read again is
the changed calendar, with texts changed only as in C83 and DTSTAMP and UID generated where they are missing. -/
theorem read_edit_write (s : Str) (c : Calendar) (h : Calendar.fromStr s = some c) (hm : MarkerFree (unfold s))
    (ht : ∀ c0, readCalendar (unfold s) = some c0 → TidyCal c0) (edits : List Edit) (he : ∀ x ∈ edits, x.ArgsOk)
    (w : World) (hw : World.Ok w) (out : Str) (ho : (edits.foldl Edit.run c).fmtWrite w = .ok out) :
    ∃ c', Calendar.fromStr out = some c' ∧ CalStamped (rereadCal (edits.foldl Edit.run c)) c' := by
  obtain ⟨c0, h0, rfl⟩ := Option.map_eq_some_iff.1 h
  exact calendar_reread _ (edits_ok _ (parsed_calendar_ok h0 hm (ht c0 h0)) _ he) w hw out ho

omit [Uni] in
theorem get_addedIfMissing {k j : Str} {p : Property} {m m' : BMap Property} (h : AddedIfMissing k p m m')
    (hm : InOrder m) (hj : j ≠ k) : m'.get j = m.get j := by
  obtain ⟨ho, h⟩ := h
  split at h
  · rw [h]
  · have : ∀ v, m'.get j = some v ↔ m.get j = some v := by
      intro v
      constructor
      · intro hg
        have hg := BMap.get_mem hg
        rcases (h _).1 hg with e | hg
        · exact absurd (congrArg Prod.fst e) hj
        · exact BMap.get_of_mem hm hg
      · intro hg
        exact BMap.get_of_mem ho ((h _).2 (.inr (BMap.get_mem hg)))
    cases hg : m.get j with
    | some v => exact (this v).2 hg
    | none =>
      cases hg' : m'.get j with
      | none => rfl
      | some v => rw [(this v).1 hg'] at hg; cases hg

omit [Uni] in
theorem get_reread (m : BMap Property) (k : Str) :
    BMap.get k (m.map (fun x => (x.1, rereadProp x.2))) = (m.get k).map rereadProp := by
  induction m with
  | nil => rfl
  | cons x m ih =>
    obtain ⟨j, p⟩ := x
    simp only [List.map_cons, BMap.get]
    split
    · rfl
    · exact ih

/-- **C99.** In particular, calls on the component at `i` leave the other components as they were, and of that
component exactly the properties they set get another value. -/
theorem read_set_write (s : Str) (c : Calendar) (h : Calendar.fromStr s = some c) (hm : MarkerFree (unfold s))
    (ht : ∀ c0, readCalendar (unfold s) = some c0 → TidyCal c0) (i : Nat) (calls : List Call)
    (he : ∀ x ∈ calls, x.ArgsOk) (w : World) (hw : World.Ok w) (out : Str)
    (ho : (Edit.run c (.component i calls)).fmtWrite w = .ok out) :
    ∃ c', Calendar.fromStr out = some c' ∧ c'.props = c.props.map rereadProp ∧ c'.comps.length = c.comps.length ∧
      (∀ (j : Nat) x x', j ≠ i → c.comps[j]? = some x → c'.comps[j]? = some x' →
        SameKind x x' ∧ Stamped (rereadOther x.toOther) x'.toOther) ∧
      (∀ x x', c.comps[i]? = some x → c'.comps[i]? = some x' → SameKind x x' ∧ ∀ k, k ≠ c!"DTSTAMP" → k ≠ c!"UID" →
        x'.toOther.inner.props.get k = (((calls.flatMap Call.sets).reverse.find? (fun p => p.key == k)).or
          (x.toOther.inner.props.get k)).map rereadProp) := by
  obtain ⟨c', h1, h2⟩ := read_edit_write s c h hm ht [.component i calls] (by simpa [Edit.ArgsOk] using he) w hw out ho
  have hok : CalendarOk (Edit.run c (.component i calls)) := by
    obtain ⟨c0, h0, rfl⟩ := Option.map_eq_some_iff.1 h
    exact edits_ok _ (parsed_calendar_ok h0 hm (ht c0 h0)) [.component i calls] (by simpa [Edit.ArgsOk] using he)
  have hg : ∀ j x, c.comps[j]? = some x →
      (Edit.run c (.component i calls)).comps[j]? = some (if i = j then callAll calls x else x) := by
    intro j x hx
    simp only [Edit.run, List.getElem?_modify, hx]
    split <;> rfl
  refine ⟨c', h1, h2.props, by rw [h2.length]; simp [rereadCal, Edit.run], ?_, ?_⟩
  · intro j x x' hj hx hx'
    have := hg j x hx
    rw [if_neg (Ne.symm hj)] at this
    obtain ⟨a, b⟩ := h2.comps j (rereadComp x) x' (by simp only [rereadCal, List.foldl_cons, List.foldl_nil, List.getElem?_map, this]; rfl) hx'
    refine ⟨sameKind_trans ?_ a, by rw [← rereadComp_toOther]; exact b⟩
    cases x <;> trivial
  · intro x x' hx hx'
    have := hg i x hx
    rw [if_pos rfl] at this
    obtain ⟨a, b⟩ := h2.comps i (rereadComp (callAll calls x)) x'
      (by simp only [rereadCal, List.foldl_cons, List.foldl_nil, List.getElem?_map, this]; rfl) hx'
    refine ⟨sameKind_trans (callAll_kind calls x) (sameKind_trans ?_ a), ?_⟩
    · generalize callAll calls x = y
      cases y <;> trivial
    · intro k h1 h2
      have hy := calCompOk_other (hok.comps _ (List.mem_of_getElem? this))
      rw [rereadComp_toOther] at b
      rw [← callAll_props, ← get_reread]
      generalize (callAll calls x).toOther = o at *
      generalize x'.toOther = o' at *
      obtain ⟨n, props, multi, comps⟩ := o
      rw [rereadOther] at b
      cases b with
      | mk _ _ s1 s2 _ =>
        have e1 := get_addedIfMissing s1 (inOrder_reread hy.2.1.inOrder) h1
        have e2 := get_addedIfMissing s2 s1.1 h2
        exact e2.trans e1

end Ical

namespace Ical

open Spec

namespace EditsCheck

local instance asciiUni : Uni := Uni.ascii

def source : Str := c!"BEGIN:VCALENDAR\nBEGIN:VEVENT\nSUMMARY:old\nX-A:1\nEND:VEVENT\nBEGIN:VJOURNAL\nEND:VJOURNAL\nEND:VCALENDAR"

def changes : List Edit :=
  [.component 0 [.summary c!"new, longer", .addProperty c!"X-B" c!"2"], .remove 1, .calendar (.name c!"n")]

def world : World := ⟨fun _ => ⟨⟨⟨2026, 1, 1⟩, 0, 0, 0, 0⟩⟩, fun _ => c!"0-f", fun _ l => l⟩

/-- the conditions of `read_edit_write` are fulfilled by this document and these changes -/
example : MarkerFree (unfold source) ∧ (∀ c0, readCalendar (unfold source) = some c0 → TidyCal c0) ∧
    ∀ x ∈ changes, x.ArgsOk := by
  refine ⟨by decide +kernel, ?_, ?_⟩
  · intro c0 h
    have e : readCalendar (unfold source) = some ⟨[], [.mk c!"VEVENT" [⟨c!"SUMMARY", c!"old", []⟩, ⟨c!"X-A", c!"1", []⟩] [],
      .mk c!"VJOURNAL" [] []]⟩ := rfl
    obtain rfl := Option.some.inj (e.symm.trans h)
    exact ⟨by simp, ⟨by decide +kernel, trivial⟩, ⟨by simp, trivial⟩, trivial⟩
  · intro x hx
    simp only [changes, List.mem_cons, List.not_mem_nil, or_false] at hx
    rcases hx with rfl | rfl | rfl
    · intro y hy
      simp only [List.mem_cons, List.not_mem_nil, or_false] at hy
      rcases hy with rfl | rfl
      · trivial
      · exact ⟨by decide, by decide +kernel⟩
    · trivial
    · exact ⟨by decide, by decide +kernel⟩

/-- and so it becomes the following -/
example : (Calendar.fromStr source).map (fun c => (changes.foldl Edit.run c).fmtWrite world) = some (.ok
    c!"BEGIN:VCALENDAR\r\nNAME:n\r\nX-WR-CALNAME:n\r\nBEGIN:VEVENT\r\nDTSTAMP:20260101T000000Z\r\nSUMMARY:new\\, longer\r\nX-A:1\r\nX-B:2\r\nUID:0-f\r\nEND:VEVENT\r\nEND:VCALENDAR\r\n") := by
  decide +kernel

end EditsCheck

end Ical
