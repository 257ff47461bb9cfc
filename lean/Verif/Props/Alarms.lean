import Verif.Model.Alarm
import Verif.Proofs.Map
import Verif.Props.Dates
import Verif.Props.Calendars

/-!
C53, C54, C56: alarms and triggers.
-/

namespace Ical

open Spec

/-- The assumptions about the crate iso8601 can be met: a reader of just the required texts. -/
@[instance_reducible] def Iso8601.sample : Iso8601 where
  Dur := Nat
  read s :=
    if s = c!"P0D" then some 0
    else if c!"PT" <+: s ∧ ['S'] <:+ s then parseUnsigned 4294967295 ((s.drop 2).dropLast)
    else none
  conv n := some ⟨n * 1000000000⟩
  parse_zero := rfl
  parse_secs := by
    intro n hn
    have h1 : c!"PT" ++ natToStr n ++ ['S'] ≠ c!"P0D" := by
      simp
    have h2 : c!"PT" <+: c!"PT" ++ natToStr n ++ ['S'] ∧ ['S'] <:+ c!"PT" ++ natToStr n ++ ['S'] :=
      ⟨⟨natToStr n ++ ['S'], by simp⟩, ⟨c!"PT" ++ natToStr n, rfl⟩⟩
    have h3 : ((c!"PT" ++ natToStr n ++ ['S']).drop 2).dropLast = natToStr n := by
      have : (c!"PT" ++ natToStr n ++ ['S']).drop 2 = natToStr n ++ ['S'] := by simp
      rw [this, List.dropLast_concat]
    rw [if_neg h1, if_pos h2, h3, parseUnsigned_natToStr (by omega)]
    rfl
  parse_neg := by
    intro s
    rw [if_neg (by simp), if_neg (by simp)]

/-! ### C53 -/

/-- What the properties of an alarm are after the calls `(duration, repeat)` of `duration_and_repeat`. -/
def Spec.alarmProps (action trigger : Property) (desc : Option Str) (calls : List (Duration × Nat)) (k : Str) :
    Option Property :=
  if k = c!"ACTION" then some action
  else if k = c!"TRIGGER" then some trigger
  else if k = c!"DESCRIPTION" then desc.map (fun d => ⟨c!"DESCRIPTION", d, []⟩)
  else if k = c!"DURATION" then calls.getLast?.map (fun x => ⟨c!"DURATION", x.1.toStr, []⟩)
  else if k = c!"REPEAT" then calls.getLast?.map (fun x => ⟨c!"REPEAT", natToStr x.2, []⟩)
  else none

theorem durationAndRepeat_runs (calls : List (Duration × Nat)) (a : Alarm)
    (hs : BMap.Sorted a.inner.props) :
    let b := calls.foldl (fun a x => a.durationAndRepeat x.1 x.2) a
    BMap.Sorted b.inner.props ∧ b.inner.multi = a.inner.multi ∧ b.inner.comps = a.inner.comps ∧
    ∀ k, b.inner.props.get k =
      if k = c!"DURATION" then (calls.getLast?.map (fun x => ⟨c!"DURATION", x.1.toStr, []⟩)).or (a.inner.props.get k)
      else if k = c!"REPEAT" then (calls.getLast?.map (fun x => ⟨c!"REPEAT", natToStr x.2, []⟩)).or (a.inner.props.get k)
      else a.inner.props.get k := by
  induction calls generalizing a with
  | nil => exact ⟨hs, rfl, rfl, fun k => by simp⟩
  | cons x calls ih =>
    have hs1 : BMap.Sorted (a.durationAndRepeat x.1 x.2).inner.props :=
      BMap.sorted_insert (BMap.sorted_insert hs)
    obtain ⟨h1, h2, h3, h4⟩ := ih _ hs1
    refine ⟨h1, h2, h3, ?_⟩
    intro k
    have hg : (a.durationAndRepeat x.1 x.2).inner.props.get k =
        if k = c!"REPEAT" then some ⟨c!"REPEAT", natToStr x.2, []⟩
        else if k = c!"DURATION" then some ⟨c!"DURATION", x.1.toStr, []⟩ else a.inner.props.get k := by
      show BMap.get k (BMap.insert _ _ (BMap.insert _ _ a.inner.props)) = _
      rw [BMap.get_insert _ _ _ _ (BMap.sorted_insert hs), BMap.get_insert _ _ _ _ hs]
      rfl
    simp only [List.foldl_cons]
    rw [h4 k, hg]
    have hne : c!"DURATION" ≠ c!"REPEAT" := by decide
    by_cases hd : k = c!"DURATION"
    · subst hd
      rw [if_pos rfl, if_pos rfl, if_neg hne, if_pos rfl]
      cases calls with
      | nil => rfl
      | cons y l =>
        rw [List.getLast?_cons_cons, List.getLast?_cons]
        rfl
    · rw [if_neg hd, if_neg hd]
      by_cases hr : k = c!"REPEAT"
      · subst hr
        rw [if_pos rfl, if_pos rfl, if_pos rfl]
        cases calls with
        | nil => rfl
        | cons y l =>
        rw [List.getLast?_cons_cons, List.getLast?_cons]
        rfl
      · rw [if_neg hr, if_neg hr, if_neg hr, if_neg hd]

theorem trigger_key (t : Trigger) : t.toProperty.key = c!"TRIGGER" := by
  rcases t with ⟨d, r⟩ | t
  · cases r <;> rfl
  · cases t <;> rfl

/-- **C53.** An alarm has exactly its mandatory properties, each once, and DURATION and REPEAT come together
with the values of the last call. -/
theorem alarm_mandatory (t : Trigger) (desc : Str) (calls : List (Duration × Nat)) :
    (let a := calls.foldl (fun a x => a.durationAndRepeat x.1 x.2) (Alarm.audio t)
     a.inner.multi = [] ∧ a.inner.comps = [] ∧ (a.inner.props.map Prod.fst).Nodup ∧
     ∀ k, a.inner.props.get k = alarmProps ⟨c!"ACTION", c!"AUDIO", []⟩ t.toProperty none calls k) ∧
    (let a := calls.foldl (fun a x => a.durationAndRepeat x.1 x.2) (Alarm.display desc t)
     a.inner.multi = [] ∧ a.inner.comps = [] ∧ (a.inner.props.map Prod.fst).Nodup ∧
     ∀ k, a.inner.props.get k = alarmProps ⟨c!"ACTION", c!"DISPLAY", []⟩ t.toProperty (some desc) calls k) := by
  constructor
  · have hs : BMap.Sorted (Alarm.audio t).inner.props :=
      BMap.sorted_insert (BMap.sorted_insert BMap.sorted_nil)
    obtain ⟨h1, h2, h3, h4⟩ := durationAndRepeat_runs calls _ hs
    refine ⟨h2, h3, BMap.nodup_keys h1, ?_⟩
    intro k
    have hg : (Alarm.audio t).inner.props.get k =
        if k = c!"TRIGGER" then some t.toProperty
        else if k = c!"ACTION" then some ⟨c!"ACTION", c!"AUDIO", []⟩ else none := by
      show BMap.get k (BMap.insert _ _ (BMap.insert _ _ [])) = _
      rw [BMap.get_insert _ _ _ _ (BMap.sorted_insert BMap.sorted_nil), BMap.get_insert _ _ _ _ BMap.sorted_nil,
        trigger_key]
      rfl
    rw [h4 k, hg]
    unfold alarmProps
    by_cases e1 : k = c!"ACTION"
    · subst e1; rfl
    by_cases e2 : k = c!"TRIGGER"
    · subst e2; rfl
    by_cases e3 : k = c!"DESCRIPTION"
    · subst e3; rfl
    by_cases e4 : k = c!"DURATION"
    · subst e4
      simp
    by_cases e5 : k = c!"REPEAT"
    · subst e5
      simp
    rw [if_neg e4, if_neg e5, if_neg e2, if_neg e1, if_neg e1, if_neg e2, if_neg e3, if_neg e4, if_neg e5]
  · have hs : BMap.Sorted (Alarm.display desc t).inner.props :=
      BMap.sorted_insert (BMap.sorted_insert (BMap.sorted_insert BMap.sorted_nil))
    obtain ⟨h1, h2, h3, h4⟩ := durationAndRepeat_runs calls _ hs
    refine ⟨h2, h3, BMap.nodup_keys h1, ?_⟩
    intro k
    have hg : (Alarm.display desc t).inner.props.get k =
        if k = c!"DESCRIPTION" then some ⟨c!"DESCRIPTION", desc, []⟩
        else if k = c!"TRIGGER" then some t.toProperty
        else if k = c!"ACTION" then some ⟨c!"ACTION", c!"DISPLAY", []⟩ else none := by
      show BMap.get k (BMap.insert _ _ (BMap.insert _ _ (BMap.insert _ _ []))) = _
      rw [BMap.get_insert _ _ _ _ (BMap.sorted_insert (BMap.sorted_insert BMap.sorted_nil)),
        BMap.get_insert _ _ _ _ (BMap.sorted_insert BMap.sorted_nil), BMap.get_insert _ _ _ _ BMap.sorted_nil,
        trigger_key]
      rfl
    rw [h4 k, hg]
    unfold alarmProps
    by_cases e1 : k = c!"ACTION"
    · subst e1; rfl
    by_cases e2 : k = c!"TRIGGER"
    · subst e2; rfl
    by_cases e3 : k = c!"DESCRIPTION"
    · subst e3; rfl
    by_cases e4 : k = c!"DURATION"
    · subst e4
      simp
    by_cases e5 : k = c!"REPEAT"
    · subst e5
      simp
    rw [if_neg e4, if_neg e5, if_neg e3, if_neg e2, if_neg e1, if_neg e1, if_neg e2, if_neg e3, if_neg e4,
      if_neg e5]

/-- the last call counts -/
example : ((((Alarm.audio (.afterStart ⟨0⟩)).durationAndRepeat ⟨0⟩ 4).durationAndRepeat ⟨5000000000⟩ 7).inner.props.map
    (fun x => (x.1, x.2.val))) =
    [(c!"ACTION", c!"AUDIO"), (c!"DURATION", c!"PT5S"), (c!"REPEAT", c!"7"), (c!"TRIGGER", c!"P0D")] := by
  decide +kernel

/-! ### C54 -/

/-- **C54** (partial: durations of whole seconds from 0 to below 2^32 s, and floating or UTC date-times in the
years 0 to 9999, which come back at whole seconds). A trigger survives its property form. -/
theorem trigger_roundtrip_partial [Iso8601] :
    (∀ n r, n < 4294967296 →
      Trigger.tryFrom (Trigger.duration ⟨(n : Nat) * 1000000000⟩ r).toProperty =
        some (.duration ⟨n * 1000000000⟩ r)) ∧
    (∀ t : NaiveDateTime, t.Valid → FourDigitYear t.date →
      Trigger.tryFrom (Trigger.dateTime (.floating t)).toProperty = some (.dateTime (.floating t.wholeSecond))) ∧
    (∀ t : UtcDateTime, t.naive.Valid → FourDigitYear t.naive.date →
      Trigger.tryFrom (Trigger.dateTime (.utc t)).toProperty = some (.dateTime (.utc ⟨t.naive.wholeSecond⟩))) := by
  refine ⟨?_, ?_, ?_⟩
  · intro n r hn
    have hp : Iso8601.parse (⟨n * 1000000000⟩ : Duration).toStr = some ⟨n * 1000000000⟩ := parse_toStr_secs n hn
    have key : ∀ q : Property, q.key = c!"TRIGGER" → q.params.get c!"VALUE" = none →
        q.val = (⟨n * 1000000000⟩ : Duration).toStr → q.getParamAs c!"RELATED" Related.fromStr = r →
        Trigger.tryFrom q = some (.duration ⟨n * 1000000000⟩ r) := by
      intro q h1 h2 h3 h4
      unfold Trigger.tryFrom
      rw [if_pos h1, h2, h3]
      simp only [hp, h4]
    rcases r with _ | (_ | _) <;> exact key _ rfl rfl rfl rfl
  · intro t hv hy
    have : CalDateTime.fromStr (fmtDateTime t) = some (.floating t.wholeSecond) := by
      unfold CalDateTime.fromStr
      rw [parseUtc_fmtDateTime hv hy.1 hy.2, parseDateTime_fmt hv hy.1 hy.2]
    show (CalDateTime.fromStr (fmtDateTime t)).map Trigger.dateTime = _
    rw [this]
    rfl
  · intro t hv hy
    have : CalDateTime.fromStr (fmtUtc t) = some (.utc ⟨t.naive.wholeSecond⟩) := by
      unfold CalDateTime.fromStr
      rw [parseUtc_fmt hv hy.1 hy.2]
    show (CalDateTime.fromStr (fmtUtc t)).map Trigger.dateTime = _
    rw [this]
    rfl

/-- the text of a negative duration -/
theorem toStr_neg (n : Nat) : ∃ s, (⟨-((n + 1 : Nat) : Int)⟩ : Duration).toStr = '-' :: s := by
  unfold Duration.toStr
  have h1 : (-((n + 1 : Nat) : Int)).natAbs = n + 1 := by omega
  have h2 : -((n + 1 : Nat) : Int) < 0 := by omega
  simp only [h1, h2, if_true]
  rw [if_neg (by omega)]
  exact ⟨_, by simp [List.append_assoc]; rfl⟩

/-- **C54 (violated).** Every negative duration, as `before_start` and `before_end` make them, gives a property
that is not read back, and a date-time with a time zone loses the zone. -/
theorem trigger_roundtrip_violated [Iso8601] :
    (∀ n r, Trigger.tryFrom (Trigger.duration ⟨-((n + 1 : Nat) : Int)⟩ r).toProperty = none) ∧
    (∀ t z, t.Valid → FourDigitYear t.date →
      Trigger.tryFrom (Trigger.dateTime (.zoned t z)).toProperty = some (.dateTime (.floating t.wholeSecond))) := by
  constructor
  · intro n r
    obtain ⟨s, hs⟩ := toStr_neg n
    have hp : Iso8601.parse (⟨-((n + 1 : Nat) : Int)⟩ : Duration).toStr = none := by
      unfold Iso8601.parse
      rw [hs, Iso8601.parse_neg]
      rfl
    have key : ∀ q : Property, q.key = c!"TRIGGER" → q.params.get c!"VALUE" = none →
        q.val = (⟨-((n + 1 : Nat) : Int)⟩ : Duration).toStr → Trigger.tryFrom q = none := by
      intro q h1 h2 h3
      unfold Trigger.tryFrom
      rw [if_pos h1, h2, h3]
      simp only [hp]
    rcases r with _ | (_ | _) <;> exact key _ rfl rfl rfl
  · intro t z hv hy
    have : CalDateTime.fromStr (fmtDateTime t) = some (.floating t.wholeSecond) := by
      unfold CalDateTime.fromStr
      rw [parseUtc_fmtDateTime hv hy.1 hy.2, parseDateTime_fmt hv hy.1 hy.2]
    show (CalDateTime.fromStr (fmtDateTime t)).map Trigger.dateTime = _
    rw [this]
    rfl

/-- **C54 (exactly, for date-times).** A trigger at a date-time is read back from its property form if and only if the year
is from 0 to 9999; then it is at the same local time, at whole seconds, in UTC if it was in UTC, and without a zone
otherwise. -/
theorem trigger_dateTime_exact [Iso8601] (x : CalDateTime) (hv : DateValid (.dateTime x)) :
    Trigger.tryFrom (Trigger.dateTime x).toProperty =
      if FourDigitYear (dateOf (.dateTime x)) then
        some (.dateTime (match x with
          | .floating t => .floating t.wholeSecond
          | .utc t => .utc ⟨t.naive.wholeSecond⟩
          | .zoned t _ => .floating t.wholeSecond))
      else none := by
  have big : ∀ t : NaiveDateTime, ¬ FourDigitYear t.date → CalDateTime.fromStr (fmtDateTime t) = none := by
    intro t ht
    have := (parse_bigYear (d := t.date) ht (s := 'T' :: (fmt2 t.hour ++ fmt2 t.min ++ fmtSec t)) (.inr ⟨_, rfl⟩)).2
    have e : fmtDateTime t = fmtDate t.date ++ 'T' :: (fmt2 t.hour ++ fmt2 t.min ++ fmtSec t) := by simp [fmtDateTime]
    unfold CalDateTime.fromStr
    rw [e, this.1, this.2]
  split
  · rename_i hy
    cases x with
    | floating t => exact trigger_roundtrip_partial.2.1 t hv hy
    | utc t => exact trigger_roundtrip_partial.2.2 t hv hy
    | zoned t z => exact trigger_roundtrip_violated.2 t z hv hy
  · rename_i hy
    cases x with
    | floating t =>
      show (CalDateTime.fromStr (fmtDateTime t)).map Trigger.dateTime = _
      rw [big t hy]; rfl
    | zoned t z =>
      show (CalDateTime.fromStr (fmtDateTime t)).map Trigger.dateTime = _
      rw [big t hy]; rfl
    | utc t =>
      show (CalDateTime.fromStr (fmtUtc t)).map Trigger.dateTime = _
      have e : fmtUtc t = fmtDate t.naive.date ++ 'T' :: (fmt2 t.naive.hour ++ fmt2 t.naive.min ++ fmtSec t.naive ++ ['Z']) := by
        simp [fmtUtc, fmtDateTime]
      have h := (parse_bigYear (d := t.naive.date) hy
        (s := 'T' :: (fmt2 t.naive.hour ++ fmt2 t.naive.min ++ fmtSec t.naive ++ ['Z'])) (.inr ⟨_, rfl⟩)).2
      unfold CalDateTime.fromStr
      rw [e, h.1, h.2]
      rfl

/-- the year 10000 -/
example : letI := Iso8601.sample
    Trigger.tryFrom (Trigger.dateTime (.floating ⟨⟨10000, 1, 1⟩, 0, 0, 0, 0⟩)).toProperty = none :=
  letI := Iso8601.sample
  (trigger_dateTime_exact _ (by show NaiveDateTime.Valid _; decide)).trans (if_neg (by show ¬ FourDigitYear _; decide))

/-- a trigger five minutes after the end, and the property form of one five minutes before the start -/
example : letI := Iso8601.sample
    Trigger.tryFrom (Trigger.afterEnd ⟨300 * 1000000000⟩).toProperty = some (.afterEnd ⟨300 * 1000000000⟩) :=
  letI := Iso8601.sample
  trigger_roundtrip_partial.1 300 (some .end_) (by decide)
example : (Trigger.beforeStart ⟨300000000000⟩).toProperty.val = c!"-PT300S" := by decide +kernel

/-- **C54**, for alarms. An alarm has the trigger it was made with as far as that can be read back, whatever
repetitions are set afterwards. -/
theorem alarm_trigger [Iso8601] (t : Trigger) (desc : Str) (calls : List (Duration × Nat)) :
    (calls.foldl (fun a x => a.durationAndRepeat x.1 x.2) (Alarm.audio t)).getTrigger = Trigger.tryFrom t.toProperty ∧
    (calls.foldl (fun a x => a.durationAndRepeat x.1 x.2) (Alarm.display desc t)).getTrigger =
      Trigger.tryFrom t.toProperty := by
  obtain ⟨⟨_, _, _, h1⟩, ⟨_, _, _, h2⟩⟩ := alarm_mandatory t desc calls
  unfold Alarm.getTrigger
  rw [h1, h2]
  exact ⟨rfl, rfl⟩

/-- **C54**, for alarms. The trigger and the action of an alarm are the ones of the property last given to it under that
name; properties of other names make no difference. -/
theorem alarm_follows [Iso8601] (a : Alarm) (p : Property) (hs : BMap.Sorted a.inner.props) :
    (Component.appendProperty a p).getTrigger = (if p.key = c!"TRIGGER" then Trigger.tryFrom p else a.getTrigger) ∧
    (Component.appendProperty a p).getAction = (if p.key = c!"ACTION" then some (Action.fromStr p.val) else a.getAction) := by
  have h : ∀ k, (Component.appendProperty a p).inner.props.get k = if k = p.key then some p else a.inner.props.get k :=
    fun k => BMap.get_insert _ _ _ _ hs
  constructor
  · unfold Alarm.getTrigger
    rw [h]
    by_cases hk : p.key = c!"TRIGGER"
    · rw [if_pos hk, if_pos hk.symm]; rfl
    · rw [if_neg hk, if_neg (fun e => hk e.symm)]
  · show (Option.map Property.val ((Component.appendProperty a p).inner.props.get c!"ACTION")).map Action.fromStr = _
    rw [h]
    by_cases hk : p.key = c!"ACTION"
    · rw [if_pos hk, if_pos hk.symm]; rfl
    · rw [if_neg hk, if_neg (fun e => hk e.symm)]; rfl

example : letI := Iso8601.sample
    (Component.appendProperty (Alarm.audio (.afterEnd ⟨60 * 1000000000⟩)) (.new c!"X-TRIGGER" c!"PT1H")).getTrigger =
      some (.afterEnd ⟨60 * 1000000000⟩) :=
  letI := Iso8601.sample
  ((alarm_follows _ _ (by decide +kernel)).1.trans (if_neg (by decide))).trans
    ((alarm_trigger (.afterEnd ⟨60 * 1000000000⟩) [] []).1.trans (trigger_roundtrip_partial.1 60 (some .end_) (by decide)))

/-- an alarm a minute after the end, repeated -/
example : letI := Iso8601.sample
    ((Alarm.audio (.afterEnd ⟨60 * 1000000000⟩)).durationAndRepeat ⟨5000000000⟩ 7).getTrigger =
      some (.afterEnd ⟨60 * 1000000000⟩) :=
  letI := Iso8601.sample
  (alarm_trigger (.afterEnd ⟨60 * 1000000000⟩) [] [(⟨5000000000⟩, 7)]).1.trans
    (trigger_roundtrip_partial.1 60 (some .end_) (by decide))

/-! ### C56 -/

/-- **C56.** Constructors and accessors of triggers. -/
theorem trigger_constructors (d : Duration) (t : CalDateTime) :
    (Trigger.afterStart d).asDuration = some d ∧ (Trigger.afterStart d).related = some .start ∧
    (Trigger.afterEnd d).asDuration = some d ∧ (Trigger.afterEnd d).related = some .end_ ∧
    (Trigger.beforeStart d).asDuration = some ⟨-d.nanos⟩ ∧ (Trigger.beforeStart d).related = some .start ∧
    (Trigger.beforeEnd d).asDuration = some ⟨-d.nanos⟩ ∧ (Trigger.beforeEnd d).related = some .end_ ∧
    (Trigger.ofDuration d).asDuration = some d ∧ (Trigger.ofDuration d).related = none ∧
    (Trigger.afterStart d).asDateTime = none ∧ (Trigger.ofDuration d).asDateTime = none ∧
    (Trigger.dateTime t).asDateTime = some t ∧ (Trigger.dateTime t).asDuration = none ∧
    (Trigger.dateTime t).related = none :=
  ⟨rfl, rfl, rfl, rfl, rfl, rfl, rfl, rfl, rfl, rfl, rfl, rfl, rfl, rfl, rfl⟩

/-- a minute before the end -/
example : (Trigger.beforeEnd ⟨60000000000⟩).asDuration = some ⟨-60000000000⟩ := rfl

end Ical
