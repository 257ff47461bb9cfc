import Verif.Props.Roundtrip
import Verif.Spec.Uids

/-!
C97, C98: generated UIDs and time stamps.
-/

namespace Ical

open Spec

theorem nodup_map {α β : Type} {f : α → β} {l : List α} (hf : ∀ a b, f a = f b → a = b) (h : l.Nodup) :
    (l.map f).Nodup := List.pairwise_map.2 (h.imp fun hn e => hn (hf _ _ e))

variable [Uni]

mutual
theorem gained_trip (o : Other) (w : World) :
    ∃ paths : List (List Nat), paths.Nodup ∧ gainedUids o (o.trip w) = paths.map (fun p => some (w.uuid p)) := by
  match o with
  | .mk name props multi comps =>
    obtain ⟨ps, hn, e⟩ := gained_tripAll comps (w.sub 2)
    simp only [Other.trip, gainedUids]
    rw [e]
    have hps : (ps.map (2 :: ·)).Nodup := nodup_map (fun a b h => by simpa using h) hn
    have hw : ps.map (fun p => some ((w.sub 2).uuid p)) = (ps.map (2 :: ·)).map (fun p => some (w.uuid p)) := by
      rw [List.map_map]; rfl
    rw [hw]
    by_cases h : (props.get c!"UID").isNone = true
    · rw [if_pos h]
      have hc : ¬ (addMissing c!"DTSTAMP" (fmtUtc (w.now [])) (readProps props)).containsKey c!"UID" = true := by
        rw [containsKey_addMissing (by decide), containsKey_readProps]
        unfold BMap.containsKey
        cases hg : props.get c!"UID" with
        | none => simp
        | some v => rw [hg] at h; cases h
      refine ⟨[] :: ps.map (2 :: ·), List.nodup_cons.2 ⟨by simp, hps⟩, ?_⟩
      have : (addMissing c!"UID" (w.uuid []) (addMissing c!"DTSTAMP" (fmtUtc (w.now [])) (readProps props))).get c!"UID" =
          some ⟨c!"UID", w.uuid [], []⟩ := by
        generalize addMissing c!"DTSTAMP" (fmtUtc (w.now [])) (readProps props) = m at hc ⊢
        unfold addMissing
        rw [if_neg hc, BMap.get_insert_self]
      rw [this]
      rfl
    · rw [if_neg h]
      exact ⟨_, hps, rfl⟩
theorem gained_tripAll (l : List Other) (w : World) :
    ∃ paths : List (List Nat), paths.Nodup ∧ gainedUidsAll l (tripAll l w) = paths.map (fun p => some (w.uuid p)) := by
  match l with
  | [] => exact ⟨[], List.nodup_nil, rfl⟩
  | o :: l =>
    obtain ⟨ps, hn, e⟩ := gained_trip o (w.sub 0)
    obtain ⟨qs, hm, f⟩ := gained_tripAll l (w.sub 1)
    simp only [tripAll, gainedUidsAll]
    rw [e, f]
    refine ⟨ps.map (0 :: ·) ++ qs.map (1 :: ·), ?_, by simp [World.sub, Function.comp_def]⟩
    refine List.nodup_append.2 ⟨nodup_map (fun a b h => by simpa using h) hn,
      nodup_map (fun a b h => by simpa using h) hm, ?_⟩
    intro a ha b hb hab
    obtain ⟨p, -, rfl⟩ := List.mem_map.1 ha
    obtain ⟨q, -, rfl⟩ := List.mem_map.1 hb
    cases hab
end

theorem compTrips_toOther (l : List CalComp) (w : World) :
    (compTrips l w).map CalComp.toOther = tripAll (l.map CalComp.toOther) w := by
  induction l generalizing w with
  | nil => rfl
  | cons x l ih =>
    simp only [compTrips, List.map_cons, tripAll]
    rw [ih, withContent_toOther _ _ (trip_name _ _)]

theorem gained_compTrips (l : List CalComp) (w : World) : ∃ paths : List (List Nat), paths.Nodup ∧
    gainedUidsAll (l.map CalComp.toOther) ((compTrips l w).map CalComp.toOther) = paths.map (fun p => some (w.uuid p)) := by
  rw [compTrips_toOther]
  exact gained_tripAll _ _

/-- **C97.** Every component that has no UID gets one of its own when the calendar is written and read: no two are the
same if no two generated UUIDs are, whatever the depth. -/
theorem generated_uids_distinct (c : Calendar) (hc : CalendarOk c) (w : World) (hw : World.Ok w)
    (hu : ∀ p q, w.uuid p = w.uuid q → p = q) (out : Str) (h : c.fmtWrite w = .ok out) :
    ∃ c', Calendar.fromStr out = some c' ∧
      (gainedUidsAll (c.comps.map CalComp.toOther) (c'.comps.map CalComp.toOther)).Nodup ∧
      ∀ u ∈ gainedUidsAll (c.comps.map CalComp.toOther) (c'.comps.map CalComp.toOther), ∃ p, u = some (w.uuid p) := by
  refine ⟨_, calendar_read hc hw h, ?_⟩
  obtain ⟨ps, hn, e⟩ := gained_compTrips c.comps (w.sub 1)
  show (gainedUidsAll _ ((compTrips c.comps (w.sub 1)).map CalComp.toOther)).Nodup ∧
    ∀ u ∈ gainedUidsAll _ ((compTrips c.comps (w.sub 1)).map CalComp.toOther), _
  rw [e]
  constructor
  · exact nodup_map (fun a b h => by simpa using hu _ _ (Option.some.inj h)) hn
  · intro u hu
    obtain ⟨p, -, rfl⟩ := List.mem_map.1 hu
    exact ⟨1 :: p, rfl⟩

/-! ### C98 -/

omit [Uni] in
/-- the keys after adding a missing one -/
theorem get_addMissing_self (k v : Str) (m : BMap Property) : ((addMissing k v m).get k).isSome = true := by
  unfold addMissing
  split
  · next h => exact h
  · rw [BMap.get_insert_self]; rfl

mutual
theorem gainers_trip (o : Other) (w : World) : stampGainers o (o.trip w) = unstamped o := by
  match o with
  | .mk name props multi comps =>
    simp only [Other.trip, stampGainers, unstamped]
    rw [gainers_tripAll comps (w.sub 2)]
    congr 1
    have h1 : ((addMissing c!"UID" (w.uuid []) (addMissing c!"DTSTAMP" (fmtUtc (w.now [])) (readProps props))).get
        c!"DTSTAMP").isSome = true := by
      have := containsKey_addMissing (k := c!"UID") (k' := c!"DTSTAMP") (v := w.uuid [])
        (m := addMissing c!"DTSTAMP" (fmtUtc (w.now [])) (readProps props)) (by decide)
      unfold BMap.containsKey at this
      rw [this]
      exact get_addMissing_self _ _ _
    have h2 := get_addMissing_self c!"UID" (w.uuid []) (addMissing c!"DTSTAMP" (fmtUtc (w.now [])) (readProps props))
    simp only [List.mem_cons, List.not_mem_nil, or_false, exists_eq_or_imp, exists_eq_left, h1, h2, and_true]
theorem gainers_tripAll (l : List Other) (w : World) : stampGainersAll l (tripAll l w) = unstampedAll l := by
  match l with
  | [] => rfl
  | o :: l =>
    simp only [tripAll, stampGainersAll, unstampedAll]
    rw [gainers_trip o, gainers_tripAll l]
end

/-- **C98.** The components that gain a DTSTAMP or a UID by being written and read are exactly those that lack one,
whatever they are. -/
theorem stamps_gained (c : Calendar) (hc : CalendarOk c) (w : World) (hw : World.Ok w) (out : Str)
    (h : c.fmtWrite w = .ok out) :
    ∃ c', Calendar.fromStr out = some c' ∧
      stampGainersAll (c.comps.map CalComp.toOther) (c'.comps.map CalComp.toOther) =
        unstampedAll (c.comps.map CalComp.toOther) := by
  refine ⟨_, calendar_read hc hw h, ?_⟩
  show stampGainersAll _ ((compTrips c.comps (w.sub 1)).map CalComp.toOther) = _
  rw [compTrips_toOther]
  exact gainers_tripAll _ _

/-- **C98** (partial: calendars whose other components have DTSTAMP and UID). Only components that RFC 5545 gives a
DTSTAMP and a UID gain one. -/
theorem stamps_allowed_partial (c : Calendar) (hc : CalendarOk c)
    (hk : ∀ n ∈ unstampedAll (c.comps.map CalComp.toOther), n ∈ rfcStampedKinds) (w : World) (hw : World.Ok w) (out : Str)
    (h : c.fmtWrite w = .ok out) :
    ∃ c', Calendar.fromStr out = some c' ∧
      ∀ n ∈ stampGainersAll (c.comps.map CalComp.toOther) (c'.comps.map CalComp.toOther), n ∈ rfcStampedKinds := by
  obtain ⟨c', h1, h2⟩ := stamps_gained c hc w hw out h
  exact ⟨c', h1, by rw [h2]; exact hk⟩

end Ical

namespace Ical

open Spec

/-- UUIDs that are all different -/
def countingWorld : World :=
  ⟨fun _ => ⟨⟨⟨2026, 1, 1⟩, 0, 0, 0, 0⟩⟩, fun p => p.flatMap (fun n => List.replicate n 'a' ++ ['b']), fun _ l => l⟩

/-- an event with an alarm and a to-do, all without UID -/
def uidlessCalendar : Calendar :=
  { props := []
    comps := [.event ⟨⟨[], [], [.mk c!"VALARM" [] [] []]⟩⟩, .todo ⟨⟨[], [], []⟩⟩] }

/-- the text, and the UIDs gained -/
example : let out := c!"BEGIN:VCALENDAR\r\nBEGIN:VEVENT\r\nDTSTAMP:20260101T000000Z\r\nUID:abb\r\nBEGIN:VALARM\r\nDTSTAMP:20260101T000000Z\r\nUID:abbaabb\r\nEND:VALARM\r\nEND:VEVENT\r\nBEGIN:VTODO\r\nDTSTAMP:20260101T000000Z\r\nUID:ababb\r\nEND:VTODO\r\nEND:VCALENDAR\r\n"
    @Calendar.fmtWrite Uni.ascii uidlessCalendar countingWorld = .ok out ∧
    (@Calendar.fromStr Uni.ascii out).map (fun c' => gainedUidsAll (uidlessCalendar.comps.map CalComp.toOther)
      (c'.comps.map CalComp.toOther)) = some [some c!"abb", some c!"abbaabb", some c!"ababb"] := by
  decide +kernel

/-- the hypothesis about UUIDs can be met -/
theorem countingWorld_inj : ∀ p q, countingWorld.uuid p = countingWorld.uuid q → p = q := by
  intro p
  show ∀ q, p.flatMap (fun n => List.replicate n 'a' ++ ['b']) = q.flatMap (fun n => List.replicate n 'a' ++ ['b']) → p = q
  induction p with
  | nil =>
    intro q h
    cases q with
    | nil => rfl
    | cons m q => simp at h
  | cons n p ih =>
    intro q h
    cases q with
    | nil => simp at h
    | cons m q =>
      simp only [List.flatMap_cons, List.append_assoc, List.singleton_append] at h
      have key : ∀ (n m : Nat) (s t : Str), List.replicate n 'a' ++ 'b' :: s = List.replicate m 'a' ++ 'b' :: t →
          n = m ∧ s = t := by
        intro n
        induction n with
        | zero =>
          intro m s t h
          cases m with
          | zero => simpa using h
          | succ m => simp [List.replicate_succ] at h
        | succ n ih =>
          intro m s t h
          cases m with
          | zero => simp [List.replicate_succ] at h
          | succ m =>
            simp only [List.replicate_succ, List.cons_append, List.cons.injEq, true_and] at h
            obtain ⟨e1, e2⟩ := ih m s t h
            exact ⟨by rw [e1], e2⟩
      obtain ⟨e1, e2⟩ := key _ _ _ _ h
      rw [e1, ih q e2]

/-- a time zone as it stands in most files -/
def zoneText : Str := c!"BEGIN:VCALENDAR\r\nBEGIN:VTIMEZONE\r\nTZID:A\r\nBEGIN:STANDARD\r\nTZNAME:B\r\nEND:STANDARD\r\nEND:VTIMEZONE\r\nEND:VCALENDAR\r\n"

/-- **C98 is false for the code.** A time zone, and each of its parts, gains a DTSTAMP and a UID when it is written. -/
theorem stamps_allowed_violated :
    (@Calendar.fromStr Uni.ascii zoneText).map (fun c => @Calendar.fmtWrite Uni.ascii c countingWorld) =
      some (.ok c!"BEGIN:VCALENDAR\r\nBEGIN:VTIMEZONE\r\nDTSTAMP:20260101T000000Z\r\nTZID:A\r\nUID:abb\r\nBEGIN:STANDARD\r\nDTSTAMP:20260101T000000Z\r\nTZNAME:B\r\nUID:abbaabb\r\nEND:STANDARD\r\nEND:VTIMEZONE\r\nEND:VCALENDAR\r\n") ∧
    (@Calendar.fromStr Uni.ascii zoneText).map (fun c => unstampedAll (c.comps.map CalComp.toOther)) =
      some [c!"VTIMEZONE", c!"STANDARD"] := by
  constructor <;> decide +kernel

end Ical
