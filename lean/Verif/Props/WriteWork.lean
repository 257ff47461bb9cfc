import Verif.Model.WriteWork
import Verif.Props.FoldWork
import Verif.Props.WriteSizes
import Verif.Props.Writes
import Verif.Props.Work

/-!
C132: how much work writing a calendar takes, and reading a text and writing it again.
-/

namespace Ical

open Spec

variable [Uni]

omit [Uni] in
theorem blen_le_four (s : Str) : blen s ≤ 4 * s.length := by
  induction s with
  | nil => simp [blen]
  | cons c s ih =>
    have := Char.utf8Size_le_four c
    simp only [blen, List.length_cons] at *
    omega

/-- the octets of a property written -/
theorem property_octets {p : Property} {w : World} {out : Str} (h : p.fmtWrite w = .ok out) :
    blen (p.line w) + 2 ≤ blen out := by
  unfold Property.fmtWrite at h
  split at h
  · rename_i s hs
    cases h
    obtain ⟨q, ps, h1, h2, -⟩ := fold_pieces _ _ hs
    have hj : ∀ (q : Str) (ps : List Str), blen (q :: ps).flatten ≤ blen (joinFold (q :: ps)) := by
      intro q ps
      induction ps generalizing q with
      | nil => simp [joinFold]
      | cons r ps ih =>
        have := ih r
        rw [joinFold, List.flatten_cons]
        simp only [blen_append] at *
        omega
    have := hj q ps
    rw [h1, blen_append, h2]
    have hc : blen crlf = 2 := by decide
    omega
  · cases h

/-- the characters of a property written are at most its room -/
theorem line_octets_room {p : Property} {w : World} (hw : World.Ok w) {out : Str} (h : p.fmtWrite w = .ok out) :
    blen (p.line w) + 3 ≤ 4 * propertyRoom p + 1 := by
  have h1 := write_property_size p w hw h
  have h2 := blen_le_four
  have h3 := property_octets h
  have h4 := h2 out
  unfold propertyRoom
  omega

/-- the steps of one property, in terms of the octets written for it -/
theorem property_steps {p : Property} {w : World} (hw : World.Ok w) {out : Str} (h : p.fmtWrite w = .ok out) {M : Nat}
    (hM : 4 * propertyRoom p + 1 ≤ M ∨ blen out + 1 ≤ M) : p.writeSteps w ≤ 160 * M * blen out := by
  have h1 := write_steps_partial p w out h
  have h2 := property_octets h
  have h3 : blen (p.line w) + 3 ≤ M := by
    rcases hM with hM | hM
    · have := line_octets_room hw h; omega
    · omega
  have h4 : (blen (p.line w) + 3) ^ 2 ≤ M * (2 * blen out) := by
    rw [Nat.pow_two]
    exact Nat.mul_le_mul h3 (by omega)
  have h5 : 160 * M * blen out = 80 * (M * (2 * blen out)) := by
    rw [Nat.mul_left_comm M 2, ← Nat.mul_assoc 80 2, Nat.mul_assoc]
  omega

theorem props_steps {l : List Property} {w : World} (hw : World.Ok w) {out : Str} (h : fmtProps l w = .ok out) {M : Nat}
    (hM : (∀ p ∈ l, 4 * propertyRoom p + 1 ≤ M) ∨ blen out + 1 ≤ M) : propsSteps l w ≤ 160 * M * blen out := by
  induction l generalizing w out with
  | nil => cases h; simp [propsSteps]
  | cons p l ih =>
    unfold fmtProps at h
    cases ha : p.fmtWrite (w.sub 0) with
    | error e => rw [ha] at h; cases h
    | ok a =>
      rw [ha] at h
      cases hb : fmtProps l (w.sub 1) with
      | error e => rw [hb] at h; cases h
      | ok b =>
        rw [hb] at h
        cases h
        rw [blen_append] at hM ⊢
        have h1 := property_steps (worldOk_sub hw 0) ha (M := M)
          (hM.imp (fun h => h p (by simp)) (fun h => by omega))
        have h2 := ih (worldOk_sub hw 1) hb (hM.imp (fun h q hq => h q (by simp [hq])) (fun h => by omega))
        simp only [propsSteps]
        rw [Nat.mul_add]
        omega

mutual
theorem other_steps (o : Other) {w : World} (hw : World.Ok w) {out : Str} (h : o.fmtWrite w = .ok out) {M : Nat}
    (h1M : 1 ≤ M) (hM : AllProps (fun p => 4 * propertyRoom p + 1 ≤ M) o ∨ blen out + 1 ≤ M) :
    o.writeSteps w ≤ 160 * M * blen out := by
  match o with
  | .mk name props multi comps =>
    unfold Other.fmtWrite at h
    cases hps : fmtProps props.values (w.sub 0) with
    | error e => simp only [hps] at h; cases h
    | ok ps =>
      cases hms : fmtProps multi.values.flatten (w.sub 1) with
      | error e => simp only [hps, hms] at h; cases h
      | ok ms =>
        cases hcs : fmtOthers comps (w.sub 2) with
        | error e => simp only [hps, hms, hcs] at h; cases h
        | ok cs =>
          simp only [hps, hms, hcs] at h
          cases h
          have e1 : (if props.containsKey c!"DTSTAMP" then 0 else blen (c!"DTSTAMP:" ++ fmtUtc (w.now []) ++ crlf)) =
              blen (if props.containsKey c!"DTSTAMP" then ([] : Str)
                else c!"DTSTAMP:" ++ fmtUtc (w.now []) ++ crlf) := by split <;> rfl
          have e2 : (if props.containsKey c!"UID" then 0 else blen (c!"UID:" ++ w.uuid [] ++ crlf)) =
              blen (if props.containsKey c!"UID" then ([] : Str) else c!"UID:" ++ w.uuid [] ++ crlf) := by split <;> rfl
          unfold Other.writeSteps
          rw [e1, e2]
          simp only [blen_append _ (c!"END:" ++ name ++ crlf), blen_append _ cs, blen_append _ ms,
            blen_append (_ ++ ps) _, blen_append _ ps, blen_append (c!"BEGIN:" ++ name ++ crlf) _] at hM ⊢
          generalize blen (if props.containsKey c!"DTSTAMP" then ([] : Str)
                else c!"DTSTAMP:" ++ fmtUtc (w.now []) ++ crlf) = d at *
          generalize blen (if props.containsKey c!"UID" then ([] : Str) else c!"UID:" ++ w.uuid [] ++ crlf) = u at *
          generalize blen (c!"BEGIN:" ++ name ++ crlf) = b at *
          generalize blen (c!"END:" ++ name ++ crlf) = e at *
          have h1 := props_steps (worldOk_sub hw 0) hps (M := M) (hM.imp (fun h p hp => by
            obtain ⟨x, hx, rfl⟩ := List.mem_map.1 hp
            exact h.1 x hx) (fun h => by omega))
          have h2 := props_steps (worldOk_sub hw 1) hms (M := M) (hM.imp (fun h p hp => by
            obtain ⟨l, hl, hp⟩ := List.mem_flatten.1 hp
            obtain ⟨x, hx, rfl⟩ := List.mem_map.1 hl
            exact h.2.1 x hx p hp) (fun h => by omega))
          have h3 := others_steps comps (worldOk_sub hw 2) hcs h1M (hM.imp (fun h => h.2.2) (fun h => by omega))
          have hle : ∀ x, x ≤ 160 * M * x := fun x => Nat.le_mul_of_pos_left _ (by omega)
          have := hle d
          have := hle u
          have := hle b
          have := hle e
          simp only [Nat.mul_add]
          omega
theorem others_steps (l : List Other) {w : World} (hw : World.Ok w) {out : Str} (h : fmtOthers l w = .ok out) {M : Nat}
    (h1M : 1 ≤ M) (hM : AllPropss (fun p => 4 * propertyRoom p + 1 ≤ M) l ∨ blen out + 1 ≤ M) :
    othersSteps l w ≤ 160 * M * blen out := by
  match l with
  | [] => simp [othersSteps]
  | o :: l =>
    unfold fmtOthers at h
    cases ha : o.fmtWrite (w.sub 0) with
    | error e => rw [ha] at h; cases h
    | ok a =>
      rw [ha] at h
      cases hb : fmtOthers l (w.sub 1) with
      | error e => rw [hb] at h; cases h
      | ok b =>
        rw [hb] at h
        cases h
        rw [blen_append] at hM ⊢
        have h1 := other_steps o (worldOk_sub hw 0) ha h1M (hM.imp (fun h => h.1) (fun h => by omega))
        have h2 := others_steps l (worldOk_sub hw 1) hb h1M (hM.imp (fun h => h.2) (fun h => by omega))
        simp only [othersSteps]
        rw [Nat.mul_add]
        omega
end

omit [Uni] in
theorem allPropss_of {P : Property → Prop} {l : List Other} (h : ∀ o ∈ l, AllProps P o) : AllPropss P l := by
  induction l with
  | nil => trivial
  | cons o l ih => exact ⟨h o (by simp), ih (fun x hx => h x (by simp [hx]))⟩

theorem comps_steps_fmt (l : List CalComp) (w : World) : fmtComps l w = fmtOthers (l.map CalComp.toOther) w := by
  induction l generalizing w with
  | nil => rw [fmtComps, List.map_nil, fmtOthers]
  | cons x l ih =>
    have hx : ∀ w, x.fmtWrite w = x.toOther.fmtWrite w := by intro w; cases x <;> rfl
    rw [fmtComps, List.map_cons, fmtOthers, hx, ih]
    cases x.toOther.fmtWrite (w.sub 0) with
    | error e => rfl
    | ok a => cases fmtOthers (l.map CalComp.toOther) (w.sub 1) <;> rfl

omit [Uni] in
mutual
theorem allProps_mono {P Q : Property → Prop} (h : ∀ p, P p → Q p) : ∀ o, AllProps P o → AllProps Q o
  | .mk _ _ _ _, ⟨h1, h2, h3⟩ => ⟨fun x hx => h _ (h1 x hx), fun x hx p hp => h _ (h2 x hx p hp), allPropss_mono h _ h3⟩
theorem allPropss_mono {P Q : Property → Prop} (h : ∀ p, P p → Q p) : ∀ l, AllPropss P l → AllPropss Q l
  | [], _ => trivial
  | o :: l, ⟨h1, h2⟩ => ⟨allProps_mono h o h1, allPropss_mono h l h2⟩
end

theorem calendar_steps (c : Calendar) {w : World} (hw : World.Ok w) {out : Str} (h : c.fmtWrite w = .ok out) {M : Nat}
    (h1M : 1 ≤ M) (hM : EveryProp (fun p => 4 * propertyRoom p + 1 ≤ M) c ∨ blen out + 1 ≤ M) :
    c.writeSteps w ≤ 160 * M * blen out := by
  unfold Calendar.fmtWrite at h
  cases hps : fmtProps c.props (w.sub 0) with
  | error e => simp only [hps] at h; cases h
  | ok ps =>
    cases hcs : fmtComps c.comps (w.sub 1) with
    | error e => simp only [hps, hcs] at h; cases h
    | ok cs =>
      simp only [hps, hcs] at h
      cases h
      rw [comps_steps_fmt] at hcs
      unfold Calendar.writeSteps
      simp only [blen_append _ (c!"END:VCALENDAR" ++ crlf), blen_append _ cs, blen_append _ ps] at hM ⊢
      generalize blen (c!"BEGIN:VCALENDAR" ++ crlf) = b at *
      generalize blen (c!"END:VCALENDAR" ++ crlf) = e at *
      have h1 := props_steps (worldOk_sub hw 0) hps (M := M) (hM.imp (fun h => h.1) (fun h => by omega))
      have h2 := others_steps _ (worldOk_sub hw 1) hcs h1M (hM.imp (fun h => allPropss_of (fun o ho => by
        obtain ⟨x, hx, rfl⟩ := List.mem_map.1 ho
        exact h.2 x hx)) (fun h => by omega))
      have hle : ∀ x, x ≤ 160 * M * x := fun x => Nat.le_mul_of_pos_left _ (by omega)
      have := hle b
      have := hle e
      simp only [Nat.mul_add]
      omega

/-! ### every octet written is counted -/

theorem property_counted {p : Property} {w : World} {out : Str} (h : p.fmtWrite w = .ok out) :
    blen out ≤ 6 * p.writeSteps w := by
  unfold Property.fmtWrite at h
  split at h
  · rename_i s hs
    cases h
    obtain ⟨q, ps, h1, h2, h3, -⟩ := fold_pieces _ _ hs
    have hj : ∀ (q : Str) (ps : List Str), blen (joinFold (q :: ps)) = blen (q :: ps).flatten + 3 * ps.length := by
      intro q ps
      induction ps generalizing q with
      | nil => simp [joinFold]
      | cons r ps ih =>
        have := ih r
        have h3 : blen c!"\r\n " = 3 := by decide
        rw [joinFold, List.flatten_cons]
        simp only [blen_append, List.length_cons] at *
        omega
    have e := hj q ps
    have e2 := pieces_length h3
    have e3 := length_le_blen ps.flatten
    have e4 : 1 ≤ blen (p.line w) := by
      simp only [Property.line, blen_append]
      have : blen [':'] = 1 := by decide
      omega
    rw [← h1, ← h2] at e
    rw [h1, List.flatten_cons, blen_append] at e4 e
    rw [blen_append]
    have hc : blen crlf = 2 := by decide
    unfold Property.writeSteps
    rw [h1, List.flatten_cons, blen_append]
    omega
  · cases h

theorem props_counted {l : List Property} {w : World} {out : Str} (h : fmtProps l w = .ok out) :
    blen out ≤ 6 * propsSteps l w := by
  induction l generalizing w out with
  | nil => cases h; simp [propsSteps, blen]
  | cons p l ih =>
    unfold fmtProps at h
    cases ha : p.fmtWrite (w.sub 0) with
    | error e => rw [ha] at h; cases h
    | ok a =>
      rw [ha] at h
      cases hb : fmtProps l (w.sub 1) with
      | error e => rw [hb] at h; cases h
      | ok b =>
        rw [hb] at h
        cases h
        have h1 := property_counted ha
        have h2 := ih hb
        rw [blen_append]
        simp only [propsSteps]
        omega

mutual
theorem other_counted (o : Other) {w : World} {out : Str} (h : o.fmtWrite w = .ok out) : blen out ≤ 6 * o.writeSteps w := by
  match o with
  | .mk name props multi comps =>
    unfold Other.fmtWrite at h
    cases hps : fmtProps props.values (w.sub 0) with
    | error e => simp only [hps] at h; cases h
    | ok ps =>
      cases hms : fmtProps multi.values.flatten (w.sub 1) with
      | error e => simp only [hps, hms] at h; cases h
      | ok ms =>
        cases hcs : fmtOthers comps (w.sub 2) with
        | error e => simp only [hps, hms, hcs] at h; cases h
        | ok cs =>
          simp only [hps, hms, hcs] at h
          cases h
          have e1 : (if props.containsKey c!"DTSTAMP" then 0 else blen (c!"DTSTAMP:" ++ fmtUtc (w.now []) ++ crlf)) =
              blen (if props.containsKey c!"DTSTAMP" then ([] : Str)
                else c!"DTSTAMP:" ++ fmtUtc (w.now []) ++ crlf) := by split <;> rfl
          have e2 : (if props.containsKey c!"UID" then 0 else blen (c!"UID:" ++ w.uuid [] ++ crlf)) =
              blen (if props.containsKey c!"UID" then ([] : Str) else c!"UID:" ++ w.uuid [] ++ crlf) := by split <;> rfl
          unfold Other.writeSteps
          rw [e1, e2]
          simp only [blen_append _ (c!"END:" ++ name ++ crlf), blen_append _ cs, blen_append _ ms,
            blen_append (_ ++ ps) _, blen_append _ ps, blen_append (c!"BEGIN:" ++ name ++ crlf) _]
          have h1 := props_counted hps
          have h2 := props_counted hms
          have h3 := others_counted comps hcs
          omega
theorem others_counted (l : List Other) {w : World} {out : Str} (h : fmtOthers l w = .ok out) :
    blen out ≤ 6 * othersSteps l w := by
  match l with
  | [] =>
    simp only [fmtOthers] at h
    cases h
    exact Nat.zero_le _
  | o :: l =>
    unfold fmtOthers at h
    cases ha : o.fmtWrite (w.sub 0) with
    | error e => rw [ha] at h; cases h
    | ok a =>
      rw [ha] at h
      cases hb : fmtOthers l (w.sub 1) with
      | error e => rw [hb] at h; cases h
      | ok b =>
        rw [hb] at h
        cases h
        have h1 := other_counted o ha
        have h2 := others_counted l hb
        rw [blen_append]
        simp only [othersSteps]
        omega
end

/-- **C132.** Every octet written is accounted for in the steps. -/
theorem write_calendar_counted (c : Calendar) (w : World) {out : Str} (h : c.fmtWrite w = .ok out) :
    blen out ≤ 6 * c.writeSteps w := by
  unfold Calendar.fmtWrite at h
  cases hps : fmtProps c.props (w.sub 0) with
  | error e => simp only [hps] at h; cases h
  | ok ps =>
    cases hcs : fmtComps c.comps (w.sub 1) with
    | error e => simp only [hps, hcs] at h; cases h
    | ok cs =>
      simp only [hps, hcs] at h
      cases h
      rw [comps_steps_fmt] at hcs
      have h1 := props_counted hps
      have h2 := others_counted _ hcs
      unfold Calendar.writeSteps
      simp only [blen_append _ (c!"END:VCALENDAR" ++ crlf), blen_append _ cs, blen_append _ ps]
      omega

/-- **C132.** Writing a calendar of which no property needs more room than `L` takes a number of steps proportional to
the octets written, and to `L`. -/
theorem write_calendar_steps (c : Calendar) {L : Nat} (hL : EveryProp (fun p => propertyRoom p ≤ L) c) (w : World)
    (hw : World.Ok w) {out : Str} (h : c.fmtWrite w = .ok out) : c.writeSteps w ≤ 160 * (4 * L + 1) * blen out :=
  calendar_steps c hw h (by omega) (.inl ⟨fun p hp => by have := hL.1 p hp; omega,
    fun x hx => allProps_mono (fun p hp => by omega) _ (hL.2 x hx)⟩)

/-- **C132.** Writing any calendar takes a number of steps at most quadratic in the octets written. -/
theorem write_calendar_quadratic (c : Calendar) (w : World) (hw : World.Ok w) {out : Str} (h : c.fmtWrite w = .ok out) :
    c.writeSteps w ≤ 160 * (blen out + 1) * blen out :=
  calendar_steps c hw h (by omega) (.inr (Nat.le_refl _))

/-- **C132.** Reading a text whose components are opened in upper case letters and writing the calendar again takes a
number of steps at most quadratic in the length of the text. -/
theorem rewrite_steps {s : Str} (hu : UpperBegins (unfold s)) {c : Calendar} (hr : Calendar.fromStr s = some c) (w : World)
    (hw : World.Ok w) (hul : UuidLength w) {out : Str} (h : c.fmtWrite w = .ok out) :
    readSteps (unfold s) + c.writeSteps w ≤ 700000 * (s.length + 2) ^ 2 := by
  have h1 := read_steps_partial hu
  have h2 := write_calendar_quadratic c w hw h
  have h3 := rewrite_size hr w hw hul h
  have h4 := blen_le_four out
  have h5 : blen out + 1 ≤ 65 * (s.length + 2) := by omega
  have h6 : 160 * (blen out + 1) * blen out ≤ 160 * (65 * (s.length + 2)) * (64 * (s.length + 2)) :=
    Nat.mul_le_mul (Nat.mul_le_mul_left _ h5) (by omega)
  have h7 : 160 * (65 * (s.length + 2)) * (64 * (s.length + 2)) = 665600 * ((s.length + 2) * (s.length + 2)) := by
    generalize s.length + 2 = n
    rw [← Nat.mul_assoc 160 65 n, Nat.mul_mul_mul_comm]
  have h8 : (s.length + 1) * (s.length + 1) ≤ (s.length + 2) * (s.length + 2) := Nat.mul_le_mul (by omega) (by omega)
  rw [Nat.pow_two]
  omega

end Ical

namespace Ical

open Spec

/-- a calendar with an event, and the steps of reading and of writing it -/
example : UpperBegins (unfold c!"BEGIN:VCALENDAR\nBEGIN:VEVENT\nEND:VEVENT\nEND:VCALENDAR") ∧ UuidLength zeroWorld ∧
    ((@Calendar.fromStr Uni.ascii c!"BEGIN:VCALENDAR\nBEGIN:VEVENT\nEND:VEVENT\nEND:VCALENDAR").map fun c =>
      @Calendar.writeSteps Uni.ascii c zeroWorld) = some 126 :=
  ⟨upperBegins_of (by decide +kernel), fun _ => (by decide +kernel : (List.replicate 36 '0').length = 36),
    by decide +kernel⟩

/-- a property that needs room for 30 characters -/
example : EveryProp (fun p => propertyRoom p ≤ 30) ⟨[⟨c!"X", c!"12", []⟩], [.event ⟨⟨[], [], []⟩⟩]⟩ ∧
    @Calendar.writeSteps Uni.ascii ⟨[⟨c!"X", c!"12", []⟩], [.event ⟨⟨[], [], []⟩⟩]⟩ zeroWorld = 135 := by
  refine ⟨⟨?_, ?_⟩, by decide +kernel⟩
  · intro p hp
    simp at hp
    subst hp
    decide
  · intro x hx
    simp at hx
    subst hx
    exact ⟨fun _ h => (nomatch h), fun _ h => (nomatch h), trivial⟩

theorem zeroWorld_ok : World.Ok zeroWorld ∧ UuidLength zeroWorld :=
  ⟨⟨fun _ _ => List.Perm.refl _,
    fun _ => (by decide +kernel : ∀ c ∈ List.replicate 36 '0', c ∈ c!"0123456789abcdef-"),
    fun _ => (by decide +kernel : (⟨⟨2024, 2, 29⟩, 12, 0, 0, 0⟩ : NaiveDateTime).Valid)⟩,
    fun _ => (by decide +kernel : (List.replicate 36 '0').length = 36)⟩

/-- the calendar of the following examples -/
def writtenSample : Calendar := ⟨[⟨c!"X", c!"12", []⟩], [.event ⟨⟨[], [], []⟩⟩]⟩

/-- it is written, in 132 octets -/
theorem writtenSample_ok : ∃ out, @Calendar.fmtWrite Uni.ascii writtenSample zeroWorld = .ok out ∧ blen out = 132 :=
  ⟨_, rfl, by decide +kernel⟩

example : @Calendar.writeSteps Uni.ascii writtenSample zeroWorld ≤ 160 * (4 * 30 + 1) * 132 := by
  obtain ⟨out, h, hl⟩ := writtenSample_ok
  rw [← hl]
  refine @write_calendar_steps Uni.ascii writtenSample 30 ⟨?_, ?_⟩ zeroWorld zeroWorld_ok.1 out h
  · intro p hp
    simp [writtenSample] at hp
    subst hp
    decide
  · intro x hx
    simp [writtenSample] at hx
    subst hx
    exact ⟨fun _ h => (nomatch h), fun _ h => (nomatch h), trivial⟩

example : @Calendar.writeSteps Uni.ascii writtenSample zeroWorld ≤ 160 * 133 * 132 ∧
    132 ≤ 6 * @Calendar.writeSteps Uni.ascii writtenSample zeroWorld := by
  obtain ⟨out, h, hl⟩ := writtenSample_ok
  have h1 := @write_calendar_quadratic Uni.ascii writtenSample zeroWorld zeroWorld_ok.1 out h
  have h2 := @write_calendar_counted Uni.ascii writtenSample zeroWorld out h
  rw [hl] at h1 h2
  exact ⟨h1, h2⟩

example : ∃ c out, @Calendar.fromStr Uni.ascii c!"BEGIN:VCALENDAR
BEGIN:VEVENT
END:VEVENT
END:VCALENDAR" = some c ∧
    @Calendar.fmtWrite Uni.ascii c zeroWorld = .ok out ∧
    @readSteps Uni.ascii (unfold c!"BEGIN:VCALENDAR
BEGIN:VEVENT
END:VEVENT
END:VCALENDAR") +
      @Calendar.writeSteps Uni.ascii c zeroWorld ≤ 700000 * 55 ^ 2 := by
  have h : ((@Calendar.fromStr Uni.ascii c!"BEGIN:VCALENDAR
BEGIN:VEVENT
END:VEVENT
END:VCALENDAR").bind fun c =>
      (@Calendar.fmtWrite Uni.ascii c zeroWorld).toOption).isSome = true := by decide +kernel
  cases hc : @Calendar.fromStr Uni.ascii c!"BEGIN:VCALENDAR
BEGIN:VEVENT
END:VEVENT
END:VCALENDAR" with
  | none => rw [hc] at h; cases h
  | some c =>
    rw [hc] at h
    cases ho : @Calendar.fmtWrite Uni.ascii c zeroWorld with
    | error e => rw [Option.bind_some, ho] at h; cases h
    | ok out =>
      exact ⟨c, out, rfl, ho, @rewrite_steps Uni.ascii _ (upperBegins_of (by decide +kernel)) c hc zeroWorld zeroWorld_ok.1
        zeroWorld_ok.2 out ho⟩

end Ical
