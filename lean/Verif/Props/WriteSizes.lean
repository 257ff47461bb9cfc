import Verif.Spec.WriteSizes
import Verif.Props.Sizes
import Verif.Props.Durations
import Verif.Props.Locality
import Verif.Props.Kinds

/-!
C113: writing takes room proportional to what is held, and reading a text and writing it again takes room proportional
to the text.
-/

namespace Ical

open Nom Spec

/-! Generated lines. -/

theorem fmt2_length {n : Nat} (h : n < 100) : (fmt2 n).length = 2 := by
  unfold fmt2
  have h1 := natToStr_length (k := 1) (n := n) (by omega)
  split
  · rename_i h2
    have := natToStr_length (k := 0) (n := n) (by omega)
    have : natToStr n ≠ [] := natToStr_ne_nil n
    have := List.length_pos_iff.2 this
    simp only [List.length_cons]
    omega
  · rename_i h2
    rw [natToStr_big (by omega), List.length_append] at *
    have := List.length_pos_iff.2 (natToStr_ne_nil (n / 10))
    simp at h1 ⊢
    omega

theorem fmt4_length {n : Nat} (h : n < 1000000) : (fmt4 n).length ≤ 6 := by
  unfold fmt4
  have h1 := natToStr_length (k := 5) (n := n) (by omega)
  simp only [List.length_append, List.length_replicate]
  omega

theorem fmtUtc_length {t : UtcDateTime} (h : t.naive.Valid) : (fmtUtc t).length ≤ 19 := by
  obtain ⟨⟨y1, y2, m1, m2, d1, d2⟩, h1, h2, h3, h4⟩ := h
  have hy : (fmtYear t.naive.date.year).length ≤ 7 := by
    unfold fmtYear
    repeat' split
    · have := fmt4_length (n := t.naive.date.year.toNat) (by omega); omega
    · have := fmt4_length (n := t.naive.date.year.toNat) (by omega); simp; omega
    · have := fmt4_length (n := (-t.naive.date.year).toNat) (by omega); simp; omega
  have hd : t.naive.date.day < 100 := by
    have : daysInMonth t.naive.date.year t.naive.date.month ≤ 31 := by
      unfold daysInMonth
      repeat' split
      all_goals omega
    omega
  have hs : t.naive.sec + t.naive.nano / 1000000000 < 100 := by omega
  unfold fmtUtc fmtDateTime fmtDate fmtSec
  simp only [List.length_append, List.length_cons, List.length_nil, fmt2_length (show t.naive.hour < 100 by omega),
    fmt2_length (show t.naive.min < 100 by omega), fmt2_length hs, fmt2_length hd,
    fmt2_length (show t.naive.date.month < 100 by omega)]
  omega

section
variable [Uni]

/-! Writing. -/

theorem props_room {l : List Property} {w : World} (hw : World.Ok w) {out : Str} (h : fmtProps l w = .ok out) :
    out.length ≤ (l.map propertyRoom).sum := by
  induction l generalizing w out with
  | nil => cases h; simp
  | cons p l ih =>
    unfold fmtProps at h
    cases ha : p.fmtWrite (w.sub 0) with
    | error e => rw [ha] at h; cases h
    | ok a =>
      rw [ha] at h
      cases hb : fmtProps l (w.sub 1) with
      | error e => rw [hb] at h; cases h
      | ok b =>
        rw [hb] at h
        cases h
        have h1 := write_property_size p _ (worldOk_sub hw 0) ha
        have h2 := ih (worldOk_sub hw 1) hb
        simp only [List.length_append, List.map_cons, List.sum_cons]
        unfold propertyRoom at h2 ⊢
        omega

omit [Uni] in
theorem sum_flatten (l : List (Str × List Property)) (f : Property → Nat) :
    ((l.map Prod.snd).flatten.map f).sum = (l.map (fun x => (x.2.map f).sum)).sum := by
  induction l with
  | nil => rfl
  | cons x l ih => simp only [List.map_cons, List.flatten_cons, List.map_append, List.sum_append_nat, ih, List.sum_cons]

omit [Uni] in
theorem uuidLength_sub {w : World} (h : UuidLength w) (j : Nat) : UuidLength (w.sub j) := fun path => h (j :: path)

mutual
theorem other_room (o : Other) {w : World} (hw : World.Ok w) (hu : UuidLength w) {out : Str} (h : o.fmtWrite w = .ok out) :
    out.length ≤ componentRoom o := by
  match o with
  | .mk name props multi comps =>
    unfold Other.fmtWrite at h
    cases hps : fmtProps props.values (w.sub 0) with
    | error e => simp only [hps] at h; cases h
    | ok ps =>
      cases hms : fmtProps multi.values.flatten (w.sub 1) with
      | error e => simp only [hps, hms] at h; cases h
      | ok ms =>
        cases hcs : fmtOthers comps (w.sub 2) with
        | error e => simp only [hps, hms, hcs] at h; cases h
        | ok cs =>
          simp only [hps, hms, hcs] at h
          cases h
          have h1 := props_room (worldOk_sub hw 0) hps
          have h2 := props_room (worldOk_sub hw 1) hms
          have h3 := others_room comps (worldOk_sub hw 2) (uuidLength_sub hu 2) hcs
          have h4 : (if props.containsKey c!"DTSTAMP" then ([] : Str)
              else c!"DTSTAMP:" ++ fmtUtc (w.now []) ++ crlf).length ≤ 29 := by
            have := fmtUtc_length (hw.now [])
            split
            · simp
            · simp [crlf]; omega
          have h5 : (if props.containsKey c!"UID" then ([] : Str) else c!"UID:" ++ w.uuid [] ++ crlf).length ≤ 42 := by
            have := hu []
            split
            · simp
            · simp [crlf, this]
          rw [show (multi.values.flatten.map propertyRoom).sum = _ from sum_flatten multi propertyRoom] at h2
          simp only [BMap.values, List.map_map] at h1
          simp only [componentRoom, List.length_append, crlf, List.length_cons, List.length_nil] at *
          have e : (List.map (propertyRoom ∘ Prod.snd) props).sum = (List.map (fun x => propertyRoom x.2) props).sum := rfl
          omega
theorem others_room (l : List Other) {w : World} (hw : World.Ok w) (hu : UuidLength w) {out : Str}
    (h : fmtOthers l w = .ok out) : out.length ≤ componentsRoom l := by
  match l with
  | [] =>
    simp only [fmtOthers] at h
    cases h
    simp
  | o :: l =>
    unfold fmtOthers at h
    cases ha : o.fmtWrite (w.sub 0) with
    | error e => rw [ha] at h; cases h
    | ok a =>
      rw [ha] at h
      cases hb : fmtOthers l (w.sub 1) with
      | error e => rw [hb] at h; cases h
      | ok b =>
        rw [hb] at h
        cases h
        have h1 := other_room o (worldOk_sub hw 0) (uuidLength_sub hu 0) ha
        have h2 := others_room l (worldOk_sub hw 1) (uuidLength_sub hu 1) hb
        simp only [List.length_append, componentsRoom]
        omega
end

theorem comps_room {l : List CalComp} {w : World} (hw : World.Ok w) (hu : UuidLength w) {out : Str}
    (h : fmtComps l w = .ok out) : out.length ≤ componentsRoom (l.map CalComp.toOther) := by
  induction l generalizing w out with
  | nil => cases h; simp
  | cons x l ih =>
    unfold fmtComps at h
    rw [calComp_fmtWrite] at h
    cases ha : x.toOther.fmtWrite (w.sub 0) with
    | error e => rw [ha] at h; cases h
    | ok a =>
      rw [ha] at h
      cases hb : fmtComps l (w.sub 1) with
      | error e => rw [hb] at h; cases h
      | ok b =>
        rw [hb] at h
        cases h
        have h1 := other_room _ (worldOk_sub hw 0) (uuidLength_sub hu 0) ha
        have h2 := ih (worldOk_sub hw 1) (uuidLength_sub hu 1) hb
        simp only [List.length_append, List.map_cons, componentsRoom]
        omega

/-- **C113.** What is written for a component of any kind fits into the room for its parts. -/
theorem write_component_size {C : Type} [Component C] (c : C) (w : World) (hw : World.Ok w) (hu : UuidLength w)
    {out : Str} (h : Component.fmtWrite c w = .ok out) : out.length ≤ componentRoom (Component.toOther c) :=
  other_room _ hw hu h

/-- **C113.** What is written for a calendar fits into the room for its parts. -/
theorem write_calendar_size (c : Calendar) (w : World) (hw : World.Ok w) (hu : UuidLength w) {out : Str}
    (h : c.fmtWrite w = .ok out) : out.length ≤ calendarRoom c := by
  unfold Calendar.fmtWrite at h
  cases hps : fmtProps c.props (w.sub 0) with
  | error e => simp only [hps] at h; cases h
  | ok ps =>
    cases hcs : fmtComps c.comps (w.sub 1) with
    | error e => simp only [hps, hcs] at h; cases h
    | ok cs =>
      simp only [hps, hcs] at h
      cases h
      have h1 := props_room (worldOk_sub hw 0) hps
      have h2 := comps_room (worldOk_sub hw 1) (uuidLength_sub hu 1) hcs
      simp only [calendarRoom, List.length_append, crlf, List.length_cons, List.length_nil]
      omega

/-! Reading. -/

omit [Uni] in
theorem sum_insert_le {α : Type} (f : Str × α → Nat) (k : Str) (v : α) {m : BMap α} (hs : BMap.Sorted m) :
    ((m.insert k v).map f).sum ≤ (m.map f).sum + f (k, v) := by
  obtain ⟨a, b, h, ⟨-, rfl⟩ | ⟨u, -, rfl⟩⟩ := insert_split k v m hs <;> rw [h] <;>
    simp only [List.map_append, List.map_cons, List.sum_append_nat, List.sum_cons] <;> omega

omit [Uni] in
theorem sum_ofList_le {α : Type} (f : Str × α → Nat) (l : List (Str × α)) : ((BMap.ofList l).map f).sum ≤ (l.map f).sum := by
  suffices ∀ m : BMap α, BMap.Sorted m →
      ((l.foldl (fun m kv => BMap.insert kv.1 kv.2 m) m).map f).sum ≤ (m.map f).sum + (l.map f).sum by
    simpa [BMap.ofList] using this [] BMap.sorted_nil
  induction l with
  | nil => intro m _; simp
  | cons x l ih =>
    intro m hm
    obtain ⟨k, v⟩ := x
    have h1 := ih _ (BMap.sorted_insert (k := k) (v := v) hm)
    have h2 := sum_insert_le f k v hm
    simp only [List.foldl_cons, List.map_cons, List.sum_cons]
    omega

/-- the weight of the repeatable properties -/
def multiRoom (m : BMap (List Property)) : Nat := (m.map (fun x => (x.2.map propertyRoom).sum)).sum

omit [Uni] in
theorem insertMulti_room {i : Inner} (hs : BMap.Sorted i.multi) (p : Property) :
    multiRoom (i.insertMulti p).multi ≤ multiRoom i.multi + propertyRoom p := by
  unfold Inner.insertMulti multiRoom
  simp only
  cases hg : i.multi.get p.key with
  | none =>
    have := sum_insert_le (fun x => (x.2.map propertyRoom).sum) p.key [p] hs
    simpa using this
  | some v =>
    obtain ⟨a, b, h, ⟨h1, -⟩ | ⟨u, h1, h2⟩⟩ := insert_split p.key (v ++ [p]) i.multi hs
    · rw [hg] at h1; cases h1
    · rw [hg] at h1
      cases h1
      simp only [h]
      rw [h2]
      simp only [List.map_append, List.map_cons, List.sum_append_nat, List.sum_cons, List.map_nil, List.sum_nil]
      omega

omit [Uni] in
theorem sorted_insertMulti {i : Inner} (hs : BMap.Sorted i.multi) (p : Property) : BMap.Sorted (i.insertMulti p).multi := by
  unfold Inner.insertMulti
  simp only
  split <;> exact BMap.sorted_insert hs

omit [Uni] in
theorem foldl_room (l : List PProp) (i : Inner) (hs : BMap.Sorted i.multi) :
    multiRoom (l.foldl (fun c p => c.insertMulti p.toProperty) i).multi ≤
      multiRoom i.multi + (l.map (fun p => propertyRoom p.toProperty)).sum := by
  induction l generalizing i with
  | nil => simp
  | cons p l ih =>
    have h1 := ih _ (sorted_insertMulti hs p.toProperty)
    have h2 := insertMulti_room hs p.toProperty
    simp only [List.foldl_cons, List.map_cons, List.sum_cons]
    omega

omit [Uni] in
theorem sum_filter (f : PProp → Nat) (l : List PProp) :
    ((l.filter (fun p => p.isMulti)).map f).sum + ((l.filter (fun p => !p.isMulti)).map f).sum = (l.map f).sum := by
  induction l with
  | nil => rfl
  | cons p l ih =>
    cases h : p.isMulti <;> simp [h] at ih ⊢ <;> omega

omit [Uni] in
theorem innerOfProps_room (props : List PProp) (comps : List Other) :
    ((innerOfProps props comps).props.map (fun x => propertyRoom x.2)).sum + multiRoom (innerOfProps props comps).multi ≤
      (props.map (fun p => propertyRoom p.toProperty)).sum := by
  have h0 := foldl_insertMulti_rest (props.filter (fun p => p.isMulti))
    { props := BMap.ofList ((props.filter (fun p => !p.isMulti)).map (fun p => (p.name, p.toProperty)))
      multi := [], comps := comps }
  have h1 := foldl_room (props.filter (fun p => p.isMulti))
    { props := BMap.ofList ((props.filter (fun p => !p.isMulti)).map (fun p => (p.name, p.toProperty)))
      multi := [], comps := comps } BMap.sorted_nil
  have h2 := sum_ofList_le (fun x => propertyRoom x.2) ((props.filter (fun p => !p.isMulti)).map (fun p => (p.name, p.toProperty)))
  have h3 := sum_filter (fun p => propertyRoom p.toProperty) props
  simp only [List.map_map] at h2
  have e : ((fun x : Str × Property => propertyRoom x.2) ∘ fun p : PProp => (p.name, p.toProperty)) =
    (fun p => propertyRoom p.toProperty) := rfl
  rw [e] at h2
  unfold innerOfProps
  rw [h0.1]
  simp only at h1 ⊢
  simp only [show multiRoom [] = 0 from rfl] at h1
  omega

/-- the text a property takes at least -/
def leastText (p : PProp) : Nat :=
  max 1 (p.name.length + p.val.length + (p.params.map (fun p => 1 + paramChars p)).sum +
    (if p.val = [] ∧ p.params = [] then 0 else 1))

omit [Uni] in
theorem toProperty_room (p : PProp) : propertyRoom p.toProperty ≤ 16 * leastText p := by
  have h1 := sum_ofList_le (fun x : Str × Str => x.1.length + x.2.length + 4) (p.params.map PParam.toPair)
  have h2 : ((p.params.map PParam.toPair).map (fun x : Str × Str => x.1.length + x.2.length + 4)).sum ≤
      4 * (p.params.map (fun p => 1 + paramChars p)).sum := by
    induction p.params with
    | nil => simp
    | cons q l ih =>
      simp only [List.map_cons, List.sum_cons, PParam.toPair, paramChars] at ih ⊢
      omega
  unfold propertyRoom PProp.toProperty leastText
  simp only
  split
  · rename_i h
    rw [h.2] at h2
    simp only [List.map_nil, List.sum_nil] at h2
    rw [h.2] at h1
    simp only [List.map_nil, List.sum_nil] at h1
    rw [h.1, h.2]
    simp only [List.map_nil, List.sum_nil, List.length_nil]
    omega
  · omega

omit [Uni] in
theorem toProperties_room (l : List PProp) :
    (l.map (fun p => propertyRoom p.toProperty)).sum ≤ 16 * (l.map leastText).sum := by
  induction l with
  | nil => simp
  | cons p l ih =>
    have := toProperty_room p
    simp only [List.map_cons, List.sum_cons]
    omega

omit [Uni] in
mutual
theorem toOther_room : ∀ c : PComp, componentRoom c.toOther ≤ 16 * compWeight leastText c
  | .mk n props comps => by
    have h1 := toOthers_room comps
    have h2 := innerOfProps_room props (toOthers comps)
    have h0 : (innerOfProps props (toOthers comps)).comps = toOthers comps := by
      unfold innerOfProps
      rw [(foldl_insertMulti_rest _ _).2]
    have h3 := toProperties_room props
    rw [PComp.toOther, Other.ofInner, componentRoom, compWeight, h0]
    unfold multiRoom at h2
    omega
theorem toOthers_room : ∀ l : List PComp, componentsRoom (toOthers l) ≤ 16 * compsWeight leastText l
  | [] => by simp [toOthers, componentsRoom]
  | c :: l => by
    have := toOther_room c
    have := toOthers_room l
    simp only [toOthers, componentsRoom, compsWeight]
    omega
end

omit [Uni] in
theorem toCalComps_room (l : List PComp) : componentsRoom ((l.map PComp.toCalComp).map CalComp.toOther) ≤
    16 * compsWeight leastText l := by
  induction l with
  | nil => simp [componentsRoom]
  | cons c l ih =>
    have := toOther_room c
    simp only [List.map_cons, componentsRoom, compsWeight, toOther_toCalComp]
    omega

omit [Uni] in
theorem covered_least : Covered leastText := fun _ => Nat.le_refl _

/-- **C113.** A calendar that was read from a text, folded or not, is written with at most sixteen times the characters
of the text, and 32. -/
theorem rewrite_size {s : Str} {c : Calendar} (hr : Calendar.fromStr s = some c) (w : World) (hw : World.Ok w)
    (hu : UuidLength w) {out : Str} (h : c.fmtWrite w = .ok out) : out.length ≤ 16 * s.length + 32 := by
  have h0 := write_calendar_size c w hw hu h
  have hl := unfold_length s
  unfold Calendar.fromStr at hr
  unfold readCalendar finish at hr
  cases hc : components (unfold s) with
  | error => simp [hc] at hr
  | failure => simp [hc] at hr
  | ok r l =>
    have h1 := bound_components covered_least _ _ _ hc
    simp only [hc] at hr
    cases l with
    | nil =>
      cases hr
      simp [calendarRoom, PCal.toCalendar, componentsRoom] at h0
      omega
    | cons root rest =>
      simp only at hr
      split at hr
      · cases hr
        obtain ⟨n, props, comps⟩ := root
        have h2 := toCalComps_room comps
        have h3 : ((props.map PProp.toProperty).map propertyRoom).sum ≤ 16 * (props.map leastText).sum := by
          rw [List.map_map]
          exact toProperties_room props
        simp only [calendarRoom, PCal.toCalendar, compsWeight, compWeight, PComp.props, PComp.comps] at *
        omega
      · cases hr
        have h2 := toCalComps_room (root :: rest)
        simp only [calendarRoom, PCal.toCalendar, List.map_nil, List.sum_nil] at *
        omega

end

/-! Room for a component: 85 characters and twice the name are needed even for an empty one. -/
example : componentRoom (.mk c!"VEVENT" [] [] []) = 97 ∧
    calendarRoom { props := [⟨c!"X", c!"1", [(c!"A", c!"b")]⟩], comps := [.event ⟨⟨[], [], []⟩⟩] } = 32 + 42 + 97 := by
  decide +kernel

/-- a world whose identifiers are zeros -/
def zeroWorld : World := { now := fun _ => ⟨⟨⟨2024, 2, 29⟩, 12, 0, 0, 0⟩⟩, uuid := fun _ => List.replicate 36 '0', order := fun _ l => l }

/-! A calendar of 53 characters with an empty event is written with 126: the generated lines are added. -/
example : World.Ok zeroWorld ∧ UuidLength zeroWorld ∧
    ((@Calendar.fromStr Uni.ascii c!"BEGIN:VCALENDAR\nBEGIN:VEVENT\nEND:VEVENT\nEND:VCALENDAR").bind (fun c =>
      (@Calendar.fmtWrite Uni.ascii c zeroWorld).toOption)).map List.length = some 126 :=
  ⟨⟨fun _ _ => List.Perm.refl _,
    fun _ => (by decide +kernel : ∀ c ∈ List.replicate 36 '0', c ∈ c!"0123456789abcdef-"),
    fun _ => (by decide +kernel : (⟨⟨2024, 2, 29⟩, 12, 0, 0, 0⟩ : NaiveDateTime).Valid)⟩,
    fun _ => (by decide +kernel : (List.replicate 36 '0').length = 36), by decide +kernel⟩

end Ical
