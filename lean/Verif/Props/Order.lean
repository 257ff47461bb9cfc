import Verif.Proofs.Utf8
import Verif.Props.Builders
import Verif.Proofs.Bytes

/-!
C35: the order in which the properties of a component are written.
-/

namespace Ical

open Spec

variable [Uni]

/-- the texts written for properties one after the other -/
theorem fmtProps_pieces {l : List Property} {w : World} {out : Str} (h : fmtProps l w = .ok out) :
    ∃ pieces : List (Property × Str), pieces.map Prod.fst = l ∧ out = (pieces.map Prod.snd).flatten ∧
      ∀ x ∈ pieces, ∃ path : List Nat, x.1.fmtWrite (path.foldl World.sub w) = .ok x.2 := by
  induction l generalizing w out with
  | nil => cases h; exact ⟨[], rfl, rfl, by simp⟩
  | cons p l ih =>
    unfold fmtProps at h
    cases ha : p.fmtWrite (w.sub 0) with
    | error e => rw [ha] at h; cases h
    | ok a =>
      rw [ha] at h
      cases hb : fmtProps l (w.sub 1) with
      | error e => rw [hb] at h; cases h
      | ok b =>
        rw [hb] at h
        cases h
        obtain ⟨ps, h1, h2, h3⟩ := ih hb
        refine ⟨(p, a) :: ps, by simp [h1], by simp [h2], ?_⟩
        intro x hx
        rcases List.mem_cons.1 hx with rfl | hx
        · exact ⟨[0], ha⟩
        · obtain ⟨path, hp⟩ := h3 x hx
          exact ⟨1 :: path, hp⟩

omit [Uni] in
theorem sorted_sets (l : List Property) (m : BMap Property) (h : BMap.Sorted m) :
    BMap.Sorted (l.foldl (fun m p => m.insert p.key p) m) := by
  induction l generalizing m with
  | nil => exact h
  | cons p l ih => exact ih _ (BMap.sorted_insert h)

omit [Uni] in
theorem keyed_sets (l : List Property) (m : BMap Property) (h : ∀ x ∈ m, x.2.key = x.1) :
    ∀ x ∈ l.foldl (fun m p => m.insert p.key p) m, x.2.key = x.1 := by
  induction l generalizing m with
  | nil => exact h
  | cons p l ih =>
    refine ih _ ?_
    intro x hx
    rcases BMap.mem_insert hx with rfl | hx
    · rfl
    · exact h x hx

/-- multi-properties in order, under their keys, never empty -/
structure MultiOk (m : BMap (List Property)) : Prop where
  sorted : BMap.Sorted m
  keyed : ∀ x ∈ m, x.2 ≠ [] ∧ ∀ p ∈ x.2, p.key = x.1

omit [Uni] in
theorem multiOk_insert {i : Inner} (h : MultiOk i.multi) (p : Property) : MultiOk (i.insertMulti p).multi := by
  unfold Inner.insertMulti
  simp only
  split
  · rename_i v hv
    have hm := BMap.get_mem hv
    refine ⟨BMap.sorted_insert h.sorted, ?_⟩
    intro x hx
    rcases BMap.mem_insert hx with rfl | hx
    · refine ⟨by simp, ?_⟩
      intro q hq
      rcases List.mem_append.1 hq with hq | hq
      · exact (h.keyed _ hm).2 q hq
      · rw [List.mem_singleton.1 hq]
    · exact h.keyed x hx
  · refine ⟨BMap.sorted_insert h.sorted, ?_⟩
    intro x hx
    rcases BMap.mem_insert hx with rfl | hx
    · refine ⟨by simp, ?_⟩
      intro q hq
      rw [List.mem_singleton.1 hq]
    · exact h.keyed x hx

omit [Uni] in
theorem multiOk_runs {C : Type} [Component C] (calls : List Call) (c : C) (h : MultiOk (Component.inner c).multi) :
    MultiOk (Component.inner (calls.foldl Call.run c)).multi := by
  induction calls generalizing c with
  | nil => exact h
  | cons x calls ih =>
    refine ih _ ?_
    rw [inner_run]
    simp only
    split
    · exact multiOk_insert h _
    · exact h

omit [Uni] in
/-- the groups one after the other -/
theorem groups_filter {m : BMap (List Property)} (h : MultiOk m) (k : Str) :
    m.values.flatten.filter (fun p => p.key == k) = (BMap.get k m).getD [] := by
  induction m with
  | nil => rfl
  | cons x m ih =>
    obtain ⟨k', l⟩ := x
    have hs := List.pairwise_cons.1 h.sorted
    have ih := ih ⟨hs.2, fun y hy => h.keyed y (by simp [hy])⟩
    have hl := (h.keyed (k', l) (by simp)).2
    simp only [BMap.values, List.map_cons, List.flatten_cons, List.filter_append, BMap.get] at ih ⊢
    rw [ih]
    split
    · rename_i hk
      subst hk
      have h1 : l.filter (fun p => p.key == k) = l := by
        rw [List.filter_eq_self]
        intro p hp
        simpa using hl p hp
      have h2 : BMap.get k m = none := by
        rw [BMap.get_none]
        intro y hy hc
        have := hs.1 y hy
        rw [hc] at this
        exact strCmp_irrefl this
      rw [h1, h2]
      simp
    · rename_i hk
      have h1 : l.filter (fun p => p.key == k) = [] := by
        rw [List.filter_eq_nil_iff]
        intro p hp
        have := hl p hp
        simp only at this
        rw [this]
        simpa using fun hc => hk hc.symm
      rw [h1]
      rfl

omit [Uni] in
/-- the keys of the groups never decrease -/
theorem groups_order {m : BMap (List Property)} (h : MultiOk m) :
    (m.values.flatten.map Property.key).Pairwise (fun a b => a = b ∨ strCmp a b = .lt) := by
  induction m with
  | nil => exact .nil
  | cons x m ih =>
    obtain ⟨k', l⟩ := x
    have hs := List.pairwise_cons.1 h.sorted
    have ih := ih ⟨hs.2, fun y hy => h.keyed y (by simp [hy])⟩
    have hl := (h.keyed (k', l) (by simp)).2
    simp only [BMap.values, List.map_cons, List.flatten_cons, List.map_append] at ih ⊢
    rw [List.pairwise_append]
    refine ⟨?_, ih, ?_⟩
    · rw [List.pairwise_map]
      refine List.pairwise_of_forall_mem_list ?_
      intro a ha b hb
      left
      rw [hl a ha, hl b hb]
    · intro a ha b hb
      obtain ⟨p, hp, rfl⟩ := List.mem_map.1 ha
      obtain ⟨q, hq, rfl⟩ := List.mem_map.1 hb
      obtain ⟨l', hl', hq⟩ := List.mem_flatten.1 hq
      obtain ⟨y, hy, rfl⟩ := List.mem_map.1 hl'
      right
      rw [hl p hp, (h.keyed y (by simp [hy])).2 q hq]
      exact hs.1 y hy

/-- **C35.** After any history of calls on a new component, its text consists of BEGIN, possibly a DTSTAMP
line, one text for each property set, possibly a UID line, the texts of the multi-properties, the
sub-components and END, where
* the text of a property is what the property itself writes;
* the properties are those set last for their keys, and their keys increase strictly in the order of their
  UTF-8 bytes;
* the multi-properties are those appended, grouped by key: keys never decrease, and under each key they are in
  the order of the calls. -/
theorem key_order {C : Type} [Component C] (c : C) (hnew : Component.inner c = Inner.empty) (calls : List Call)
    (w : World) (out : Str) (h : Component.fmtWrite (calls.foldl Call.run c) w = .ok out) :
    ∃ (stamp uid subs : Str) (single multi : List (Property × Str)),
      out = c!"BEGIN:" ++ Component.kind (calls.foldl Call.run c) ++ c!"\r\n" ++ stamp ++
        (single.map Prod.snd).flatten ++ uid ++ (multi.map Prod.snd).flatten ++ subs ++
        (c!"END:" ++ Component.kind (calls.foldl Call.run c) ++ c!"\r\n") ∧
      (∀ x ∈ single ++ multi, ∃ path : List Nat, x.1.fmtWrite (path.foldl World.sub w) = .ok x.2) ∧
      (∀ p, p ∈ single.map Prod.fst ↔
        (calls.flatMap Call.sets).reverse.find? (fun q => q.key == p.key) = some p) ∧
      single.Pairwise (fun a b => utf8 a.1.key < utf8 b.1.key) ∧
      (∀ k, (multi.map Prod.fst).filter (fun p => p.key == k) =
        (calls.filterMap Call.appends).filter (fun p => p.key == k)) ∧
      multi.Pairwise (fun a b => a.1.key = b.1.key ∨ utf8 a.1.key < utf8 b.1.key) ∧
      stamp = (if (calls.flatMap Call.sets).any (fun p => p.key == c!"DTSTAMP") then []
        else c!"DTSTAMP:" ++ fmtUtc (w.now []) ++ c!"\r\n") ∧
      uid = (if (calls.flatMap Call.sets).any (fun p => p.key == c!"UID") then []
        else c!"UID:" ++ w.uuid [] ++ c!"\r\n") := by
  have hprops : (Component.inner (calls.foldl Call.run c)).props =
      (calls.flatMap Call.sets).foldl (fun m p => BMap.insert p.key p m) [] := by
    rw [props_runs, hnew]; rfl
  have hm : MultiOk (Component.inner (calls.foldl Call.run c)).multi :=
    multiOk_runs calls c (by rw [hnew]; exact ⟨.nil, by simp [Inner.empty]⟩)
  have hmg : ∀ k, (BMap.get k (Component.inner (calls.foldl Call.run c)).multi).getD [] =
      (calls.filterMap Call.appends).filter (fun p => p.key == k) := by
    intro k
    have := (multi_keeps_all c calls k).1
    unfold Component.multiProperties at this
    rw [this, hnew]
    rfl
  have hget : ∀ k, BMap.get k (Component.inner (calls.foldl Call.run c)).props =
      (calls.flatMap Call.sets).reverse.find? (fun q => q.key == k) := by
    intro k
    rw [hprops, get_sets]
    simp [BMap.get]
  have hsort : BMap.Sorted (Component.inner (calls.foldl Call.run c)).props := by
    rw [hprops]; exact sorted_sets _ _ .nil
  have hkeyed : ∀ x ∈ (Component.inner (calls.foldl Call.run c)).props, x.2.key = x.1 := by
    rw [hprops]; exact keyed_sets _ _ (by simp)
  have hany : ∀ k, BMap.containsKey k (Component.inner (calls.foldl Call.run c)).props =
      (calls.flatMap Call.sets).any (fun p => p.key == k) := by
    intro k
    unfold BMap.containsKey
    rw [hget, Bool.eq_iff_iff, List.find?_isSome, List.any_eq_true]
    simp
  unfold Component.fmtWrite Component.toOther at h
  generalize Component.inner (calls.foldl Call.run c) = i at *
  generalize Component.kind (calls.foldl Call.run c) = kind at *
  obtain ⟨props, multi, comps⟩ := i
  simp only at hm hmg hget hsort hkeyed hany
  unfold Other.ofInner Other.fmtWrite at h
  cases hps : fmtProps props.values (w.sub 0) with
  | error e => simp only [hps] at h; cases h
  | ok ps =>
    cases hms : fmtProps multi.values.flatten (w.sub 1) with
    | error e => simp only [hps, hms] at h; cases h
    | ok ms =>
      cases hcs : fmtOthers comps (w.sub 2) with
      | error e => simp only [hps, hms, hcs] at h; cases h
      | ok cs =>
        simp only [hps, hms, hcs] at h
        obtain ⟨single, s1, s2, s3⟩ := fmtProps_pieces hps
        obtain ⟨multi', m1, m2, m3⟩ := fmtProps_pieces hms
        refine ⟨_, _, cs, single, multi', ?_, ?_, ?_, ?_, ?_, ?_, rfl, rfl⟩
        · rw [← s2, ← m2]
          rw [hany, hany] at h
          exact (Except.ok.inj h).symm
        · intro x hx
          rcases List.mem_append.1 hx with hx | hx
          · obtain ⟨path, hp⟩ := s3 x hx
            exact ⟨0 :: path, hp⟩
          · obtain ⟨path, hp⟩ := m3 x hx
            exact ⟨1 :: path, hp⟩
        · intro p
          rw [s1, ← hget]
          constructor
          · intro hp
            obtain ⟨x, hx, rfl⟩ := List.mem_map.1 hp
            rw [hkeyed x hx]
            exact BMap.get_of_mem hsort hx
          · intro hp
            exact List.mem_map.2 ⟨_, BMap.get_mem hp, rfl⟩
        · have : (single.map Prod.fst).Pairwise (fun a b => utf8 a.key < utf8 b.key) := by
            rw [s1]
            unfold BMap.values
            rw [List.pairwise_map]
            refine hsort.imp_of_mem ?_
            intro a b ha hb hab
            rw [hkeyed a ha, hkeyed b hb]
            exact (strCmp_utf8 _ _).1 hab
          rw [List.pairwise_map] at this
          exact this
        · intro k
          rw [m1, groups_filter hm, hmg]
        · have : (multi'.map Prod.fst).Pairwise (fun a b => a.key = b.key ∨ utf8 a.key < utf8 b.key) := by
            rw [m1]
            have := groups_order hm
            rw [List.pairwise_map] at this
            refine this.imp ?_
            intro a b hab
            rcases hab with hab | hab
            · exact .inl hab
            · exact .inr ((strCmp_utf8 _ _).1 hab)
          rw [List.pairwise_map] at this
          exact this

omit [Uni] in
/-- keys set out of order and twice, and two groups -/
example : (@Component.fmtWrite Event _ Uni.ascii (([.summary c!"a", .addMultiProperty c!"COMMENT" c!"1",
      .addProperty c!"a" c!"x", .uid c!"u", .addMultiProperty c!"ATTENDEE" c!"m", .summary c!"b",
      .addMultiProperty c!"COMMENT" c!"2", .timestamp ⟨⟨⟨2026, 1, 1⟩, 0, 0, 0, 0⟩⟩] : List Call).foldl Call.run Event.new)
    ⟨fun _ => ⟨⟨⟨2026, 1, 1⟩, 0, 0, 0, 0⟩⟩, fun _ => c!"0", fun _ l => l⟩) = .ok (
      c!"BEGIN:VEVENT\r\nDTSTAMP:20260101T000000Z\r\nSUMMARY:b\r\nUID:u\r\na:x\r\n" ++
      c!"ATTENDEE:m\r\nCOMMENT:1\r\nCOMMENT:2\r\nEND:VEVENT\r\n") := by
  decide +kernel

end Ical
