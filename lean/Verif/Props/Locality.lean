import Verif.Spec.Locality
import Verif.Spec.WellFormed
import Verif.Props.Order

/-!
C104: small changes of a calendar make small changes of its text.
-/

namespace Ical

open Spec

/-- where a map changes when a value is set -/
theorem insert_split {α : Type} (k : Str) (v : α) (m : BMap α) (hs : BMap.Sorted m) :
    ∃ a b, m.insert k v = a ++ (k, v) :: b ∧
      ((m.get k = none ∧ m = a ++ b) ∨ ∃ u, m.get k = some u ∧ m = a ++ (k, u) :: b) := by
  induction m with
  | nil => exact ⟨[], [], rfl, .inl ⟨rfl, rfl⟩⟩
  | cons x m ih =>
    obtain ⟨k', v'⟩ := x
    have hs' : BMap.Sorted m := List.Pairwise.of_cons hs
    unfold BMap.insert
    split
    · rename_i h
      refine ⟨[], (k', v') :: m, rfl, .inl ⟨?_, rfl⟩⟩
      rw [BMap.get_none]
      intro y hy he
      rcases List.mem_cons.1 hy with rfl | hy
      · rw [← he] at h; exact strCmp_irrefl h
      · have := (List.pairwise_cons.1 hs).1 y hy
        rw [he] at this
        exact strCmp_irrefl (strCmp_trans h this)
    · rename_i h
      rw [strCmp_eq] at h
      subst h
      exact ⟨[], m, rfl, .inr ⟨v', by simp [BMap.get], rfl⟩⟩
    · rename_i h
      have hne : k ≠ k' := by rintro rfl; rw [strCmp_refl] at h; cases h
      obtain ⟨a, b, h1, h2⟩ := ih hs'
      refine ⟨(k', v') :: a, b, by rw [h1]; rfl, ?_⟩
      unfold BMap.get
      rw [if_neg hne]
      rcases h2 with ⟨h2, h3⟩ | ⟨u, h2, h3⟩
      · exact .inl ⟨h2, by rw [h3]; rfl⟩
      · exact .inr ⟨u, h2, by rw [h3]; rfl⟩

variable [Uni]

/-- the world after some parts -/
def World.later (w : World) : Nat → World
  | 0 => w
  | n + 1 => (w.sub 1).later n

omit [Uni] in
theorem later_order (w : World) (n : Nat) : ∀ q, ∃ q', ∀ l, (w.later n).order q l = w.order q' l := by
  induction n generalizing w with
  | zero => exact fun q => ⟨q, fun _ => rfl⟩
  | succ n ih =>
    intro q
    obtain ⟨q', h⟩ := ih (w.sub 1) q
    exact ⟨1 :: q', h⟩

/-- what is written depends on the order of parameters only -/
theorem fmtProps_congr (l : List Property) (w w' : World) (h : ∀ p ∈ l, ∀ q q', w.order q p.params = w'.order q' p.params) :
    fmtProps l w = fmtProps l w' := by
  induction l generalizing w w' with
  | nil => rfl
  | cons p l ih =>
    have e : p.fmtWrite (w.sub 0) = p.fmtWrite (w'.sub 0) := by
      unfold Property.fmtWrite Property.line
      have : (w.sub 0).order [] p.params = (w'.sub 0).order [] p.params := h p (List.mem_cons_self ..) [0] [0]
      rw [this]
    rw [fmtProps, fmtProps, e, ih (w.sub 1) (w'.sub 1) (fun x hx q q' => h x (List.mem_cons_of_mem _ hx) (1 :: q) (1 :: q'))]

theorem fmtProps_append_ok (a b : List Property) (w : World) (out : Str) (h : fmtProps (a ++ b) w = .ok out) :
    ∃ s t, out = s ++ t ∧ fmtProps a w = .ok s ∧ fmtProps b (w.later a.length) = .ok t := by
  induction a generalizing w out with
  | nil => exact ⟨[], out, rfl, rfl, h⟩
  | cons p a ih =>
    rw [List.cons_append, fmtProps] at h
    cases hp : p.fmtWrite (w.sub 0) with
    | error e => rw [hp] at h; cases h
    | ok x =>
      rw [hp] at h
      simp only at h
      cases hr : fmtProps (a ++ b) (w.sub 1) with
      | error e => rw [hr] at h; cases h
      | ok y =>
        rw [hr] at h
        cases h
        obtain ⟨s, t, h1, h2, h3⟩ := ih (w.sub 1) y hr
        refine ⟨x ++ s, t, by rw [h1, List.append_assoc], ?_, h3⟩
        rw [fmtProps, hp]
        simp only
        rw [h2]

theorem steady_later {w : World} {l : List Property} (h : SteadyOrder w l) (m n : Nat) :
    fmtProps l (w.later m) = fmtProps l (w.later n) := by
  refine fmtProps_congr l _ _ fun p hp q q' => ?_
  obtain ⟨r, hr⟩ := later_order w m q
  obtain ⟨r', hr'⟩ := later_order w n q'
  rw [hr, hr']
  exact h p hp r r'

omit [Uni] in
theorem later_later (w : World) (m n : Nat) : (w.later m).later n = w.later (m + n) := by
  induction m generalizing w with
  | zero => rw [Nat.zero_add]; rfl
  | succ m ih =>
    have : m + 1 + n = (m + n) + 1 := by omega
    rw [this]
    exact ih _

/-- a run of properties is replaced by another one -/
theorem fmtProps_differ {a x y b : List Property} {w : World} {out out' : Str} (hb : SteadyOrder w b ∨ x.length = y.length)
    (h : fmtProps (a ++ (x ++ b)) w = .ok out) (h' : fmtProps (a ++ (y ++ b)) w = .ok out') :
    ∃ s t, Differ s t out out' ∧ fmtProps x (w.later a.length) = .ok s ∧ fmtProps y (w.later a.length) = .ok t := by
  obtain ⟨s1, t1, e1, h1, h2⟩ := fmtProps_append_ok _ _ _ _ h
  obtain ⟨s1', t1', e1', h1', h2'⟩ := fmtProps_append_ok _ _ _ _ h'
  obtain ⟨s, u, e2, h3, h4⟩ := fmtProps_append_ok _ _ _ _ h2
  obtain ⟨t, u', e2', h3', h4'⟩ := fmtProps_append_ok _ _ _ _ h2'
  have e3 : s1 = s1' := by rw [h1] at h1'; exact Except.ok.inj h1'
  have hl := later_later w
  have e4 : u = u' := by
    rw [hl] at h4 h4'
    rcases hb with hb | hb
    · rw [steady_later hb _ (a.length + y.length), h4'] at h4
      exact (Except.ok.inj h4).symm
    · rw [hb, h4'] at h4
      exact (Except.ok.inj h4).symm
  subst e3 e4
  exact ⟨s, t, ⟨s1, u, by rw [e1, e2, List.append_assoc], by rw [e1', e2', List.append_assoc]⟩, h3, h3'⟩

theorem fmtProps_one {p : Property} {w : World} {s : Str} (h : fmtProps [p] w = .ok s) : p.fmtWrite (w.sub 0) = .ok s := by
  rw [fmtProps] at h
  cases hp : p.fmtWrite (w.sub 0) with
  | error e => rw [hp] at h; cases h
  | ok x =>
    rw [hp] at h
    simp only [fmtProps] at h
    cases h
    rw [List.append_nil]

/-- the parts of the text of a component -/
theorem component_parts {C : Type} [Component C] {c : C} {w : World} {out : Str} (h : Component.fmtWrite c w = .ok out) :
    ∃ ps ms cs, fmtProps (Component.properties c).values (w.sub 0) = .ok ps ∧
      fmtProps (Component.inner c).multi.values.flatten (w.sub 1) = .ok ms ∧
      fmtOthers (Component.inner c).comps (w.sub 2) = .ok cs ∧
      out = c!"BEGIN:" ++ Component.kind c ++ crlf ++
        (if (Component.properties c).containsKey c!"DTSTAMP" then [] else c!"DTSTAMP:" ++ fmtUtc (w.now []) ++ crlf) ++ ps ++
        (if (Component.properties c).containsKey c!"UID" then [] else c!"UID:" ++ w.uuid [] ++ crlf) ++ ms ++ cs ++
        (c!"END:" ++ Component.kind c ++ crlf) := by
  unfold Component.fmtWrite Component.toOther Other.ofInner Other.fmtWrite at h
  unfold Component.properties
  cases h1 : fmtProps (Component.inner c).props.values (w.sub 0) with
  | error e => simp [h1] at h
  | ok ps =>
    cases h2 : fmtProps (Component.inner c).multi.values.flatten (w.sub 1) with
    | error e => simp [h1, h2] at h
    | ok ms =>
      cases h3 : fmtOthers (Component.inner c).comps (w.sub 2) with
      | error e => simp [h1, h2, h3] at h
      | ok cs =>
        simp only [h1, h2, h3, Except.ok.injEq] at h
        exact ⟨ps, ms, cs, rfl, rfl, rfl, h.symm⟩

omit [Uni] in
theorem differ_within {s t a b : Str} (h : Differ s t a b) (x y : Str) : Differ s t (x ++ a ++ y) (x ++ b ++ y) := by
  obtain ⟨pre, post, rfl, rfl⟩ := h
  exact ⟨x ++ pre, post ++ y, by simp, by simp⟩

/-! ### C104 -/

/-- **C104.** Setting a property other than DTSTAMP and UID changes the text of a component only in the line of that
property: it replaces the line of the previous property of the name, or is added. -/
theorem set_is_local {C : Type} [Component C] (c : C) (hs : InOrder (Component.properties c)) (p : Property)
    (h1 : p.key ≠ c!"DTSTAMP") (h2 : p.key ≠ c!"UID") (w : World)
    (hw : (∃ q, (Component.properties c).get p.key = some q) ∨ SteadyOrder (w.sub 0) (Component.properties c).values)
    {out out' : Str} (h : Component.fmtWrite c w = .ok out)
    (h' : Component.fmtWrite (Component.appendProperty c p) w = .ok out') :
    ∃ old new, Differ old new out out' ∧ (∃ w', p.fmtWrite w' = .ok new) ∧
      match (Component.properties c).get p.key with
      | none => old = []
      | some q => ∃ w', q.fmtWrite w' = .ok old := by
  obtain ⟨ps, ms, cs, a1, a2, a3, rfl⟩ := component_parts h
  obtain ⟨ps', ms', cs', b1, b2, b3, rfl⟩ := component_parts h'
  have hi : Component.inner (Component.appendProperty c p) = (Component.inner c).appendProperty p :=
    Component.inner_withInner _ _
  have hp : Component.properties (Component.appendProperty c p) = (Component.properties c).insert p.key p := by
    unfold Component.properties
    rw [hi]
    rfl
  have hk : Component.kind (Component.appendProperty c p) = Component.kind c := Component.kind_withInner _ _
  have hc : ∀ k, k ≠ p.key → (Component.properties (Component.appendProperty c p)).containsKey k =
      (Component.properties c).containsKey k := by
    intro k hne
    unfold BMap.containsKey
    rw [hp, BMap.get_insert_ne _ _ _ hne]
  rw [hi] at b2 b3
  have e2 : ms = ms' := by
    have := a2.symm.trans b2
    exact Except.ok.inj this
  have e3 : cs = cs' := Except.ok.inj (a3.symm.trans b3)
  subst e2 e3
  rw [hk, hc _ (Ne.symm h1), hc _ (Ne.symm h2)]
  obtain ⟨l, r, e4, h4⟩ := insert_split p.key p (Component.properties c) hs
  rw [hp, e4] at b1
  have wrap : ∀ s t, Differ s t ps ps' → Differ s t
      (c!"BEGIN:" ++ Component.kind c ++ crlf ++
        (if (Component.properties c).containsKey c!"DTSTAMP" then [] else c!"DTSTAMP:" ++ fmtUtc (w.now []) ++ crlf) ++ ps ++
        (if (Component.properties c).containsKey c!"UID" then [] else c!"UID:" ++ w.uuid [] ++ crlf) ++ ms ++ cs ++
        (c!"END:" ++ Component.kind c ++ crlf))
      (c!"BEGIN:" ++ Component.kind c ++ crlf ++
        (if (Component.properties c).containsKey c!"DTSTAMP" then [] else c!"DTSTAMP:" ++ fmtUtc (w.now []) ++ crlf) ++ ps' ++
        (if (Component.properties c).containsKey c!"UID" then [] else c!"UID:" ++ w.uuid [] ++ crlf) ++ ms ++ cs ++
        (c!"END:" ++ Component.kind c ++ crlf)) := by
    intro s t hd
    simpa only [List.append_assoc] using differ_within hd
      (c!"BEGIN:" ++ Component.kind c ++ crlf ++
        (if (Component.properties c).containsKey c!"DTSTAMP" then [] else c!"DTSTAMP:" ++ fmtUtc (w.now []) ++ crlf))
      ((if (Component.properties c).containsKey c!"UID" then [] else c!"UID:" ++ w.uuid [] ++ crlf) ++ ms ++ cs ++
        (c!"END:" ++ Component.kind c ++ crlf))
  rcases h4 with ⟨hg, e5⟩ | ⟨u, hg, e5⟩
  · have hst : SteadyOrder (w.sub 0) (BMap.values r) := by
      rcases hw with ⟨q, hq⟩ | hw
      · rw [hq] at hg; cases hg
      · intro x hx
        exact hw x (by rw [e5]; unfold BMap.values; rw [List.map_append]; exact List.mem_append_right _ hx)
    rw [e5] at a1
    obtain ⟨s, t, d, f1, f2⟩ := fmtProps_differ (a := BMap.values l) (x := []) (y := [p]) (b := BMap.values r) (.inl hst)
      (by simpa [BMap.values] using a1) (by simpa [BMap.values] using b1)
    refine ⟨s, t, wrap s t d, ⟨_, fmtProps_one f2⟩, ?_⟩
    rw [hg]
    exact (Except.ok.inj f1).symm
  · rw [e5] at a1
    obtain ⟨s, t, d, f1, f2⟩ := fmtProps_differ (a := BMap.values l) (x := [u]) (y := [p]) (b := BMap.values r) (.inr rfl)
      (by simpa [BMap.values] using a1) (by simpa [BMap.values] using b1)
    refine ⟨s, t, wrap s t d, ⟨_, fmtProps_one f2⟩, ?_⟩
    rw [hg]
    exact ⟨_, fmtProps_one f1⟩

/-- **C104.** Adding a repeatable property adds its line and changes nothing else. -/
theorem add_multi_is_local {C : Type} [Component C] (c : C) (hs : InOrder (Component.inner c).multi) (p : Property) (w : World)
    (hw : SteadyOrder (w.sub 1) (Component.inner c).multi.values.flatten)
    {out out' : Str} (h : Component.fmtWrite c w = .ok out)
    (h' : Component.fmtWrite (Component.appendMultiProperty c p) w = .ok out') :
    ∃ new, Differ [] new out out' ∧ ∃ w', p.fmtWrite w' = .ok new := by
  obtain ⟨ps, ms, cs, a1, a2, a3, rfl⟩ := component_parts h
  obtain ⟨ps', ms', cs', b1, b2, b3, rfl⟩ := component_parts h'
  have hi : Component.inner (Component.appendMultiProperty c p) = (Component.inner c).insertMulti p :=
    Component.inner_withInner _ _
  have hp : Component.properties (Component.appendMultiProperty c p) = Component.properties c := by
    unfold Component.properties
    rw [hi]
    rfl
  have hk : Component.kind (Component.appendMultiProperty c p) = Component.kind c := Component.kind_withInner _ _
  rw [hp] at b1
  rw [hi] at b2 b3
  have e1 : ps = ps' := Except.ok.inj (a1.symm.trans b1)
  have e3 : cs = cs' := Except.ok.inj (a3.symm.trans b3)
  subst e1 e3
  rw [hk, hp]
  have hm : ∃ l r, (Component.inner c).multi.values.flatten = l ++ r ∧
      ((Component.inner c).insertMulti p).multi.values.flatten = l ++ ([p] ++ r) := by
    unfold Inner.insertMulti
    simp only
    split
    · rename_i v hv
      obtain ⟨a, b, e4, h4⟩ := insert_split p.key (v ++ [p]) (Component.inner c).multi hs
      rcases h4 with ⟨hg, -⟩ | ⟨u, hg, e5⟩
      · rw [hv] at hg; cases hg
      · rw [hv] at hg
        cases hg
        refine ⟨(BMap.values a).flatten ++ v, (BMap.values b).flatten, ?_, ?_⟩
        · rw [e5]; simp [BMap.values]
        · rw [e4]; simp [BMap.values]
    · rename_i hv
      obtain ⟨a, b, e4, h4⟩ := insert_split p.key [p] (Component.inner c).multi hs
      rcases h4 with ⟨-, e5⟩ | ⟨u, hg, e5⟩
      · refine ⟨(BMap.values a).flatten, (BMap.values b).flatten, ?_, ?_⟩
        · rw [e5]; simp [BMap.values]
        · rw [e4]; simp [BMap.values]
      · rw [hv] at hg; cases hg
  obtain ⟨l, r, e4, e5⟩ := hm
  rw [e4] at a2 hw
  rw [e5] at b2
  obtain ⟨s, t, d, f1, f2⟩ := fmtProps_differ (x := []) (y := [p])
    (.inl fun x hx => hw x (List.mem_append_right _ hx)) a2 b2
  cases Except.ok.inj f1
  refine ⟨t, ?_, _, fmtProps_one f2⟩
  simpa only [List.append_assoc] using differ_within d
    (c!"BEGIN:" ++ Component.kind c ++ crlf ++
      (if (Component.properties c).containsKey c!"DTSTAMP" then [] else c!"DTSTAMP:" ++ fmtUtc (w.now []) ++ crlf) ++ ps ++
      (if (Component.properties c).containsKey c!"UID" then [] else c!"UID:" ++ w.uuid [] ++ crlf))
    (cs ++ (c!"END:" ++ Component.kind c ++ crlf))

theorem fmtOthers_append_ok (a b : List Other) (w : World) (out : Str) (h : fmtOthers (a ++ b) w = .ok out) :
    ∃ s t, out = s ++ t ∧ fmtOthers a w = .ok s ∧ fmtOthers b (w.later a.length) = .ok t := by
  induction a generalizing w out with
  | nil => exact ⟨[], out, rfl, by simp [fmtOthers], h⟩
  | cons p a ih =>
    rw [List.cons_append, fmtOthers] at h
    cases hp : p.fmtWrite (w.sub 0) with
    | error e => rw [hp] at h; cases h
    | ok x =>
      rw [hp] at h
      simp only at h
      cases hr : fmtOthers (a ++ b) (w.sub 1) with
      | error e => rw [hr] at h; cases h
      | ok y =>
        rw [hr] at h
        cases h
        obtain ⟨s, t, h1, h2, h3⟩ := ih (w.sub 1) y hr
        refine ⟨x ++ s, t, by rw [h1, List.append_assoc], ?_, h3⟩
        rw [fmtOthers, hp]
        simp only
        rw [h2]

theorem fmtOthers_one {o : Other} {w : World} {s : Str} (h : fmtOthers [o] w = .ok s) : o.fmtWrite (w.sub 0) = .ok s := by
  rw [fmtOthers] at h
  cases hp : o.fmtWrite (w.sub 0) with
  | error e => rw [hp] at h; cases h
  | ok x =>
    rw [hp] at h
    simp only [fmtOthers] at h
    cases h
    rw [List.append_nil]

/-- **C104.** Adding a sub-component adds its block and changes nothing else. -/
theorem add_component_is_local {C : Type} [Component C] (c : C) (o : Other) (w : World) {out out' : Str}
    (h : Component.fmtWrite c w = .ok out) (h' : Component.fmtWrite (Component.appendComponent c o) w = .ok out') :
    ∃ new, Differ [] new out out' ∧ ∃ w', o.fmtWrite w' = .ok new := by
  obtain ⟨ps, ms, cs, a1, a2, a3, rfl⟩ := component_parts h
  obtain ⟨ps', ms', cs', b1, b2, b3, rfl⟩ := component_parts h'
  have hi : Component.inner (Component.appendComponent c o) = (Component.inner c).appendComponent o :=
    Component.inner_withInner _ _
  have hp : Component.properties (Component.appendComponent c o) = Component.properties c := by
    unfold Component.properties
    rw [hi]
    rfl
  have hk : Component.kind (Component.appendComponent c o) = Component.kind c := Component.kind_withInner _ _
  rw [hp] at b1
  rw [hi] at b2 b3
  have e1 : ps = ps' := Except.ok.inj (a1.symm.trans b1)
  have e2 : ms = ms' := Except.ok.inj (a2.symm.trans b2)
  subst e1 e2
  rw [hk, hp]
  obtain ⟨s, t, rfl, f1, f2⟩ := fmtOthers_append_ok _ [o] _ _ b3
  rw [f1] at a3
  cases a3
  refine ⟨t, ⟨_, c!"END:" ++ Component.kind c ++ crlf, by rw [List.append_nil], by simp only [List.append_assoc]⟩, _,
    fmtOthers_one f2⟩

theorem fmtComps_append_ok (a b : List CalComp) (w : World) (out : Str) (h : fmtComps (a ++ b) w = .ok out) :
    ∃ s t, out = s ++ t ∧ fmtComps a w = .ok s ∧ fmtComps b (w.later a.length) = .ok t := by
  induction a generalizing w out with
  | nil => exact ⟨[], out, rfl, rfl, h⟩
  | cons p a ih =>
    rw [List.cons_append, fmtComps] at h
    cases hp : p.fmtWrite (w.sub 0) with
    | error e => rw [hp] at h; cases h
    | ok x =>
      rw [hp] at h
      simp only at h
      cases hr : fmtComps (a ++ b) (w.sub 1) with
      | error e => rw [hr] at h; cases h
      | ok y =>
        rw [hr] at h
        cases h
        obtain ⟨s, t, h1, h2, h3⟩ := ih (w.sub 1) y hr
        refine ⟨x ++ s, t, by rw [h1, List.append_assoc], ?_, h3⟩
        rw [fmtComps, hp]
        simp only
        rw [h2]

theorem fmtComps_one {o : CalComp} {w : World} {s : Str} (h : fmtComps [o] w = .ok s) : o.fmtWrite (w.sub 0) = .ok s := by
  rw [fmtComps] at h
  cases hp : o.fmtWrite (w.sub 0) with
  | error e => rw [hp] at h; cases h
  | ok x =>
    rw [hp] at h
    simp only [fmtComps] at h
    cases h
    rw [List.append_nil]

theorem calendar_parts {c : Calendar} {w : World} {out : Str} (h : c.fmtWrite w = .ok out) :
    ∃ ps cs, fmtProps c.props (w.sub 0) = .ok ps ∧ fmtComps c.comps (w.sub 1) = .ok cs ∧
      out = c!"BEGIN:VCALENDAR" ++ crlf ++ ps ++ cs ++ (c!"END:VCALENDAR" ++ crlf) := by
  unfold Calendar.fmtWrite at h
  cases h1 : fmtProps c.props (w.sub 0) with
  | error e => simp [h1] at h
  | ok ps =>
    cases h2 : fmtComps c.comps (w.sub 1) with
    | error e => simp [h1, h2] at h
    | ok cs =>
      simp only [h1, h2, Except.ok.injEq] at h
      exact ⟨ps, cs, rfl, rfl, h.symm⟩

/-- **C104.** Pushing a component to a calendar inserts its block before the last line. -/
theorem push_is_local (c : Calendar) (x : CalComp) (w : World) {out out' : Str} (h : c.fmtWrite w = .ok out)
    (h' : (c.push x).fmtWrite w = .ok out') :
    ∃ front new, out = front ++ c!"END:VCALENDAR\r\n" ∧ out' = front ++ new ++ c!"END:VCALENDAR\r\n" ∧
      ∃ w', x.fmtWrite w' = .ok new := by
  obtain ⟨ps, cs, a1, a2, rfl⟩ := calendar_parts h
  obtain ⟨ps', cs', b1, b2, rfl⟩ := calendar_parts h'
  have e1 : ps = ps' := Except.ok.inj (a1.symm.trans b1)
  subst e1
  obtain ⟨s, t, rfl, f1, f2⟩ := fmtComps_append_ok _ [x] _ _ b2
  rw [f1] at a2
  cases a2
  exact ⟨_, t, rfl, by simp only [List.append_assoc]; rfl, _, fmtComps_one f2⟩

/-- **C104.** Replacing one component of a calendar replaces its block and changes nothing else. -/
theorem replace_is_local (props : List Property) (before after : List CalComp) (x y : CalComp) (w : World) {out out' : Str}
    (h : Calendar.fmtWrite ⟨props, before ++ x :: after⟩ w = .ok out)
    (h' : Calendar.fmtWrite ⟨props, before ++ y :: after⟩ w = .ok out') :
    ∃ old new, Differ old new out out' ∧ ∃ w', x.fmtWrite w' = .ok old ∧ y.fmtWrite w' = .ok new := by
  obtain ⟨ps, cs, a1, a2, rfl⟩ := calendar_parts h
  obtain ⟨ps', cs', b1, b2, rfl⟩ := calendar_parts h'
  have e1 : ps = ps' := Except.ok.inj (a1.symm.trans b1)
  subst e1
  obtain ⟨s, t, rfl, f1, f2⟩ := fmtComps_append_ok _ ([x] ++ after) _ _ a2
  obtain ⟨s', t', rfl, f1', f2'⟩ := fmtComps_append_ok _ ([y] ++ after) _ _ b2
  obtain ⟨u, v, rfl, g1, g2⟩ := fmtComps_append_ok _ _ _ _ f2
  obtain ⟨u', v', rfl, g1', g2'⟩ := fmtComps_append_ok _ _ _ _ f2'
  have e2 : s = s' := Except.ok.inj (f1.symm.trans f1')
  have e3 : v = v' := Except.ok.inj (g2.symm.trans g2')
  subst e2 e3
  refine ⟨u, u', ⟨c!"BEGIN:VCALENDAR" ++ crlf ++ ps ++ s, v ++ (c!"END:VCALENDAR" ++ crlf), ?_, ?_⟩, _, fmtComps_one g1,
    fmtComps_one g1'⟩
  · simp only [List.append_assoc]
  · simp only [List.append_assoc]

omit [Uni] in
/-- A world in which every property has at most one parameter has a steady order. -/
theorem steadyOrder_of_few {w : World} (hw : World.Ok w) {l : List Property} (h : ∀ p ∈ l, p.params.length ≤ 1) :
    SteadyOrder w l := by
  intro p hp q q'
  have one : ∀ q, w.order q p.params = p.params := by
    intro q
    have hperm := hw.order q p.params
    have hlen := h p hp
    match hpar : p.params with
    | [] => rw [hpar] at hperm; exact hperm.eq_nil
    | [x] => rw [hpar] at hperm; exact List.perm_singleton.1 hperm
    | x :: y :: r => rw [hpar] at hlen; simp at hlen
  rw [one, one]

end Ical

/-! ### Examples -/

namespace Ical

open Spec

local instance asciiUniLocality : Uni := Uni.ascii

private def w0 : World := ⟨fun _ => ⟨⟨⟨2026, 1, 1⟩, 0, 0, 0, 0⟩⟩, fun _ => c!"0-f", fun _ l => l⟩

/-- A new summary replaces the old one. -/
example : ∃ old new, Differ old new
      c!"BEGIN:VEVENT\r\nDTSTAMP:20260101T000000Z\r\nSUMMARY:a\r\nURL:x\r\nUID:0-f\r\nEND:VEVENT\r\n"
      c!"BEGIN:VEVENT\r\nDTSTAMP:20260101T000000Z\r\nSUMMARY:b\r\nURL:x\r\nUID:0-f\r\nEND:VEVENT\r\n" ∧
    (∃ w', (Property.new c!"SUMMARY" c!"b").fmtWrite w' = .ok new) ∧
    ∃ w', (Property.new c!"SUMMARY" c!"a").fmtWrite w' = .ok old :=
  set_is_local (Component.url (Component.summary Event.new c!"a") c!"x") (by decide) (.new c!"SUMMARY" c!"b") (by decide)
    (by decide) w0 (.inl ⟨_, rfl⟩) (by decide +kernel) (by decide +kernel)

/-- A location is put between the other lines. -/
example : ∃ old new, Differ old new
      c!"BEGIN:VEVENT\r\nDTSTAMP:20260101T000000Z\r\nDESCRIPTION:a\r\nURL:x\r\nUID:0-f\r\nEND:VEVENT\r\n"
      c!"BEGIN:VEVENT\r\nDTSTAMP:20260101T000000Z\r\nDESCRIPTION:a\r\nLOCATION:b\r\nURL:x\r\nUID:0-f\r\nEND:VEVENT\r\n" ∧
    (∃ w', (Property.new c!"LOCATION" c!"b").fmtWrite w' = .ok new) ∧ old = [] :=
  set_is_local (Component.url (Component.description Event.new c!"a") c!"x") (by decide) (.new c!"LOCATION" c!"b")
    (by decide) (by decide) w0 (.inr fun _ _ _ _ => rfl) (by decide +kernel) (by decide +kernel)

/-- DTSTAMP is an exception: the generated line goes away. -/
example : (Component.fmtWrite (Component.description Event.new c!"a") w0,
      Component.fmtWrite (Component.addProperty (Component.description Event.new c!"a") c!"DTSTAMP" c!"19700101T000000Z") w0) =
    (.ok c!"BEGIN:VEVENT\r\nDTSTAMP:20260101T000000Z\r\nDESCRIPTION:a\r\nUID:0-f\r\nEND:VEVENT\r\n",
     .ok c!"BEGIN:VEVENT\r\nDESCRIPTION:a\r\nDTSTAMP:19700101T000000Z\r\nUID:0-f\r\nEND:VEVENT\r\n") := by
  decide +kernel

/-- An event is pushed. -/
example : ∃ front new, c!"BEGIN:VCALENDAR\r\nVERSION:2.0\r\nPRODID:ICALENDAR-RS\r\nCALSCALE:GREGORIAN\r\nEND:VCALENDAR\r\n" =
      front ++ c!"END:VCALENDAR\r\n" ∧
    c!"BEGIN:VCALENDAR\r\nVERSION:2.0\r\nPRODID:ICALENDAR-RS\r\nCALSCALE:GREGORIAN\r\nBEGIN:VEVENT\r\nDTSTAMP:20260101T000000Z\r\nUID:0-f\r\nEND:VEVENT\r\nEND:VCALENDAR\r\n" =
      front ++ new ++ c!"END:VCALENDAR\r\n" ∧
    ∃ w', (CalComp.event ⟨.empty⟩).fmtWrite w' = .ok new :=
  push_is_local Calendar.new (.event ⟨.empty⟩) w0 (by decide +kernel) (by decide +kernel)

end Ical
