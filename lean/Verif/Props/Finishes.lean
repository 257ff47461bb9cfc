import Verif.Props.FoldExact
import Verif.Props.Writes
import Verif.Props.ContentLine

/-!
C60 for all calendars: exactly which calendars are always written.
-/

namespace Ical

open Spec

variable [Uni]

section
variable {P : Property → Prop}

theorem props_finish (hP : ∀ p, P p → ∀ w, World.Ok w → ∃ out, Property.fmtWrite p w = .ok out) {l : List Property}
    (hl : ∀ p ∈ l, P p) {w : World} (hw : World.Ok w) : ∃ out, fmtProps l w = .ok out := by
  induction l generalizing w with
  | nil => exact ⟨_, rfl⟩
  | cons p l ih =>
    obtain ⟨a, ha⟩ := hP p (hl p (by simp)) _ (worldOk_sub hw 0)
    obtain ⟨b, hb⟩ := ih (fun q hq => hl q (by simp [hq])) (worldOk_sub hw 1)
    exact ⟨a ++ b, by unfold fmtProps; rw [ha, hb]⟩

mutual
theorem other_finishes (hP : ∀ p, P p → ∀ w, World.Ok w → ∃ out, Property.fmtWrite p w = .ok out) (o : Other)
    (ho : AllProps P o) {w : World} (hw : World.Ok w) : ∃ out, o.fmtWrite w = .ok out := by
  match o, ho with
  | .mk name props multi comps, ho =>
    obtain ⟨hp, hm, hc⟩ := ho
    obtain ⟨ps, hps⟩ := props_finish hP (l := props.values) (by
      intro p hp'
      obtain ⟨x, hx, rfl⟩ := List.mem_map.1 hp'
      exact hp x hx) (worldOk_sub hw 0)
    obtain ⟨ms, hms⟩ := props_finish hP (l := multi.values.flatten) (by
      intro p hp'
      obtain ⟨g, hg, hpg⟩ := List.mem_flatten.1 hp'
      obtain ⟨x, hx, rfl⟩ := List.mem_map.1 hg
      exact hm x hx p hpg) (worldOk_sub hw 1)
    obtain ⟨cs, hcs⟩ := others_finish hP comps hc (worldOk_sub hw 2)
    unfold Other.fmtWrite
    simp only [hps, hms, hcs]
    exact ⟨_, rfl⟩
theorem others_finish (hP : ∀ p, P p → ∀ w, World.Ok w → ∃ out, Property.fmtWrite p w = .ok out) (l : List Other)
    (hl : AllPropss P l) {w : World} (hw : World.Ok w) : ∃ out, fmtOthers l w = .ok out := by
  match l, hl with
  | [], _ => exact ⟨[], by simp [fmtOthers]⟩
  | o :: l, hl =>
    obtain ⟨a, ha⟩ := other_finishes hP o hl.1 (worldOk_sub hw 0)
    obtain ⟨b, hb⟩ := others_finish hP l hl.2 (worldOk_sub hw 1)
    exact ⟨a ++ b, by unfold fmtOthers; rw [ha, hb]⟩
end

theorem comps_finish (hP : ∀ p, P p → ∀ w, World.Ok w → ∃ out, Property.fmtWrite p w = .ok out) (l : List CalComp)
    (hl : ∀ x ∈ l, AllProps P x.toOther) {w : World} (hw : World.Ok w) : ∃ out, fmtComps l w = .ok out := by
  induction l generalizing w with
  | nil => exact ⟨_, rfl⟩
  | cons x l ih =>
    obtain ⟨a, ha⟩ := other_finishes hP _ (hl x (by simp)) (worldOk_sub hw 0)
    obtain ⟨b, hb⟩ := ih (fun y hy => hl y (by simp [hy])) (worldOk_sub hw 1)
    exact ⟨a ++ b, by unfold fmtComps; rw [calComp_fmtWrite, ha, hb]⟩
end

section
variable {w : World}

theorem props_finished (hs : ∀ j, w.sub j = w) {l : List Property} {out : Str} (h : fmtProps l w = .ok out) :
    ∀ p ∈ l, ∃ o, p.fmtWrite w = .ok o := by
  induction l generalizing out with
  | nil => simp
  | cons p l ih =>
    unfold fmtProps at h
    rw [hs, hs] at h
    cases ha : p.fmtWrite w with
    | error e => simp only [ha] at h; cases h
    | ok a =>
      cases hb : fmtProps l w with
      | error e => simp only [ha, hb] at h; cases h
      | ok b =>
        intro q hq
        rcases List.mem_cons.1 hq with rfl | hq
        · exact ⟨a, ha⟩
        · exact ih hb q hq

mutual
theorem other_finished (hs : ∀ j, w.sub j = w) (o : Other) {out : Str} (h : o.fmtWrite w = .ok out) :
    AllProps (fun p => ∃ o, p.fmtWrite w = .ok o) o := by
  match o, h with
  | .mk name props multi comps, h =>
    unfold Other.fmtWrite at h
    simp only [hs] at h
    cases hps : fmtProps props.values w with
    | error e => simp only [hps] at h; cases h
    | ok ps =>
      cases hms : fmtProps multi.values.flatten w with
      | error e => simp only [hps, hms] at h; cases h
      | ok ms =>
        cases hcs : fmtOthers comps w with
        | error e => simp only [hps, hms, hcs] at h; cases h
        | ok cs =>
          refine ⟨?_, ?_, others_finished hs comps hcs⟩
          · intro x hx
            exact props_finished hs hps x.2 (List.mem_map.2 ⟨x, hx, rfl⟩)
          · intro x hx p hp
            exact props_finished hs hms p (List.mem_flatten.2 ⟨x.2, List.mem_map.2 ⟨x, hx, rfl⟩, hp⟩)
theorem others_finished (hs : ∀ j, w.sub j = w) (l : List Other) {out : Str} (h : fmtOthers l w = .ok out) :
    AllPropss (fun p => ∃ o, p.fmtWrite w = .ok o) l := by
  match l, h with
  | [], _ => trivial
  | o :: l, h =>
    unfold fmtOthers at h
    rw [hs, hs] at h
    cases ha : o.fmtWrite w with
    | error e => simp only [ha] at h; cases h
    | ok a =>
      cases hb : fmtOthers l w with
      | error e => simp only [ha, hb] at h; cases h
      | ok b => exact ⟨other_finished hs o ha, others_finished hs l hb⟩
end

theorem comps_finished (hs : ∀ j, w.sub j = w) {l : List CalComp} {out : Str} (h : fmtComps l w = .ok out) :
    ∀ x ∈ l, AllProps (fun p => ∃ o, p.fmtWrite w = .ok o) x.toOther := by
  induction l generalizing out with
  | nil => simp
  | cons y l ih =>
    unfold fmtComps at h
    rw [hs, hs] at h
    cases ha : y.fmtWrite w with
    | error e => simp only [ha] at h; cases h
    | ok a =>
      cases hb : fmtComps l w with
      | error e => simp only [ha, hb] at h; cases h
      | ok b =>
        intro x hx
        rcases List.mem_cons.1 hx with rfl | hx
        · rw [calComp_fmtWrite] at ha
          exact other_finished hs _ ha
        · exact ih hb x hx

theorem calendar_finished (hs : ∀ j, w.sub j = w) {c : Calendar} {out : Str} (h : c.fmtWrite w = .ok out) :
    EveryProp (fun p => ∃ o, p.fmtWrite w = .ok o) c := by
  unfold Calendar.fmtWrite at h
  rw [hs, hs] at h
  cases hps : fmtProps c.props w with
  | error e => simp only [hps] at h; cases h
  | ok ps =>
    cases hcs : fmtComps c.comps w with
    | error e => simp only [hps, hcs] at h; cases h
    | ok cs => exact ⟨props_finished hs hps, comps_finished hs hcs⟩
end

set_option linter.unusedSectionVars false in
mutual
theorem allProps_forall {ι : Type} {P : ι → Property → Prop} {Q : Property → Prop} (o : Other)
    (h : ∀ i, AllProps (P i) o) (hq : ∀ p, (∀ i, P i p) → Q p) : AllProps Q o := by
  match o, h with
  | .mk _ props multi comps, h =>
    exact ⟨fun x hx => hq _ fun i => (h i).1 x hx, fun x hx p hp => hq _ fun i => (h i).2.1 x hx p hp,
      allPropss_forall comps (fun i => (h i).2.2) hq⟩
theorem allPropss_forall {ι : Type} {P : ι → Property → Prop} {Q : Property → Prop} (l : List Other)
    (h : ∀ i, AllPropss (P i) l) (hq : ∀ p, (∀ i, P i p) → Q p) : AllPropss Q l := by
  match l, h with
  | [], _ => trivial
  | o :: l, h => exact ⟨allProps_forall o (fun i => (h i).1) hq, allPropss_forall l (fun i => (h i).2) hq⟩
end

omit [Uni] in
/-- the hash map of one property is iterated in a given order -/
theorem exists_order (params order : List (Str × Str)) (h : order.Perm params) :
    ∃ w : World, World.Ok w ∧ (∀ j, w.sub j = w) ∧ w.order [] params = order := by
  refine ⟨⟨fun _ => ⟨⟨⟨2026, 1, 1⟩, 0, 0, 0, 0⟩⟩, fun _ => c!"0-f", fun _ l => if l = params then order else l⟩, ?_,
    fun _ => rfl, if_pos rfl⟩
  refine ⟨?_, ?_, ?_⟩
  · intro _ l
    dsimp only
    split
    · rename_i e; subst e; exact h
    · exact List.Perm.refl l
  · intro _; dsimp only; decide
  · intro _; dsimp only; decide

omit [Uni] in
theorem paramForms_unique {l : List (Str × Str)} {a b : List Str} (ha : ParamForms l a) (hb : ParamForms l b) : a = b := by
  induction l generalizing a b with
  | nil => cases a <;> cases b <;> simp_all [ParamForms]
  | cons x l ih =>
    cases a with
    | nil => simp [ParamForms] at ha
    | cons y a =>
      cases b with
      | nil => simp [ParamForms] at hb
      | cons z b =>
        rw [ih ha.2 hb.2]
        have h1 := ha.1
        have h2 := hb.1
        unfold ParamForm at h1 h2
        rw [h1, h2]

theorem line_of_order {p : Property} {params : List (Str × Str)} {forms : List Str} {w : World}
    (hf : ParamForms params forms) (hw : w.order [] p.params = params) :
    p.line w = p.key ++ forms.flatten ++ ':' :: rawText p := by
  obtain ⟨forms', h1, h2⟩ := paramsText_forms params
  obtain rfl := paramForms_unique hf h1
  have hv : rawText p = p.valueText := by
    unfold rawText
    split
    · rename_i ht
      rw [valueText_of_text ((isText_iff p).1 ht), escapeText_eq]
      exact congrArg (fun f => p.val.flatMap f) (funext escaped_eq)
    · rename_i ht
      rw [valueText_of_not (fun hc => ht ((isText_iff p).2 hc))]
  unfold Property.line
  rw [hw, h2, hv]
  simp

/-- Every line the property can be written as, the order of its parameters being left to the hash map, can be folded. -/
def AlwaysFolds (p : Property) : Prop := ∀ line, ContentLine p line → ∃ ps, Pieces line 0 75 ps

/-- **C60 (for all calendars).** Serializing a calendar finishes, without panic, whatever the clock, the UUIDs and the hash maps
do, exactly if every property of it and its components can be folded. -/
theorem writing_finishes_iff (c : Calendar) :
    (∀ w, World.Ok w → ∃ out, c.fmtWrite w = .ok out) ↔ EveryProp AlwaysFolds c := by
  constructor
  · intro H
    have key : ∀ w : { w : World // World.Ok w ∧ ∀ j, w.sub j = w },
        EveryProp (fun p => ∃ o, p.fmtWrite w.1 = .ok o) c := by
      intro ⟨w, hw, hs⟩
      obtain ⟨out, h⟩ := H w hw
      exact calendar_finished hs h
    have hq : ∀ p : Property, (∀ w : { w : World // World.Ok w ∧ ∀ j, w.sub j = w }, ∃ o, p.fmtWrite w.1 = .ok o) →
        AlwaysFolds p := by
      rintro p hp line ⟨params, forms, h1, h2, rfl⟩
      obtain ⟨w, hw, hs, ho⟩ := exists_order p.params params h1
      obtain ⟨o, h⟩ := hp ⟨w, hw, hs⟩
      unfold Property.fmtWrite at h
      simp only [line_of_order h2 ho] at h
      cases hf : foldLine (p.key ++ forms.flatten ++ ':' :: rawText p) with
      | error e => simp only [hf] at h; cases h
      | ok s =>
        obtain ⟨ps, h3, -⟩ := (fold_exact _ _).1 hf
        exact ⟨ps, h3⟩
    exact ⟨fun p hp => hq p fun w => (key w).1 p hp, fun x hx => allProps_forall _ (fun w => (key w).2 x hx) hq⟩
  · intro H w hw
    have hP : ∀ p, AlwaysFolds p → ∀ w, World.Ok w → ∃ out, Property.fmtWrite p w = .ok out := by
      intro p hp w hw
      obtain ⟨ps, hps⟩ := hp _ (line_contentLine p hw)
      have := (fold_exact (p.line w) _).2 ⟨ps, hps, rfl⟩
      exact ⟨_, by unfold Property.fmtWrite; rw [this]⟩
    obtain ⟨ps, hps⟩ := props_finish hP H.1 (worldOk_sub hw 0)
    obtain ⟨cs, hcs⟩ := comps_finish hP c.comps H.2 (worldOk_sub hw 1)
    unfold Calendar.fmtWrite
    simp only [hps, hcs]
    exact ⟨_, rfl⟩

/-- a calendar with a line of two-octet characters and spaces is always written, one with the line of `fold_diverges` is not -/
example : EveryProp AlwaysFolds ⟨[⟨c!"X-A", List.replicate 60 'é' ++ List.replicate 20 ' ', []⟩], []⟩ ∧
    ¬ EveryProp AlwaysFolds
      ⟨[⟨c!"SUMMARY", (List.replicate 60 [Char.ofNat 0xA0, 'é']).flatten, []⟩], []⟩ := by
  constructor
  · refine ⟨?_, by simp⟩
    intro p hp
    obtain rfl := List.mem_singleton.1 hp
    rintro line ⟨params, forms, h1, h2, rfl⟩
    obtain rfl : params = [] := List.Perm.eq_nil h1
    cases forms with
    | cons => simp [ParamForms] at h2
    | nil =>
      have h : ∃ out, foldLine (c!"X-A" ++ ([] : List Str).flatten ++ ':' ::
          rawText ⟨c!"X-A", List.replicate 60 'é' ++ List.replicate 20 ' ', []⟩) = .ok out :=
        ⟨joinFold [c!"X-A:" ++ List.replicate 35 'é', List.replicate 25 'é' ++ List.replicate 20 ' '],
          by decide +kernel⟩
      obtain ⟨out, h⟩ := h
      obtain ⟨ps, h3, -⟩ := (fold_exact _ _).1 h
      exact ⟨ps, h3⟩
  · rintro ⟨h, -⟩
    obtain ⟨ps, hp⟩ := h _ (List.mem_singleton.2 rfl) (c!"SUMMARY" ++ ([] : List Str).flatten ++ ':' ::
      rawText ⟨c!"SUMMARY", (List.replicate 60 [Char.ofNat 0xA0, 'é']).flatten, []⟩) ⟨[], [], List.Perm.refl _, trivial, rfl⟩
    have h1 := (fold_exact _ _).2 ⟨ps, hp, rfl⟩
    have h2 : foldLine (c!"SUMMARY" ++ ([] : List Str).flatten ++ ':' ::
      rawText ⟨c!"SUMMARY", (List.replicate 60 [Char.ofNat 0xA0, 'é']).flatten, []⟩) = .error .hang := by decide +kernel
    rw [h1] at h2
    cases h2

end Ical
