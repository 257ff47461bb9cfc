import Verif.Spec.Injected
import Verif.Props.Nesting
import Verif.Props.Finishes

/-!
C67 for all calendars: exactly which calendars are written with BEGIN and END lines that nobody added.
-/

namespace Ical

open Nom Spec

theorem textLines_ne (s : Str) : textLines s ≠ [] := by
  fun_cases textLines s <;> simp_all

theorem textLines_append (a : Str) : ∃ ls, ∀ b, textLines (a ++ '\n' :: b) = ls ++ textLines b := by
  fun_induction textLines a with
  | case1 => exact ⟨[[]], fun b => by simp [textLines]⟩
  | case2 s ih =>
    obtain ⟨ls, h⟩ := ih
    exact ⟨[] :: ls, fun b => by simp [textLines, h]⟩
  | case3 s ih =>
    obtain ⟨ls, h⟩ := ih
    exact ⟨[] :: ls, fun b => by simp [textLines, h]⟩
  | case4 c s h1 h2 e ih => exact absurd e (textLines_ne s)
  | case5 c s h1 h2 l ls e ih =>
    obtain ⟨ls', h⟩ := ih
    cases ls' with
    | nil =>
      have := h ['\n']
      exfalso
      have h3 := h []
      have h4 : (textLines (s ++ ['\n'])).length = 1 := by rw [h3]; rfl
      have h5 : ∀ u : Str, 2 ≤ (textLines (u ++ ['\n'])).length := by
        intro u
        fun_induction textLines u with
        | case1 => decide
        | case2 s ih => simp only [List.cons_append, textLines, List.length_cons]; omega
        | case3 s ih => simp only [List.cons_append, textLines, List.length_cons]; omega
        | case4 c s h1 h2 e ih => exact absurd e (textLines_ne s)
        | case5 c s h1 h2 l ls e ih =>
          by_cases hc : c = '\r' ∧ s = []
          · obtain ⟨rfl, rfl⟩ := hc
            decide
          · rw [List.cons_append, textLines]
            · split
              · rename_i e'; exact absurd e' (textLines_ne _)
              · rename_i e'; rw [e'] at ih; simpa using ih
            · exact fun h => h1 h
            · rintro s' rfl e'
              cases s with
              | nil => exact hc ⟨rfl, rfl⟩
              | cons d s =>
                simp only [List.cons_append, List.cons.injEq] at e'
                exact h2 s rfl (by rw [e'.1])
      have := h5 s
      omega
    | cons l' ls' =>
      by_cases hc : c = '\r' ∧ s = []
      · obtain ⟨rfl, rfl⟩ := hc
        exact ⟨[[]], fun b => by simp [textLines]⟩
      · refine ⟨(c :: l') :: ls', fun b => ?_⟩
        rw [List.cons_append, textLines]
        · rw [h b]
          rfl
        · exact fun h => h1 h
        · rintro s' rfl e'
          cases s with
          | nil => exact hc ⟨rfl, rfl⟩
          | cons d s =>
            simp only [List.cons_append, List.cons.injEq] at e'
            exact h2 s rfl (by rw [e'.1])

theorem keywordLines_textLines (a b : Str) :
    keywordLines (textLines (a ++ '\n' :: b)) = keywordLines (textLines (a ++ ['\n'])) ++ keywordLines (textLines b) := by
  obtain ⟨ls, h⟩ := textLines_append a
  rw [h, h, keywordLines_append, keywordLines_append]
  rw [show keywordLines (textLines []) = [] by decide, List.append_nil]

/-- a text of whole lines -/
def Closed (s : Str) : Prop := s = [] ∨ ∃ r, s = r ++ crlf

theorem textKeywords_append {a b : Str} (ha : Closed a) (hb : NoIndent b) :
    textKeywords (a ++ b) = textKeywords a ++ textKeywords b := by
  rcases ha with rfl | ⟨r, rfl⟩
  · rfl
  · unfold textKeywords
    rw [List.append_assoc]
    have h1 := unfoldSpec_break r .crlf b hb
    have h2 := unfoldSpec_break r .crlf [] noIndent_nil
    simp only [Break.text] at h1 h2
    rw [show crlf = ['\r', '\n'] from rfl, h1]
    rw [List.append_nil] at h2
    rw [h2]
    have := keywordLines_textLines (unfoldSpec r ++ ['\r']) (unfoldSpec b)
    simpa [unfoldSpec] using this

theorem closed_append {a b : Str} (ha : Closed a) (hb : Closed b) : Closed (a ++ b) := by
  rcases hb with rfl | ⟨r, rfl⟩
  · simpa using ha
  · exact .inr ⟨a ++ r, by simp⟩

theorem noIndent_append {a b : Str} (ha : NoIndent a) (hb : NoIndent b) : NoIndent (a ++ b) := by
  cases a with
  | nil => exact hb
  | cons c a => simpa [NoIndent] using ha

/-- a text with at least the given BEGIN and END lines, and with exactly these if and only if `G` -/
structure Shape (out : Str) (ks : List (Bool × Str)) (G : Prop) : Prop where
  closed : Closed out
  noIndent : NoIndent out
  least : ks.length ≤ (textKeywords out).length
  only : G → textKeywords out = ks
  more : (textKeywords out).length ≤ ks.length → G

theorem shape_append {a b : Str} {ka kb : List (Bool × Str)} {G H : Prop} (ha : Shape a ka G) (hb : Shape b kb H) :
    Shape (a ++ b) (ka ++ kb) (G ∧ H) := by
  have e := textKeywords_append ha.closed hb.noIndent
  have h1 := ha.least
  have h2 := hb.least
  refine ⟨closed_append ha.closed hb.closed, noIndent_append ha.noIndent hb.noIndent, ?_, ?_, ?_⟩
  · rw [e, List.length_append, List.length_append]; omega
  · rintro ⟨g, h⟩
    rw [e, ha.only g, hb.only h]
  · rw [e, List.length_append, List.length_append]
    intro h
    exact ⟨ha.more (by omega), hb.more (by omega)⟩

theorem shape_fixed {out : Str} {ks : List (Bool × Str)} (h1 : Closed out) (h2 : NoIndent out)
    (h3 : textKeywords out = ks) : Shape out ks True :=
  ⟨h1, h2, by rw [h3]; exact Nat.le_refl _, fun _ => h3, fun _ => trivial⟩

theorem shape_nil : Shape [] [] True := shape_fixed (.inl rfl) noIndent_nil (by decide)

theorem textLines_line {l : Str} (h : NoLf l) : textLines (l ++ crlf) = [l, []] := by
  induction l with
  | nil => decide
  | cons c l ih =>
    simp only [NoLf, List.mem_cons, not_or] at h
    rw [List.cons_append, textLines, ih h.2]
    · exact fun e => h.1 e.symm
    · rintro s' rfl e'
      cases l with
      | nil => simp [crlf] at e'
      | cons d l =>
        simp only [List.cons_append, List.cons.injEq] at e'
        exact h.2 (by rw [e'.1]; simp)

theorem textKeywords_line {l : Str} (h : NoLf l) : textKeywords (l ++ crlf) = keywordLines [l] := by
  unfold textKeywords
  have := unfold_raw (markerFree_of_noLf h) .crlf noIndent_nil
  simp only [Break.text, List.append_nil, unfoldSpec] at this
  rw [show crlf = ['\r', '\n'] from rfl, this, ← show crlf = ['\r', '\n'] from rfl, textLines_line h]
  rw [show [l, ([] : Str)] = [l] ++ [[]] from rfl, keywordLines_append]
  rw [show keywordLines [[]] = [] by decide, List.append_nil]

/-- a line of the writer's own -/
theorem shape_line {l : Str} (h : NoLf l) (hi : NoIndent l) : Shape (l ++ crlf) (keywordLines [l]) True :=
  shape_fixed (.inr ⟨l, rfl⟩) (noIndent_append hi (noIndent_cons (by decide) (by decide))) (textKeywords_line h)

theorem shape_generated {b : Bool} {k v : Str} (hk : NoLf k) (hi : NoIndent (k ++ v))
    (h1 : afterKeyword c!"begin:" (k ++ v) = none) (h2 : afterKeyword c!"end:" (k ++ v) = none) (hv : NoLf v) :
    Shape (if b then [] else k ++ v ++ crlf) [] True := by
  split
  · exact shape_nil
  · have h := shape_line (l := k ++ v) (by
      unfold NoLf at *
      simp only [List.mem_append, not_or]
      exact ⟨hk, hv⟩) hi
    rwa [(neutral_line h1 h2).2] at h

theorem shape_component {name body : Str} {ks : List (Bool × Str)} {G : Prop} (hn : NoLf name) (hb : Shape body ks G) :
    Shape (c!"BEGIN:" ++ name ++ crlf ++ body ++ (c!"END:" ++ name ++ crlf))
      ((true, name) :: (ks ++ [(false, name)])) G := by
  have k1 : keywordLines [c!"BEGIN:" ++ name] = [(true, name)] := by
    simp [keywordLines, afterKeyword, lowerAscii]
  have k2 : keywordLines [c!"END:" ++ name] = [(false, name)] := by
    simp [keywordLines, afterKeyword, lowerAscii]
  have e1 := shape_line (l := c!"BEGIN:" ++ name) (by simpa [NoLf] using hn) (noIndent_cons (by decide) (by decide))
  have e2 := shape_line (l := c!"END:" ++ name) (by simpa [NoLf] using hn) (noIndent_cons (by decide) (by decide))
  rw [k1] at e1
  rw [k2] at e2
  have := shape_append (shape_append e1 hb) e2
  simpa using this

variable [Uni]

namespace Spec

/-- However the parameters of the property are ordered, its text has no BEGIN or END line. -/
def Harmless (p : Property) : Prop := ∀ w, World.Ok w → ∀ t, p.fmtWrite w = .ok t → textKeywords t = []

end Spec

theorem shape_property {p : Property} (hp : NoIndent p.key) {w : World} {out : Str} (h : p.fmtWrite w = .ok out) :
    Shape out [] (textKeywords out = []) := by
  have h0 := h
  unfold Property.fmtWrite at h
  cases hf : foldLine (p.line w) with
  | error e => rw [hf] at h; cases h
  | ok s =>
    rw [hf] at h
    cases h
    refine ⟨.inr ⟨s, rfl⟩, ?_, Nat.zero_le _, id, fun h => List.length_eq_zero_iff.1 (Nat.le_zero.1 h)⟩
    obtain ⟨q, qs, h1, rfl, h3, -⟩ := fold_pieces _ _ hf
    cases q with
    | nil =>
      cases qs with
      | nil => exact noIndent_cons (by decide) (by decide)
      | cons => exact noIndent_cons (by decide) (by decide)
    | cons c q =>
      have hc : (p.line w).head? = some c := by rw [h1]; rfl
      have : c ≠ ' ' ∧ c ≠ '\t' := by
        unfold Property.line at hc
        cases hk : p.key with
        | nil =>
          rw [hk] at hc
          cases hw : w.order [] p.params with
          | nil =>
            rw [hw] at hc
            simp [paramsText] at hc
            subst hc; decide
          | cons x l =>
            rw [hw] at hc
            simp [paramsText] at hc
            subst hc; decide
        | cons d k =>
          rw [hk] at hc hp
          simp at hc
          subst hc
          simpa [NoIndent] using hp
      cases qs <;> exact noIndent_cons this.1 this.2

/-- in every part the same world -/
def Const (w : World) : Prop := ∀ j, w.sub j = w

/-- the text of the property in this world has no BEGIN or END line -/
def HarmlessIn (w : World) (p : Property) : Prop := ∀ t, p.fmtWrite w = .ok t → textKeywords t = []

theorem shape_props {l : List Property} (hl : ∀ p ∈ l, NoIndent p.key) {w : World} (hw : World.Ok w) {out : Str}
    (h : fmtProps l w = .ok out) : ∃ G, Shape out [] G ∧ ((∀ p ∈ l, Harmless p) → G) ∧
      (Const w → G → ∀ p ∈ l, HarmlessIn w p) := by
  induction l generalizing w out with
  | nil => cases h; exact ⟨True, shape_nil, fun _ => trivial, fun _ _ => by simp⟩
  | cons p l ih =>
    unfold fmtProps at h
    cases ha : p.fmtWrite (w.sub 0) with
    | error e => rw [ha] at h; cases h
    | ok a =>
      rw [ha] at h
      cases hb : fmtProps l (w.sub 1) with
      | error e => rw [hb] at h; cases h
      | ok b =>
        rw [hb] at h
        cases h
        obtain ⟨G, h1, h2, h3⟩ := ih (fun q hq => hl q (by simp [hq])) (worldOk_sub hw 1) hb
        refine ⟨_, shape_append (shape_property (hl p (by simp)) ha) h1, ?_, ?_⟩
        · intro hh
          exact ⟨hh p (by simp) _ (worldOk_sub hw 0) a ha, h2 fun q hq => hh q (by simp [hq])⟩
        · rintro hc ⟨g1, g2⟩ q hq
          rw [hc] at ha
          rw [hc 1] at h3
          rcases List.mem_cons.1 hq with rfl | hq
          · intro t ht
            rw [ha] at ht
            cases ht
            exact g1
          · exact h3 hc g2 q hq

mutual
theorem shape_other (o : Other) (ho : NamesPlain o) (hk : AllProps (fun p => NoIndent p.key) o) {w : World}
    (hw : World.Ok w) {out : Str} (h : o.fmtWrite w = .ok out) : ∃ G, Shape out (skeleton o) G ∧
      (AllProps Harmless o → G) ∧ (Const w → G → AllProps (HarmlessIn w) o) := by
  match o, ho, hk with
  | .mk name props multi comps, ho, hk =>
    obtain ⟨hn, hc⟩ := ho
    obtain ⟨hp, hm, hcc⟩ := hk
    unfold Other.fmtWrite at h
    cases hps : fmtProps props.values (w.sub 0) with
    | error e => simp only [hps] at h; cases h
    | ok ps =>
      cases hms : fmtProps multi.values.flatten (w.sub 1) with
      | error e => simp only [hps, hms] at h; cases h
      | ok ms =>
        cases hcs : fmtOthers comps (w.sub 2) with
        | error e => simp only [hps, hms, hcs] at h; cases h
        | ok cs =>
          simp only [hps, hms, hcs] at h
          cases h
          obtain ⟨G1, a1, a2, a3⟩ := shape_props (by
            intro p hp'
            obtain ⟨x, hx, rfl⟩ := List.mem_map.1 hp'
            exact hp x hx) (worldOk_sub hw 0) hps
          obtain ⟨G2, b1, b2, b3⟩ := shape_props (by
            intro p hp'
            obtain ⟨g, hg, hpg⟩ := List.mem_flatten.1 hp'
            obtain ⟨x, hx, rfl⟩ := List.mem_map.1 hg
            exact hm x hx p hpg) (worldOk_sub hw 1) hms
          obtain ⟨G3, c1, c2, c3⟩ := shape_others comps hc hcc (worldOk_sub hw 2) hcs
          have b4 : Shape (if props.containsKey c!"DTSTAMP" then [] else c!"DTSTAMP:" ++ fmtUtc (w.now []) ++ crlf)
              [] True :=
            shape_generated (by decide) (noIndent_cons (by decide) (by decide)) (by simp [afterKeyword, lowerAscii])
              (by simp [afterKeyword, lowerAscii]) (fmtUtc_not_mem (w.now []) (by decide) (by decide))
          have b5 : Shape (if props.containsKey c!"UID" then [] else c!"UID:" ++ w.uuid [] ++ crlf) [] True :=
            shape_generated (by decide) (noIndent_cons (by decide) (by decide)) (by simp [afterKeyword, lowerAscii])
              (by simp [afterKeyword, lowerAscii]) (uuid_not_mem hw (by decide) [])
          have := shape_component hn (shape_append (shape_append (shape_append (shape_append b4 a1) b5) b1) c1)
          refine ⟨_, by simpa only [List.append_assoc, List.nil_append, skeleton] using this, ?_, ?_⟩
          · rintro ⟨k1, k2, k3⟩
            refine ⟨⟨⟨⟨trivial, a2 ?_⟩, trivial⟩, b2 ?_⟩, c2 k3⟩
            · intro p hp'
              obtain ⟨x, hx, rfl⟩ := List.mem_map.1 hp'
              exact k1 x hx
            · intro p hp'
              obtain ⟨g, hg, hpg⟩ := List.mem_flatten.1 hp'
              obtain ⟨x, hx, rfl⟩ := List.mem_map.1 hg
              exact k2 x hx p hpg
          · rintro hcw ⟨⟨⟨⟨-, g1⟩, -⟩, g2⟩, g3⟩
            rw [hcw] at a3 b3 c3
            refine ⟨?_, ?_, c3 hcw g3⟩
            · intro x hx
              exact a3 hcw g1 x.2 (List.mem_map.2 ⟨x, hx, rfl⟩)
            · intro x hx p hp
              exact b3 hcw g2 p (List.mem_flatten.2 ⟨x.2, List.mem_map.2 ⟨x, hx, rfl⟩, hp⟩)
theorem shape_others (l : List Other) (hl : NamesPlains l) (hk : AllPropss (fun p => NoIndent p.key) l) {w : World}
    (hw : World.Ok w) {out : Str} (h : fmtOthers l w = .ok out) : ∃ G, Shape out (skeletons l) G ∧
      (AllPropss Harmless l → G) ∧ (Const w → G → AllPropss (HarmlessIn w) l) := by
  match l, hl, hk with
  | [], _, _ =>
    simp only [fmtOthers] at h
    cases h
    exact ⟨True, shape_nil, fun _ => trivial, fun _ _ => trivial⟩
  | o :: l, hl, hk =>
    obtain ⟨ho, hl⟩ := hl
    unfold fmtOthers at h
    cases ha : o.fmtWrite (w.sub 0) with
    | error e => rw [ha] at h; cases h
    | ok a =>
      rw [ha] at h
      cases hb : fmtOthers l (w.sub 1) with
      | error e => rw [hb] at h; cases h
      | ok b =>
        rw [hb] at h
        cases h
        obtain ⟨G1, a1, a2, a3⟩ := shape_other o ho hk.1 (worldOk_sub hw 0) ha
        obtain ⟨G2, b1, b2, b3⟩ := shape_others l hl hk.2 (worldOk_sub hw 1) hb
        refine ⟨_, shape_append a1 b1, fun hh => ⟨a2 hh.1, b2 hh.2⟩, ?_⟩
        rintro hc ⟨g1, g2⟩
        rw [hc] at a3 b3
        exact ⟨a3 hc g1, b3 hc g2⟩
end

theorem shape_comps (l : List CalComp) (hl : ∀ x ∈ l, NamesPlain x.toOther)
    (hk : ∀ x ∈ l, AllProps (fun p => NoIndent p.key) x.toOther) {w : World} (hw : World.Ok w) {out : Str}
    (h : fmtComps l w = .ok out) : ∃ G, Shape out (l.flatMap (fun x => skeleton x.toOther)) G ∧
      ((∀ x ∈ l, AllProps Harmless x.toOther) → G) ∧
      (Const w → G → ∀ x ∈ l, AllProps (HarmlessIn w) x.toOther) := by
  induction l generalizing w out with
  | nil => cases h; exact ⟨True, shape_nil, fun _ => trivial, fun _ _ => by simp⟩
  | cons x l ih =>
    unfold fmtComps at h
    rw [calComp_fmtWrite] at h
    cases ha : x.toOther.fmtWrite (w.sub 0) with
    | error e => rw [ha] at h; cases h
    | ok a =>
      rw [ha] at h
      cases hb : fmtComps l (w.sub 1) with
      | error e => rw [hb] at h; cases h
      | ok b =>
        rw [hb] at h
        cases h
        obtain ⟨G1, a1, a2, a3⟩ := shape_other x.toOther (hl x (by simp)) (hk x (by simp)) (worldOk_sub hw 0) ha
        obtain ⟨G2, b1, b2, b3⟩ := ih (fun y hy => hl y (by simp [hy])) (fun y hy => hk y (by simp [hy]))
          (worldOk_sub hw 1) hb
        refine ⟨_, shape_append a1 b1, fun hh => ⟨a2 (hh x (by simp)), b2 fun y hy => hh y (by simp [hy])⟩, ?_⟩
        rintro hc ⟨g1, g2⟩ y hy
        rw [hc] at a3 b3
        rcases List.mem_cons.1 hy with rfl | hy
        · exact a3 hc g1
        · exact b3 hc g2 y hy

theorem shape_calendar (c : Calendar) (hn : ∀ x ∈ c.comps, NamesPlain x.toOther)
    (hk : EveryProp (fun p => NoIndent p.key) c) {w : World} (hw : World.Ok w) {out : Str}
    (h : c.fmtWrite w = .ok out) : ∃ G, Shape out (calendarSkeleton c) G ∧ (EveryProp Harmless c → G) ∧
      (Const w → G → EveryProp (HarmlessIn w) c) := by
  unfold Calendar.fmtWrite at h
  cases hps : fmtProps c.props (w.sub 0) with
  | error e => simp only [hps] at h; cases h
  | ok ps =>
    cases hcs : fmtComps c.comps (w.sub 1) with
    | error e => simp only [hps, hcs] at h; cases h
    | ok cs =>
      simp only [hps, hcs] at h
      cases h
      obtain ⟨G1, a1, a2, a3⟩ := shape_props hk.1 (worldOk_sub hw 0) hps
      obtain ⟨G2, b1, b2, b3⟩ := shape_comps _ hn hk.2 (worldOk_sub hw 1) hcs
      have := shape_component (name := c!"VCALENDAR") (by decide) (shape_append a1 b1)
      refine ⟨G1 ∧ G2, by simpa [calendarSkeleton, crlf] using this, fun hh => ⟨a2 hh.1, b2 hh.2⟩, ?_⟩
      rintro hc ⟨g1, g2⟩
      rw [hc] at a3 b3
      exact ⟨a3 hc g1, b3 hc g2⟩

/-- **C67 (for all calendars).** A calendar that can be written is always written with the BEGIN and END lines of its
components and no others, if and only if none of its properties alone is ever written with such a line. -/
theorem no_injection_iff (c : Calendar) (hn : ∀ x ∈ c.comps, NamesPlain x.toOther)
    (hk : EveryProp (fun p => NoIndent p.key) c) (hf : ∀ w, World.Ok w → ∃ out, c.fmtWrite w = .ok out) :
    (∀ w, World.Ok w → ∀ out, c.fmtWrite w = .ok out → textKeywords out = calendarSkeleton c) ↔
      EveryProp Harmless c := by
  constructor
  · intro H
    have key : ∀ w : { w : World // World.Ok w ∧ ∀ j, w.sub j = w }, EveryProp (HarmlessIn w.1) c := by
      intro ⟨w, hw, hs⟩
      obtain ⟨out, h⟩ := hf w hw
      obtain ⟨G, h1, -, h3⟩ := shape_calendar c hn hk hw h
      refine h3 hs (h1.more ?_)
      rw [H w hw out h]
      exact Nat.le_refl _
    have hq : ∀ p : Property, (∀ w : { w : World // World.Ok w ∧ ∀ j, w.sub j = w }, HarmlessIn w.1 p) →
        Harmless p := by
      intro p hp w hw t ht
      obtain ⟨w', hw', hs, ho⟩ := exists_order p.params (w.order [] p.params) (hw.order [] p.params)
      refine hp ⟨w', hw', hs⟩ t ?_
      unfold Property.fmtWrite Property.line at ht ⊢
      rw [ho]
      exact ht
    exact ⟨fun p hp => hq p fun w => (key w).1 p hp, fun x hx => allProps_forall _ (fun w => (key w).2 x hx) hq⟩
  · intro H w hw out h
    obtain ⟨G, h1, h2, -⟩ := shape_calendar c hn hk hw h
    exact h1.only (h2 H)

/-- **C67.** A property without fold markers in its lines is never written with a BEGIN or END line if and only if no line
of what it is made of is one. -/
theorem harmless_iff (p : Property) (hm : ∀ line, ContentLine p line → MarkerFree line) (hf : AlwaysFolds p) :
    Harmless p ↔ ∀ line, ContentLine p line → keywordLines (textLines (line ++ c!"\r\n")) = [] := by
  have key : ∀ line t, MarkerFree line → foldLine line = .ok t →
      textKeywords (t ++ crlf) = keywordLines (textLines (line ++ c!"\r\n")) := by
    intro line t h1 h2
    unfold textKeywords
    have := unfold_line h1 h2 noIndent_nil
    simp only [List.append_nil, unfoldSpec] at this
    rw [this]
  constructor
  · rintro H line hl
    obtain ⟨ps, hp⟩ := hf line hl
    have h1 := (fold_exact _ _).2 ⟨ps, hp, rfl⟩
    have h2 := hm line hl
    obtain ⟨params, forms, h3, h4, rfl⟩ := hl
    obtain ⟨w, hw, hs, ho⟩ := exists_order p.params params h3
    rw [← key _ _ h2 h1]
    refine H w hw _ ?_
    unfold Property.fmtWrite
    rw [line_of_order h4 ho, h1]
  · intro H w hw t ht
    unfold Property.fmtWrite at ht
    cases hl : foldLine (p.line w) with
    | error e => rw [hl] at ht; cases ht
    | ok s =>
      rw [hl] at ht
      cases ht
      rw [key _ _ (hm _ (line_contentLine p hw)) hl]
      exact H _ (line_contentLine p hw)

omit [Uni] in
/-- the only line of a property without parameters that is not TEXT -/
theorem contentLine_bare {k v line : Str} (ht : ¬ IsText ⟨k, v, []⟩) (h : ContentLine ⟨k, v, []⟩ line) :
    line = k ++ ':' :: v := by
  obtain ⟨params, forms, h1, h2, rfl⟩ := h
  obtain rfl : params = [] := List.Perm.eq_nil h1
  cases forms with
  | cons => simp [ParamForms] at h2
  | nil => simp [rawText, ht]

/-- a calendar name with a line break that starts an event, and one with a line break that does not -/
example : ¬ @Harmless Uni.ascii ⟨c!"NAME", c!"x\nBEGIN:VEVENT", []⟩ ∧ @Harmless Uni.ascii ⟨c!"NAME", c!"x\nbegin", []⟩ := by
  letI : Uni := Uni.ascii
  have t1 : ∀ v, ¬ IsText ⟨c!"NAME", v, []⟩ := by
    intro v
    rw [isText_iff]
    show ¬ (Property.valueType ⟨c!"NAME", [], []⟩ = some .text)
    decide +kernel
  have f : ∀ v, foldLine (c!"NAME" ++ ':' :: v) = .ok (c!"NAME" ++ ':' :: v) → AlwaysFolds ⟨c!"NAME", v, []⟩ := by
    intro v h line hl
    rw [contentLine_bare (t1 v) hl]
    obtain ⟨ps, h3, -⟩ := (fold_exact _ _).1 h
    exact ⟨ps, h3⟩
  have m : ∀ v, MarkerFree (c!"NAME" ++ ':' :: v) → ∀ line, ContentLine ⟨c!"NAME", v, []⟩ line → MarkerFree line := by
    intro v h line hl
    rw [contentLine_bare (t1 v) hl]
    exact h
  constructor
  · rw [harmless_iff _ (m _ (by unfold MarkerFree; decide)) (f _ (by decide +kernel))]
    intro H
    have := H (c!"NAME" ++ ([] : List Str).flatten ++ ':' :: rawText ⟨c!"NAME", c!"x\nBEGIN:VEVENT", []⟩)
      ⟨[], [], List.Perm.refl _, trivial, rfl⟩
    rw [rawText, if_neg (t1 _)] at this
    revert this
    decide +kernel
  · rw [harmless_iff _ (m _ (by unfold MarkerFree; decide)) (f _ (by decide +kernel))]
    intro line hl
    rw [contentLine_bare (t1 _) hl]
    decide +kernel

end Ical
