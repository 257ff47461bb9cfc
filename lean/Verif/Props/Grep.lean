import Verif.Spec.Grep
import Verif.Props.Redact

/-!
# Looking for the lines of a name

C146: what a program finds that looks for lines that start with the name of a property.
-/

namespace Ical

open Nom Spec

variable [Uni]

/-- the text adds, of the first lines of the properties of the name, those that are found -/
def Found (k out : Str) (ps : List Property) : Prop :=
  ∃ pairs : List (Property × Str), pairs.map Prod.fst = ps.filter (·.key = k) ∧
    (∀ x ∈ pairs, FirstLine x.1 x.2 ∧ (Findable x.1 → NamedLine k x.2) ∧
      ((∀ line, ContentLine x.1 line → blen line ≤ 75) → NamedLine k x.2 ∧ WholeLine x.1 x.2)) ∧
    ∀ t, linesOfName k (out ++ t) = (pairs.map Prod.snd).filter (NamedLine k) ++ linesOfName k t

omit [Uni] in
theorem found_nil (k : Str) : Found k [] [] := ⟨[], rfl, by simp, fun _ => rfl⟩

omit [Uni] in
theorem found_append {k a b : Str} {pa pb : List Property} (ha : Found k a pa) (hb : Found k b pb) : Found k (a ++ b) (pa ++ pb) := by
  obtain ⟨la, a1, a2, a3⟩ := ha
  obtain ⟨lb, b1, b2, b3⟩ := hb
  refine ⟨la ++ lb, by rw [List.map_append, a1, b1, List.filter_append], fun x hx => (List.mem_append.1 hx).elim (a2 x) (b2 x), fun t => ?_⟩
  rw [List.append_assoc, a3, b3, List.map_append, List.filter_append, List.append_assoc]

omit [Uni] in
theorem linesOfName_line {k : Str} {x : Str} (h : NoLf x) (t : Str) :
    linesOfName k (x ++ crlf ++ t) = [x ++ crlf].filter (NamedLine k) ++ linesOfName k t := by
  have e : x ++ crlf ++ t = (x ++ ['\r']) ++ '\n' :: t := by simp [crlf]
  unfold linesOfName
  rw [e, cutLines_line (by simpa [NoLf] using h), ← List.filter_append]
  simp [crlf]

omit [Uni] in
theorem named_crlf {k : Str} (hr : '\r' ∉ k) (x : Str) : NamedLine k (x ++ crlf) ↔ NamedLine k x := by
  unfold NamedLine
  have e : x ++ crlf = x ++ '\r' :: ['\n'] := rfl
  rw [e, prefix_before (by simpa using hr), prefix_before (by simpa using hr)]

omit [Uni] in
/-- a line of another kind -/
theorem found_line {k : Str} (hr : '\r' ∉ k) {x : Str} (h : NoLf x) (hn : ¬ NamedLine k x) : Found k (x ++ crlf) [] := by
  refine ⟨[], rfl, by simp, fun t => ?_⟩
  rw [linesOfName_line h, List.filter_cons_of_neg (by simpa [named_crlf hr] using hn)]
  rfl

omit [Uni] in
theorem linesOfName_folded {k : Str} (hk : ∀ c ∈ k, c ≠ '\n' ∧ c ≠ ' ' ∧ c ≠ '\t') (q : Str) (qs : List Str)
    (hl : NoLf (q :: qs).flatten) (t : Str) :
    linesOfName k (joinFold (q :: qs) ++ crlf ++ t) = [q ++ crlf].filter (NamedLine k) ++ linesOfName k t := by
  induction qs generalizing q with
  | nil => rw [joinFold]; exact linesOfName_line (by simpa [NoLf] using hl) t
  | cons x qs ih =>
    have e : joinFold (q :: x :: qs) ++ crlf ++ t = q ++ crlf ++ (joinFold ((' ' :: x) :: qs) ++ crlf ++ t) := by
      cases qs <;> simp [joinFold, crlf]
    have hsp : ¬ NamedLine k ((' ' :: x) ++ crlf) := by
      intro hc
      have : NoIndent k := by
        constructor
        · intro h; exact (hk _ (List.mem_of_mem_head? (by rw [h]; rfl))).2.1 rfl
        · intro h; exact (hk _ (List.mem_of_mem_head? (by rw [h]; rfl))).2.2 rfl
      have := named_noIndent this hc
      simp [NoIndent] at this
    rw [e, linesOfName_line (by simp [NoLf] at hl ⊢; exact hl.1), ih (' ' :: x) (by simp [NoLf] at hl ⊢; exact hl.2),
      List.filter_cons_of_neg (a := (' ' :: x) ++ crlf) (by simpa using hsp)]
    rfl

theorem found_property {k : Str} (hk : KeyOk k) {p : Property} (hp : PropOk p) (hu : UnbrokenProp p) {w : World} (hw : World.Ok w)
    {out : Str} (h : p.fmtWrite w = .ok out) : Found k out [p] := by
  obtain ⟨hk0, -, hk2, hk3⟩ := name_plain hk.name
  obtain ⟨hp0, hp1, hp2, hp3⟩ := name_plain hp.key.name
  unfold Property.fmtWrite at h
  cases hf : foldLine (p.line w) with
  | error e => rw [hf] at h; cases h
  | ok s =>
    rw [hf] at h
    cases h
    have hpar := noLf_params (w.order [] p.params) (fun x hx => by
      have hx := (hw.order [] p.params).mem_iff.1 hx
      exact ⟨(name_plain (hp.params.name x hx)).2.1, (hu.params x hx).2⟩)
    have hn : NoLf (p.line w) := by
      have := valueText_unbroken hu
      unfold Property.line NoLf at *
      simp only [List.mem_append, not_or]
      exact ⟨⟨⟨hp1, hpar⟩, by decide⟩, this.2⟩
    have hshape : ∃ d t, (d = ':' ∨ d = ';') ∧ p.line w = p.key ++ d :: t := by
      unfold Property.line
      cases w.order [] p.params with
      | nil => exact ⟨':', p.valueText, .inl rfl, by simp [paramsText]⟩
      | cons x l =>
        obtain ⟨a, b⟩ := x
        exact ⟨';', _, .inr rfl, by simp only [paramsText, List.append_assoc, List.cons_append, List.nil_append]; rfl⟩
    obtain ⟨d, t, hd, hline⟩ := hshape
    have hcl := line_contentLine p hw
    have hwhole : NamedLine p.key (p.line w) := by rw [hline]; exact (named_key hp0 hp0 hd).2 rfl
    -- the first piece, and that it is long enough
    have hpieces : ∃ q qs, p.line w = (q :: qs).flatten ∧ s = joinFold (q :: qs) ∧ (Findable p → NamedLine p.key q) ∧
        (blen (p.line w) ≤ 75 → q = p.line w) := by
      by_cases hle : blen (p.line w) ≤ 75
      · rw [fold_short _ hle] at hf
        cases hf
        exact ⟨p.line w, [], by simp, rfl, fun _ => hwhole, fun _ => rfl⟩
      · by_cases hfi : Findable p
        · rcases hfi _ hcl with h | ⟨h1, h2, h3⟩
          · exact absurd h hle
          · rw [hline] at hf h3 hle
            cases t with
            | nil =>
              exfalso
              have hkb := blen_ascii (fun c hc => utf8Size_ascii (h1 c hc))
              apply hle
              have hd1 : blen [d] = 1 := by rcases hd with rfl | rfl <;> decide
              rw [blen_append, hkb, hd1]
              omega
            | cons x t =>
              have hx : isWhitespace x = false := h3 x (by simp)
              have e : p.key ++ d :: x :: t = (p.key ++ [d]) ++ x :: t := by simp
              rw [e] at hf
              obtain ⟨q, qs, e1, e2, e3⟩ := name_not_cut hf (by
                intro c hc
                rcases List.mem_append.1 hc with hc | hc
                · exact h1 c hc
                · rw [List.mem_singleton] at hc
                  subst hc
                  unfold IsAscii
                  rcases hd with rfl | rfl <;> decide) (by simp; omega) hx
              refine ⟨q, qs, by rw [hline, e, e1], e2, fun _ => ?_, fun h => absurd (by rw [← hline]; exact h) hle⟩
              rcases hd with rfl | rfl
              · exact .inl e3
              · exact .inr e3
        · obtain ⟨q, qs, e1, e2, -⟩ := fold_pieces _ _ hf
          exact ⟨q, qs, e1, e2, fun h => absurd h hfi, fun h => absurd h hle⟩
    obtain ⟨q, qs, e1, rfl, e3, e4⟩ := hpieces
    have hq : q <+: p.line w := by rw [e1, List.flatten_cons]; exact ⟨_, rfl⟩
    have hl := hn
    rw [e1] at hl
    by_cases hkey : p.key = k
    · subst hkey
      refine ⟨[(p, q ++ crlf)], by simp, ?_, fun t' => ?_⟩
      · intro x hx
        rw [List.mem_singleton] at hx
        subst hx
        refine ⟨⟨_, q, hcl, hq, rfl⟩, fun hfi => (named_crlf hk2 _).2 (e3 hfi), fun h75 => ?_⟩
        have := e4 (h75 _ hcl)
        subst this
        exact ⟨(named_crlf hk2 _).2 hwhole, _, hcl, rfl⟩
      · exact linesOfName_folded hk3 q qs hl t'
    · refine ⟨[], by simp [hkey], by simp, fun t' => ?_⟩
      rw [linesOfName_folded hk3 q qs hl t', List.filter_cons_of_neg]
      · rfl
      · rw [decide_eq_true_eq, named_crlf hk2]
        intro hc
        obtain ⟨u, hu⟩ := hq
        have := named_append u hc
        rw [hu, hline] at this
        exact hkey ((named_key hk0 hp0 hd).1 this)

theorem found_props {k : Str} (hk : KeyOk k) {l : List Property} (hl : ∀ p ∈ l, PropOk p ∧ UnbrokenProp p) {w : World} (hw : World.Ok w)
    {out : Str} (h : fmtProps l w = .ok out) : Found k out l := by
  induction l generalizing w out with
  | nil => cases h; exact found_nil k
  | cons p l ih =>
    unfold fmtProps at h
    cases ha : p.fmtWrite (w.sub 0) with
    | error e => rw [ha] at h; cases h
    | ok a =>
      rw [ha] at h
      cases hb : fmtProps l (w.sub 1) with
      | error e => rw [hb] at h; cases h
      | ok b =>
        rw [hb] at h
        cases h
        exact found_append (found_property hk (hl p (by simp)).1 (hl p (by simp)).2 (worldOk_sub hw 0) ha)
          (ih (fun q hq => hl q (by simp [hq])) (worldOk_sub hw 1) hb)

theorem found_component {k name body : Str} {ps : List Property} (hk : KeyOk k) (hn : IsName name) (hb : Found k body ps) :
    Found k (c!"BEGIN:" ++ name ++ crlf ++ body ++ (c!"END:" ++ name ++ crlf)) ps := by
  obtain ⟨-, -, hk2, -⟩ := name_plain hk.name
  have hn1 := (name_plain hn).2.1
  have e1 : Found k (c!"BEGIN:" ++ name ++ crlf) [] :=
    found_line hk2 (by simpa [NoLf] using hn1) (by simpa using keyword_not_named (b := c!"BEGIN:") (name := name) hk (.inl (by decide)) [])
  have e2 : Found k (c!"END:" ++ name ++ crlf) [] :=
    found_line hk2 (by simpa [NoLf] using hn1) (by simpa using keyword_not_named (b := c!"END:") (name := name) hk (.inr (by decide)) [])
  simpa using found_append (found_append e1 hb) e2

theorem found_generated {k key v : Str} {b : Bool} (hk : KeyOk k) (hkey : ':' ∉ key ∧ ';' ∉ key) (hn : NoLf (key ++ ':' :: v))
    (h : b = true ∨ k ≠ key) : Found k (if b then [] else key ++ ':' :: v ++ crlf) [] := by
  obtain ⟨hk0, -, hk2, -⟩ := name_plain hk.name
  split
  · exact found_nil k
  · rename_i hb
    refine found_line hk2 hn (fun hc => ?_)
    have := (named_key hk0 hkey (.inl rfl)).1 hc
    exact (h.resolve_left hb) this.symm

mutual
theorem found_other {k : Str} (hk : KeyOk k) (o : Other) (ho : OtherOk o) (hu : UnbrokenOther o)
    (hs : (k ≠ c!"DTSTAMP" ∧ k ≠ c!"UID") ∨ HasStamps o) {w : World} (hw : World.Ok w) {out : Str}
    (h : o.fmtWrite w = .ok out) : Found k out (propsWithin o) := by
  match o, ho, hu, hs with
  | .mk name props multi comps, ho, hu, hs =>
    obtain ⟨hn, hi, hc⟩ := ho
    obtain ⟨hu1, hu2, hu3⟩ := hu
    have hi := innerOk_writable hi
    simp only [HasStamps] at hs
    unfold Other.fmtWrite at h
    cases hps : fmtProps props.values (w.sub 0) with
    | error e => simp only [hps] at h; cases h
    | ok ps =>
      cases hms : fmtProps multi.values.flatten (w.sub 1) with
      | error e => simp only [hps, hms] at h; cases h
      | ok ms =>
        cases hcs : fmtOthers comps (w.sub 2) with
        | error e => simp only [hps, hms, hcs] at h; cases h
        | ok cs =>
          simp only [hps, hms, hcs] at h
          cases h
          have b1 : Found k ps props.values := by
            refine found_props hk ?_ (worldOk_sub hw 0) hps
            intro p hp
            refine ⟨(values_ok hi).1 p hp, ?_⟩
            obtain ⟨x, hx, rfl⟩ := List.mem_map.1 hp
            exact hu1 x hx
          have b2 : Found k ms multi.values.flatten := by
            refine found_props hk ?_ (worldOk_sub hw 1) hms
            intro p hp
            refine ⟨(values_ok hi).2 p hp, ?_⟩
            obtain ⟨g, hg, hpg⟩ := List.mem_flatten.1 hp
            obtain ⟨x, hx, rfl⟩ := List.mem_map.1 hg
            exact hu2 x hx p hpg
          have b3 := found_others hk comps hc hu3 (hs.imp id (·.2.2)) (worldOk_sub hw 2) hcs
          have b4 := found_generated (b := props.containsKey c!"DTSTAMP") (key := c!"DTSTAMP") (v := fmtUtc (w.now [])) hk (by decide)
            (by have := fmtUtc_not_mem (w.now []) (x := '\n') (by decide) (by decide)
                simpa [NoLf] using this)
            (hs.elim (fun h => .inr h.1) (fun h => .inl (containsKey_iff.2 h.1)))
          have b5 := found_generated (b := props.containsKey c!"UID") (key := c!"UID") (v := w.uuid []) hk (by decide)
            (by have := uuid_not_mem hw (x := '\n') (by decide) []
                simpa [NoLf] using this)
            (hs.elim (fun h => .inr h.2) (fun h => .inl (containsKey_iff.2 h.2.1)))
          have := found_component hk hn
            (found_append (found_append (found_append (found_append b4 b1) b5) b2) b3)
          have e1 : props.map Prod.snd = props.values := rfl
          have e2 : multi.map Prod.snd = multi.values := rfl
          rw [propsWithin, List.flatMap_def, e1, e2]
          simpa only [List.append_assoc, List.nil_append, List.append_nil, List.cons_append] using this

theorem found_others {k : Str} (hk : KeyOk k) (l : List Other) (hl : OthersOk l) (hu : UnbrokenOthers l)
    (hs : (k ≠ c!"DTSTAMP" ∧ k ≠ c!"UID") ∨ HaveStamps l) {w : World} (hw : World.Ok w) {out : Str}
    (h : fmtOthers l w = .ok out) : Found k out (propsWithinAll l) := by
  match l, hl, hu, hs with
  | [], _, _, _ =>
    simp only [fmtOthers] at h
    cases h
    rw [propsWithinAll]
    exact found_nil k
  | o :: l, hl, hu, hs =>
    obtain ⟨ho, hl⟩ := hl
    obtain ⟨hu1, hu2⟩ := hu
    simp only [HaveStamps] at hs
    unfold fmtOthers at h
    cases ha : o.fmtWrite (w.sub 0) with
    | error e => rw [ha] at h; cases h
    | ok a =>
      rw [ha] at h
      cases hb : fmtOthers l (w.sub 1) with
      | error e => rw [hb] at h; cases h
      | ok b =>
        rw [hb] at h
        cases h
        rw [propsWithinAll]
        exact found_append (found_other hk o ho hu1 (hs.imp id (·.1)) (worldOk_sub hw 0) ha)
          (found_others hk l hl hu2 (hs.imp id (·.2)) (worldOk_sub hw 1) hb)
end

theorem found_comps {k : Str} (hk : KeyOk k) (l : List CalComp) (hl : ∀ x ∈ l, CalCompOk x) (hu : ∀ x ∈ l, UnbrokenOther x.toOther)
    (hs : (k ≠ c!"DTSTAMP" ∧ k ≠ c!"UID") ∨ ∀ x ∈ l, HasStamps x.toOther) {w : World}
    (hw : World.Ok w) {out : Str} (h : fmtComps l w = .ok out) : Found k out (propsWithinAll (l.map CalComp.toOther)) := by
  induction l generalizing w out with
  | nil =>
    cases h
    rw [List.map_nil, propsWithinAll]
    exact found_nil k
  | cons x l ih =>
    unfold fmtComps at h
    rw [calComp_fmtWrite] at h
    cases ha : x.toOther.fmtWrite (w.sub 0) with
    | error e => rw [ha] at h; cases h
    | ok a =>
      rw [ha] at h
      cases hb : fmtComps l (w.sub 1) with
      | error e => rw [hb] at h; cases h
      | ok b =>
        rw [hb] at h
        cases h
        rw [List.map_cons, propsWithinAll]
        exact found_append
          (found_other hk _ (calCompOk_other (hl x (by simp))) (hu x (by simp)) (hs.imp id (fun h => h x (by simp))) (worldOk_sub hw 0) ha)
          (ih (fun y hy => hl y (by simp [hy])) (fun y hy => hu y (by simp [hy])) (hs.imp id (fun h y hy => h y (by simp [hy])))
            (worldOk_sub hw 1) hb)

theorem found_calendar {k : Str} (hk : KeyOk k) {c : Calendar} (hc : CalendarOk c) (hu : UnbrokenCal c)
    (hs : (k ≠ c!"DTSTAMP" ∧ k ≠ c!"UID") ∨ ∀ x ∈ c.comps, HasStamps x.toOther) {w : World} (hw : World.Ok w) {out : Str}
    (h : c.fmtWrite w = .ok out) : Found k out (calendarProps c) := by
  unfold Calendar.fmtWrite at h
  cases hps : fmtProps c.props (w.sub 0) with
  | error e => simp only [hps] at h; cases h
  | ok ps =>
    cases hcs : fmtComps c.comps (w.sub 1) with
    | error e => simp only [hps, hcs] at h; cases h
    | ok cs =>
      simp only [hps, hcs] at h
      cases h
      have b1 := found_props hk (fun p hp => ⟨hc.props p hp, hu.props p hp⟩) (worldOk_sub hw 0) hps
      have b2 := found_comps hk _ hc.comps hu.comps hs (worldOk_sub hw 1) hcs
      have := found_component (name := c!"VCALENDAR") hk (by simp [IsName, NameChar, isAlnum]) (found_append b1 b2)
      unfold calendarProps
      simpa only [List.append_assoc, List.append_nil, List.cons_append, List.nil_append] using this

/-- **C146.** The lines of a written file that start with the name, as it is, are beginnings of lines of properties of this
name, in order: nothing else is found. A property is missed only if its line is cut before the colon or semicolon. -/
theorem lines_of_name {k : Str} (hk : KeyOk k) {c : Calendar} (hc : CalendarOk c) (hu : UnbrokenCal c)
    (hs : (k ≠ c!"DTSTAMP" ∧ k ≠ c!"UID") ∨ ∀ x ∈ c.comps, HasStamps x.toOther) {w : World} (hw : World.Ok w) {out : Str}
    (h : c.fmtWrite w = .ok out) :
    ∃ pairs : List (Property × Str), pairs.map Prod.fst = (calendarProps c).filter (·.key = k) ∧ (∀ x ∈ pairs, FirstLine x.1 x.2) ∧
      linesOfName k out = (pairs.map Prod.snd).filter (NamedLine k) := by
  obtain ⟨pairs, h1, h2, h3⟩ := found_calendar hk hc hu hs hw h
  have := h3 []
  rw [List.append_nil] at this
  exact ⟨pairs, h1, fun x hx => (h2 x hx).1, by rw [this]; exact List.append_nil _⟩

/-- **C146.** If the lines of the name are short, or the name is and no white space follows it, then exactly one line is
found for each property of the name. -/
theorem lines_found {k : Str} (hk : KeyOk k) {c : Calendar} (hc : CalendarOk c) (hu : UnbrokenCal c)
    (hs : (k ≠ c!"DTSTAMP" ∧ k ≠ c!"UID") ∨ ∀ x ∈ c.comps, HasStamps x.toOther)
    (hf : ∀ p ∈ calendarProps c, p.key = k → Findable p) {w : World} (hw : World.Ok w) {out : Str} (h : c.fmtWrite w = .ok out) :
    ∃ pairs : List (Property × Str), pairs.map Prod.fst = (calendarProps c).filter (·.key = k) ∧ (∀ x ∈ pairs, FirstLine x.1 x.2) ∧
      linesOfName k out = pairs.map Prod.snd := by
  obtain ⟨pairs, h1, h2, h3⟩ := found_calendar hk hc hu hs hw h
  have := h3 []
  rw [List.append_nil] at this
  refine ⟨pairs, h1, fun x hx => (h2 x hx).1, ?_⟩
  rw [this, List.filter_eq_self.2]
  · exact List.append_nil _
  · intro y hy
    obtain ⟨x, hx, rfl⟩ := List.mem_map.1 hy
    have hm : x.1 ∈ (calendarProps c).filter (·.key = k) := by rw [← h1]; exact List.mem_map.2 ⟨x, hx, rfl⟩
    rw [List.mem_filter, decide_eq_true_eq] at hm
    exact decide_eq_true ((h2 x hx).2.1 (hf _ hm.1 hm.2))

/-- **C146.** If the lines of the name have at most 75 octets, then the lines found are the whole lines of the properties of
the name. -/
theorem lines_whole {k : Str} (hk : KeyOk k) {c : Calendar} (hc : CalendarOk c) (hu : UnbrokenCal c)
    (hs : (k ≠ c!"DTSTAMP" ∧ k ≠ c!"UID") ∨ ∀ x ∈ c.comps, HasStamps x.toOther)
    (hf : ∀ p ∈ calendarProps c, p.key = k → ∀ line, ContentLine p line → blen line ≤ 75) {w : World} (hw : World.Ok w) {out : Str}
    (h : c.fmtWrite w = .ok out) :
    ∃ pairs : List (Property × Str), pairs.map Prod.fst = (calendarProps c).filter (·.key = k) ∧ (∀ x ∈ pairs, WholeLine x.1 x.2) ∧
      linesOfName k out = pairs.map Prod.snd := by
  obtain ⟨pairs, h1, h2, h3⟩ := found_calendar hk hc hu hs hw h
  have := h3 []
  rw [List.append_nil] at this
  have hm : ∀ x ∈ pairs, NamedLine k x.2 ∧ WholeLine x.1 x.2 := by
    intro x hx
    have hm : x.1 ∈ (calendarProps c).filter (·.key = k) := by rw [← h1]; exact List.mem_map.2 ⟨x, hx, rfl⟩
    rw [List.mem_filter, decide_eq_true_eq] at hm
    exact (h2 x hx).2.2 (hf _ hm.1 hm.2)
  refine ⟨pairs, h1, fun x hx => (hm x hx).2, ?_⟩
  rw [this, List.filter_eq_self.2]
  · exact List.append_nil _
  · intro y hy
    obtain ⟨x, hx, rfl⟩ := List.mem_map.1 hy
    exact decide_eq_true (hm x hx).1

/-- an ideographic space and two ideographs, several times -/
def spacedWords (n : Nat) : Str := (List.replicate n ['\u3000', '一', '一']).flatten

/-- a calendar whose title consists of pairs of ideographs with ideographic spaces around them -/
def spacedTitle : Calendar := ⟨[⟨c!"SUMMARY", spacedWords 22 ++ ['\u3000'], []⟩], []⟩

/-- what is written for it -/
def spacedTitleText : Str :=
  c!"BEGIN:VCALENDAR\r\nSUMMARY\r\n :" ++ spacedWords 8 ++ c!"\r\n " ++ spacedWords 8 ++ c!"\r\n " ++ spacedWords 6 ++
    c!"\u3000\r\nEND:VCALENDAR\r\n"

omit [Uni] in
/-- **C146 (violated).** Looking for the lines of a name can miss a property: if white space beyond ASCII follows the colon
and again and again, the line can be cut before the colon. And of long lines only the beginning is found. -/
theorem lines_violated : letI := Uni.ascii
    (CalendarOk spacedTitle ∧ UnbrokenCal spacedTitle ∧ KeyOk c!"SUMMARY" ∧
      (∃ w, World.Ok w ∧ spacedTitle.fmtWrite w = .ok spacedTitleText) ∧ linesOfName c!"SUMMARY" spacedTitleText = []) ∧
    (∃ w, World.Ok w ∧ privateNote.fmtWrite w = .ok privateNoteText) ∧
      linesOfName c!"DESCRIPTION" privateNoteText = [c!"DESCRIPTION:We are away for the whole week and the key is where it always i\r\n"] := by
  letI := Uni.ascii
  refine ⟨⟨⟨?_, fun _ h => by cases h⟩, ⟨?_, fun _ h => by cases h⟩, by decide +kernel, ?_, by decide +kernel⟩,
    redacted_violated.2.2.2.1, by decide +kernel⟩
  · intro p hp
    simp only [spacedTitle, List.mem_cons, List.not_mem_nil, or_false] at hp
    subst hp
    decide +kernel
  · intro p hp
    simp only [spacedTitle, List.mem_cons, List.not_mem_nil, or_false] at hp
    subst hp
    exact ⟨(fun _ h => by cases h), (by decide +kernel)⟩
  · let w : World := ⟨fun _ => ⟨⟨⟨2026, 1, 1⟩, 0, 0, 0, 0⟩⟩, fun _ => c!"01234567-89ab-cdef-0123-456789abcdef", fun _ l => l⟩
    have hw : World.Ok w := ⟨fun _ _ => .refl _, fun _ => by simp only [w]; decide, fun _ => by simp only [w]; decide⟩
    have ht : spacedTitle.fmtWrite w = .ok spacedTitleText := by decide +kernel
    exact ⟨w, hw, ht⟩

end Ical
