import Verif.Spec.Writers

/-!
The pieces that writing offers to a writer.
-/

namespace Ical
open Spec

theorem offered_append {σ : Type} {k : Sink σ} {ds : List Str} {s' : σ} {b : Bool} :
    ∀ {cs : List Str} {s : σ}, Offered k (cs ++ ds) s s' b →
      (Offered k cs s s' false ∧ b = false) ∨ ∃ m, Offered k cs s m true ∧ Offered k ds m s' b := by
  intro cs
  induction cs with
  | nil => intro s h; exact .inr ⟨s, .done s, h⟩
  | cons c cs ih =>
    intro s h
    cases h with
    | next hw h' =>
      rcases ih h' with ⟨a, e⟩ | ⟨m, a, e⟩
      · exact .inl ⟨.next hw a, e⟩
      · exact .inr ⟨m, .next hw a, e⟩
    | stop hw => exact .inl ⟨.stop hw, rfl⟩

theorem offered_total {σ : Type} (k : Sink σ) : ∀ (cs : List Str) (s : σ), ∃ s' b, Offered k cs s s' b := by
  intro cs
  induction cs with
  | nil => intro s; exact ⟨s, true, .done s⟩
  | cons c cs ih =>
    intro s
    match e : k.writeStr s c with
    | (s', false) => exact ⟨s', false, .stop e⟩
    | (s', true) =>
      obtain ⟨s'', b, h⟩ := ih s'
      exact ⟨s'', b, .next e h⟩

theorem wholeLines_append {a b : Str} (ha : WholeLines a) (hb : WholeLines b) : WholeLines (a ++ b) := by
  rcases hb with rfl | ⟨u, rfl⟩
  · simpa using ha
  · exact .inr ⟨a ++ u, by simp⟩

/-- What is written first, before what comes next. -/
def prepend (a : Str) : Except Crash Str → Except Crash Str
  | .ok b => .ok (a ++ b)
  | .error e => .error e

/-- The text of one thing and then another. -/
def follow : Except Crash Str → Except Crash Str → Except Crash Str
  | .error e, _ => .error e
  | .ok a, q => prepend a q

theorem streams_skip : Streams (fun _ _ => Writing.skip) (.ok []) := by
  refine ⟨[], .inl rfl, by simp, ?_⟩
  intro σ k s s' b h
  cases h
  rfl

theorem streams_crash (e : Crash) : Streams (fun _ _ => Writing.crash e) (.error e) := by
  refine ⟨[], .inl rfl, by simp, ?_⟩
  intro σ k s s' b h
  cases h
  rfl

theorem streams_then {f g : (σ : Type) → Sink σ → Writing σ} {a : Str} {r : Except Crash Str}
    (hf : Streams f (.ok a)) (hg : Streams g r) :
    Streams (fun σ k => (f σ k).andThen (g σ k)) (prepend a r) := by
  obtain ⟨cs, wc, tc, rc⟩ := hf
  obtain ⟨ds, wd, td, rd⟩ := hg
  refine ⟨cs ++ ds, ?_, ?_, ?_⟩
  · rw [List.flatten_append]; exact wholeLines_append wc wd
  · intro t ht
    cases r with
    | error e => cases ht
    | ok b =>
      cases ht
      rw [List.flatten_append, tc a rfl, td b rfl]
  · intro σ k s s' b h
    rcases offered_append h with ⟨h0, rfl⟩ | ⟨m, h, h'⟩
    · simp [Writing.andThen, rc σ k s s' false h0]
    · simp only [Writing.andThen, rc σ k s m true h, if_true]
      rw [rd σ k m s' b h']
      cases r <;> rfl

theorem streams_crashes {f g : (σ : Type) → Sink σ → Writing σ} {e : Crash} (hf : Streams f (.error e)) :
    Streams (fun σ k => (f σ k).andThen (g σ k)) (.error e) := by
  obtain ⟨cs, wc, tc, rc⟩ := hf
  refine ⟨cs, wc, by simp, ?_⟩
  intro σ k s s' b h
  simp only [Writing.andThen, rc σ k s s' b h]
  cases b <;> rfl

/-- Writing one thing and then another. -/
theorem streams_bind {f g : (σ : Type) → Sink σ → Writing σ} {r q : Except Crash Str}
    (hf : Streams f r) (hg : Streams g q) :
    Streams (fun σ k => (f σ k).andThen (g σ k)) (follow r q) := by
  cases r with
  | error e => exact streams_crashes hf
  | ok a => exact streams_then hf hg

theorem streams_put_line {t : Str} : Streams (fun _ k => (k.put t).andThen (k.put crlf)) (.ok (t ++ crlf)) := by
  refine ⟨[t, crlf], .inr ⟨t, by simp [crlf]⟩, ?_, ?_⟩
  · intro u hu; cases hu; simp
  · intro σ k s s' b h
    cases h with
    | stop hw => simp [Writing.andThen, Sink.put, hw]
    | next hw h =>
      cases h with
      | stop hv => simp [Writing.andThen, Sink.put, hw, hv]
      | next hv h => cases h; simp [Writing.andThen, Sink.put, hw, hv]

theorem streams_put {t : Str} (ht : WholeLines t) : Streams (fun _ k => k.put t) (.ok t) := by
  refine ⟨[t], by simpa using ht, ?_, ?_⟩
  · intro u hu; cases hu; simp
  · intro σ k s s' b h
    cases h with
    | stop hw => simp [Sink.put, hw]
    | next hw h => cases h; simp [Sink.put, hw]

theorem streams_line (tag t : Str) : Streams (fun _ k => k.line tag t) (.ok (tag ++ t ++ crlf)) := by
  refine ⟨[tag, t, crlf], .inr ⟨tag ++ t, by simp [crlf]⟩, ?_, ?_⟩
  · intro u hu; cases hu; simp
  · intro σ k s s' b h
    cases h with
    | stop hw => simp [Sink.line, Writing.andThen, Sink.put, hw]
    | next hw h =>
      cases h with
      | stop hv => simp [Sink.line, Writing.andThen, Sink.put, hw, hv]
      | next hv h =>
        cases h with
        | stop hu => simp [Sink.line, Writing.andThen, Sink.put, hw, hv, hu]
        | next hu h => cases h; simp [Sink.line, Writing.andThen, Sink.put, hw, hv, hu]

theorem streams_folded (l : Str) :
    Streams (fun _ k => k.folded l) (match foldLine l with | .ok s => .ok (s ++ crlf) | .error e => .error e) := by
  cases e : foldLine l with
  | error e' =>
    have : (fun (σ : Type) (k : Sink σ) => k.folded l) = fun _ _ => Writing.crash e' := by
      funext σ k; simp [Sink.folded, e]
    rw [this]; exact streams_crash e'
  | ok s =>
    have : (fun (σ : Type) (k : Sink σ) => k.folded l) = fun _ k => (k.put s).andThen (k.put crlf) := by
      funext σ k; simp [Sink.folded, e]
    rw [this]; exact streams_put_line

theorem streams_property [Uni] (p : Property) (w : World) : Streams (fun _ k => p.writeTo k w) (p.fmtWrite w) :=
  streams_folded (p.line w)

theorem streams_props [Uni] : ∀ (l : List Property) (w : World),
    Streams (fun _ k => propsTo k l w) (fmtProps l w)
  | [], w => streams_skip
  | p :: l, w => by
    have h := streams_bind (streams_property p (w.sub 0)) (streams_props l (w.sub 1))
    simp only [fmtProps, propsTo]
    refine cast ?_ h
    congr 1
    cases p.fmtWrite (w.sub 0) with
    | error e => rfl
    | ok a => cases fmtProps l (w.sub 1) <;> rfl

/-- A line that is added unless it is there. -/
theorem streams_unless (b : Bool) (tag t : Str) :
    Streams (fun _ k => if b then Writing.skip else k.line tag t) (.ok (if b then [] else tag ++ t ++ crlf)) := by
  cases b
  · exact streams_line tag t
  · exact streams_skip

mutual
theorem streams_other [Uni] : ∀ (o : Other) (w : World), Streams (fun _ k => o.writeTo k w) (o.fmtWrite w)
  | .mk name props multi comps, w => by
    have hb := streams_line c!"BEGIN:" name
    have hd := streams_unless (props.containsKey c!"DTSTAMP") c!"DTSTAMP:" (fmtUtc (w.now []))
    have hp := streams_props props.values (w.sub 0)
    have hu := streams_unless (props.containsKey c!"UID") c!"UID:" (w.uuid [])
    have hm := streams_props multi.values.flatten (w.sub 1)
    have hc := streams_others comps (w.sub 2)
    have he := streams_line c!"END:" name
    have h := streams_then hb (streams_then hd (streams_bind hp (streams_then hu (streams_bind hm
      (streams_bind hc he)))))
    simp only [Other.writeTo, Other.fmtWrite]
    refine cast ?_ h
    congr 1
    cases fmtProps props.values (w.sub 0) with
    | error e => rfl
    | ok ps =>
      cases fmtProps multi.values.flatten (w.sub 1) with
      | error e => rfl
      | ok ms =>
        cases fmtOthers comps (w.sub 2) with
        | error e => rfl
        | ok cs => simp [follow, prepend, List.append_assoc]

theorem streams_others [Uni] : ∀ (l : List Other) (w : World), Streams (fun _ k => othersTo k l w) (fmtOthers l w)
  | [], w => by
    simp only [othersTo, fmtOthers]
    exact streams_skip
  | o :: l, w => by
    have h := streams_bind (streams_other o (w.sub 0)) (streams_others l (w.sub 1))
    simp only [othersTo, fmtOthers]
    refine cast ?_ h
    congr 1
    cases o.fmtWrite (w.sub 0) with
    | error e => rfl
    | ok a => cases fmtOthers l (w.sub 1) <;> rfl
end

theorem streams_calComp [Uni] (c : CalComp) (w : World) : Streams (fun _ k => c.writeTo k w) (c.fmtWrite w) := by
  cases c <;> exact streams_other _ w

theorem streams_comps [Uni] : ∀ (l : List CalComp) (w : World), Streams (fun _ k => compsTo k l w) (fmtComps l w)
  | [], w => streams_skip
  | c :: l, w => by
    have h := streams_bind (streams_calComp c (w.sub 0)) (streams_comps l (w.sub 1))
    simp only [compsTo, fmtComps]
    refine cast ?_ h
    congr 1
    cases c.fmtWrite (w.sub 0) with
    | error e => rfl
    | ok a => cases fmtComps l (w.sub 1) <;> rfl

theorem streams_calendar [Uni] (c : Calendar) (w : World) : Streams (fun _ k => c.writeTo k w) (c.fmtWrite w) := by
  have h := streams_then (streams_put (t := c!"BEGIN:VCALENDAR" ++ crlf) (.inr ⟨c!"BEGIN:VCALENDAR", rfl⟩))
    (streams_bind (streams_props c.props (w.sub 0)) (streams_bind (streams_comps c.comps (w.sub 1))
      (streams_put (t := c!"END:VCALENDAR" ++ crlf) (.inr ⟨c!"END:VCALENDAR", rfl⟩))))
  simp only [Calendar.writeTo, Calendar.fmtWrite]
  refine cast ?_ h
  congr 1
  cases fmtProps c.props (w.sub 0) with
  | error e => rfl
  | ok ps =>
    cases fmtComps c.comps (w.sub 1) with
    | error e => rfl
    | ok cs => simp [follow, prepend, List.append_assoc]

theorem streams_pprop (p : PProp) : Streams (fun _ k => p.writeTo k) p.fmtWrite :=
  streams_folded p.line

theorem streams_pprops : ∀ (l : List PProp), Streams (fun _ k => ppropsTo k l) (fmtPProps l)
  | [] => streams_skip
  | p :: l => by
    have h := streams_bind (streams_pprop p) (streams_pprops l)
    simp only [ppropsTo, fmtPProps]
    refine cast ?_ h
    congr 1
    cases p.fmtWrite with
    | error e => rfl
    | ok a => cases fmtPProps l <;> rfl

theorem streams_stamp (name : Str) (props : List PProp) (w : World) :
    Streams (fun _ k => stampTo k name props w) (.ok (calendarStamp name props w)) := by
  simp only [stampTo, calendarStamp]
  split
  · exact streams_then (streams_unless (props.any (fun p => p.name == c!"DTSTAMP")) c!"DTSTAMP:" (fmtUtc (w.now [])))
      (streams_unless (props.any (fun p => p.name == c!"UID")) c!"UID:" (w.uuid []))
  · exact streams_skip

mutual
theorem streams_pcomp : ∀ (c : PComp) (w : World), Streams (fun _ k => c.writeTo k w) (c.fmtWrite w)
  | .mk name props comps, w => by
    have h := streams_then (streams_line c!"BEGIN:" name) (streams_then (streams_stamp name props w)
      (streams_bind (streams_pprops props) (streams_bind (streams_pcomps comps (w.sub 0))
        (streams_line c!"END:" name))))
    simp only [PComp.writeTo, PComp.fmtWrite]
    refine cast ?_ h
    congr 1
    cases fmtPProps props with
    | error e => rfl
    | ok ps =>
      cases fmtPComps comps (w.sub 0) with
      | error e => rfl
      | ok cs => simp [follow, prepend, List.append_assoc]

theorem streams_pcomps : ∀ (l : List PComp) (w : World), Streams (fun _ k => pcompsTo k l w) (fmtPComps l w)
  | [], w => by
    simp only [pcompsTo, fmtPComps]
    exact streams_skip
  | c :: l, w => by
    have h := streams_bind (streams_pcomp c (w.sub 0)) (streams_pcomps l (w.sub 1))
    simp only [pcompsTo, fmtPComps]
    refine cast ?_ h
    congr 1
    cases c.fmtWrite (w.sub 0) with
    | error e => rfl
    | ok a => cases fmtPComps l (w.sub 1) <;> rfl
end

theorem streams_pcal (c : PCal) (w : World) : Streams (fun _ k => c.writeTo k w) (c.fmtWrite w) :=
  streams_pcomp _ w

end Ical
