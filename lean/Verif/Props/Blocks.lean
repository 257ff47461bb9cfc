import Verif.Spec.Blocks
import Verif.Props.Brackets

/-!
# Copying components line by line

C147: a program that copies some of the components of a written file, knowing only the lines that begin and end
components, writes the file of the calendar with these components.
-/

namespace Ical

open Nom Spec

/-- the text consists of whole lines -/
def LineEnded (s : Str) : Prop := ∀ t, cutLines (s ++ t) = cutLines s ++ cutLines t

theorem lineEnded_nil : LineEnded [] := fun _ => rfl

theorem lineEnded_append {a b : Str} (ha : LineEnded a) (hb : LineEnded b) : LineEnded (a ++ b) := by
  intro t
  rw [List.append_assoc, ha, hb, ha b, List.append_assoc]

theorem lineEnded_line {x : Str} (h : NoLf x) : LineEnded (x ++ ['\n']) := by
  intro t
  rw [List.append_assoc, List.singleton_append, cutLines_line h, cutLines_line h]
  rfl

theorem lineEnded_crlf {x : Str} (h : NoLf x) : LineEnded (x ++ crlf) := by
  have := lineEnded_line (x := x ++ ['\r']) (by simpa [NoLf] using h)
  simpa [crlf] using this

theorem cutLines_flatten (s : Str) : (cutLines s).flatten = s := by
  induction s with
  | nil => rfl
  | cons c s ih =>
    rw [cutLines]
    split
    · rename_i h; rw [List.flatten_cons, ih, h]; rfl
    · split
      · rename_i h; rw [h] at ih; rw [← ih]; rfl
      · rename_i h; rw [h] at ih; rw [← ih]; rfl

theorem lineEnded_folded (q : Str) (qs : List Str) (hl : NoLf (q :: qs).flatten) : LineEnded (joinFold (q :: qs) ++ crlf) := by
  induction qs generalizing q with
  | nil => rw [joinFold]; exact lineEnded_crlf (by simpa [NoLf] using hl)
  | cons x qs ih =>
    have e : joinFold (q :: x :: qs) ++ crlf = (q ++ crlf) ++ (joinFold ((' ' :: x) :: qs) ++ crlf) := by
      cases qs <;> simp [joinFold, crlf]
    rw [e]
    exact lineEnded_append (lineEnded_crlf (by simp [NoLf] at hl ⊢; exact hl.1)) (ih (' ' :: x) (by simp [NoLf] at hl ⊢; exact hl.2))

/-- whole lines, none of which begins or ends a component -/
def Flat (s : Str) : Prop := LineEnded s ∧ ∀ line ∈ cutLines s, bracketOf line = none

theorem flat_of {s : Str} (he : LineEnded s) (hb : Bracketed s []) : Flat s := by
  refine ⟨he, ?_⟩
  have := hb []
  rw [List.append_nil] at this
  have e : brackets [] = [] := rfl
  rw [e] at this
  unfold brackets at this
  simpa using this

theorem flat_nil : Flat [] := ⟨lineEnded_nil, by simp [cutLines]⟩

theorem flat_append {a b : Str} (ha : Flat a) (hb : Flat b) : Flat (a ++ b) := by
  refine ⟨lineEnded_append ha.1 hb.1, fun line h => ?_⟩
  rw [ha.1] at h
  exact (List.mem_append.1 h).elim (ha.2 line) (hb.2 line)

theorem copy_outer {keep : Str → Bool} {d : Nat} (hd : d ≤ 1) : (ls ls' : List Str) → (∀ l ∈ ls, bracketOf l = none) →
    copyLines keep d [] (ls ++ ls') = ls.flatten ++ copyLines keep d [] ls'
  | [], _, _ => rfl
  | l :: ls, ls', h => by
    rw [List.cons_append, copyLines, h l (by simp)]
    simp only [if_pos hd]
    rw [copy_outer hd ls ls' (fun x hx => h x (by simp [hx])), List.flatten_cons, List.append_assoc]

theorem copy_inner {keep : Str → Bool} {d : Nat} (hd : ¬ d ≤ 1) : (ls ls' : List Str) → (held : Str) → (∀ l ∈ ls, bracketOf l = none) →
    copyLines keep d held (ls ++ ls') = copyLines keep d (held ++ ls.flatten) ls'
  | [], _, _, _ => by simp
  | l :: ls, ls', held, h => by
    rw [List.cons_append, copyLines, h l (by simp)]
    simp only [if_neg hd]
    rw [copy_inner hd ls ls' _ (fun x hx => h x (by simp [hx])), List.flatten_cons, List.append_assoc]

/-- within a component the text is held back -/
def HeldBack (s : Str) : Prop := ∀ keep d held t, ¬ d ≤ 1 → copyLines keep d held (cutLines (s ++ t)) = copyLines keep d (held ++ s) (cutLines t)

theorem heldBack_flat {s : Str} (h : Flat s) : HeldBack s := by
  intro keep d held t hd
  rw [h.1, copy_inner hd _ _ _ h.2, cutLines_flatten]

theorem heldBack_append {a b : Str} (ha : HeldBack a) (hb : HeldBack b) : HeldBack (a ++ b) := by
  intro keep d held t hd
  rw [List.append_assoc, ha keep d held _ hd, hb keep d _ t hd, List.append_assoc]

variable [Uni]

omit [Uni] in
theorem cutLines_crlf {x : Str} (h : NoLf x) (t : Str) : cutLines (x ++ crlf ++ t) = (x ++ crlf) :: cutLines t := by
  have := cutLines_line (x := x ++ ['\r']) (by simpa [NoLf] using h) t
  simpa [crlf] using this

theorem bracket_lines {name : Str} (hn : IsName name) :
    bracketOf (c!"BEGIN:" ++ name ++ crlf) = some (true, name) ∧ bracketOf (c!"END:" ++ name ++ crlf) = some (false, name) ∧
    NoLf (c!"BEGIN:" ++ name) ∧ NoLf (c!"END:" ++ name) := by
  obtain ⟨-, h1, h2, -⟩ := name_plain hn
  have e : lineContent (name ++ crlf) = name := lineContent_break h2 .crlf
  refine ⟨?_, ?_, by simpa [NoLf] using h1, by simpa [NoLf] using h1⟩
  · rw [List.append_assoc, bracketOf_begin (by decide), e]
  · rw [List.append_assoc, bracketOf_end (by decide), e]

/-- the text of a component -/
def blockText (name body : Str) : Str := c!"BEGIN:" ++ name ++ crlf ++ (body ++ (c!"END:" ++ name ++ crlf))

theorem heldBack_block {name body : Str} (hn : IsName name) (hb : HeldBack body) : HeldBack (blockText name body) := by
  obtain ⟨b1, b2, n1, n2⟩ := bracket_lines hn
  intro keep d held t hd
  unfold blockText
  rw [List.append_assoc (c!"BEGIN:" ++ name ++ crlf), cutLines_crlf n1, copyLines, b1]
  simp only [if_neg (show ¬ d = 0 by omega)]
  rw [List.append_assoc body, hb keep (d + 1) _ _ (by omega), cutLines_crlf n2, copyLines, b2]
  simp only [if_neg (show ¬ d + 1 ≤ 1 by omega), if_neg (show ¬ d + 1 = 2 by omega), Nat.add_sub_cancel]
  simp only [List.append_assoc]

theorem copy_block {name body : Str} (hn : IsName name) (hb : HeldBack body) (keep : Str → Bool) (t : Str) :
    copyLines keep 1 [] (cutLines (blockText name body ++ t)) =
      (if keep (blockText name body) then blockText name body else []) ++ copyLines keep 1 [] (cutLines t) := by
  obtain ⟨b1, b2, n1, n2⟩ := bracket_lines hn
  have e : blockText name body ++ t = c!"BEGIN:" ++ name ++ crlf ++ (body ++ (c!"END:" ++ name ++ crlf ++ t)) := by
    simp only [blockText, List.append_assoc]
  rw [e, cutLines_crlf n1, copyLines, b1]
  simp only [if_neg (show ¬ (1 : Nat) = 0 by omega)]
  rw [hb keep 2 _ _ (by omega), cutLines_crlf n2, copyLines, b2]
  simp only [if_neg (show ¬ (1 + 1 : Nat) ≤ 1 by omega), if_true]
  have e2 : [] ++ (c!"BEGIN:" ++ name ++ crlf) ++ body ++ (c!"END:" ++ name ++ crlf) = blockText name body := by
    simp only [blockText, List.append_assoc, List.nil_append]
  rw [e2]

/-- a text of lines in which what begins ends -/
inductive Balanced : Str → Prop
  | flat {s : Str} (h : Flat s) : Balanced s
  | append {a b : Str} (ha : Balanced a) (hb : Balanced b) : Balanced (a ++ b)
  | block {name body : Str} (hn : IsName name) (hb : Balanced body) : Balanced (blockText name body)

theorem balanced_held {s : Str} (h : Balanced s) : HeldBack s := by
  induction h with
  | flat h => exact heldBack_flat h
  | append _ _ ha hb => exact heldBack_append ha hb
  | block hn _ hb => exact heldBack_block hn hb

/-! ### what is written -/

theorem flat_property {p : Property} (hp : PropOk p) (hu : UnbrokenProp p) {w : World} (hw : World.Ok w) {out : Str}
    (h : p.fmtWrite w = .ok out) : Flat out := by
  refine flat_of ?_ (bracketed_property hp hu hw h)
  obtain ⟨-, hp1, -⟩ := name_plain hp.key.name
  unfold Property.fmtWrite at h
  cases hf : foldLine (p.line w) with
  | error e => rw [hf] at h; cases h
  | ok s =>
    rw [hf] at h
    cases h
    have hpar := noLf_params (w.order [] p.params) (fun x hx => by
      have hx := (hw.order [] p.params).mem_iff.1 hx
      exact ⟨(name_plain (hp.params.name x hx)).2.1, (hu.params x hx).2⟩)
    have hn : NoLf (p.line w) := by
      have := valueText_unbroken hu
      unfold Property.line NoLf at *
      simp only [List.mem_append, not_or]
      exact ⟨⟨⟨hp1, hpar⟩, by decide⟩, this.2⟩
    obtain ⟨q, qs, e1, rfl, -⟩ := fold_pieces _ _ hf
    rw [e1] at hn
    exact lineEnded_folded q qs hn

theorem flat_props {l : List Property} (hl : ∀ p ∈ l, PropOk p ∧ UnbrokenProp p) {w : World} (hw : World.Ok w) {out : Str}
    (h : fmtProps l w = .ok out) : Flat out := by
  induction l generalizing w out with
  | nil => cases h; exact flat_nil
  | cons p l ih =>
    unfold fmtProps at h
    cases ha : p.fmtWrite (w.sub 0) with
    | error e => rw [ha] at h; cases h
    | ok a =>
      rw [ha] at h
      cases hb : fmtProps l (w.sub 1) with
      | error e => rw [hb] at h; cases h
      | ok b =>
        rw [hb] at h
        cases h
        exact flat_append (flat_property (hl p (by simp)).1 (hl p (by simp)).2 (worldOk_sub hw 0) ha)
          (ih (fun q hq => hl q (by simp [hq])) (worldOk_sub hw 1) hb)

omit [Uni] in
theorem flat_generated {b : Bool} {x : Str} (hn : NoLf x) (h : bracketOf (x ++ crlf) = none) : Flat (if b then [] else x ++ crlf) := by
  refine flat_of ?_ (bracketed_generated hn h)
  split
  · exact lineEnded_nil
  · exact lineEnded_crlf hn

mutual
theorem held_other (o : Other) (ho : OtherOk o) (hu : UnbrokenOther o) {w : World} (hw : World.Ok w) {out : Str}
    (h : o.fmtWrite w = .ok out) : ∃ name body, IsName name ∧ Balanced body ∧ out = blockText name body := by
  match o, ho, hu with
  | .mk name props multi comps, ho, hu =>
    obtain ⟨hn, hi, hc⟩ := ho
    obtain ⟨hu1, hu2, hu3⟩ := hu
    have hi := innerOk_writable hi
    unfold Other.fmtWrite at h
    cases hps : fmtProps props.values (w.sub 0) with
    | error e => simp only [hps] at h; cases h
    | ok ps =>
      cases hms : fmtProps multi.values.flatten (w.sub 1) with
      | error e => simp only [hps, hms] at h; cases h
      | ok ms =>
        cases hcs : fmtOthers comps (w.sub 2) with
        | error e => simp only [hps, hms, hcs] at h; cases h
        | ok cs =>
          simp only [hps, hms, hcs] at h
          cases h
          have b1 : Flat ps := by
            refine flat_props ?_ (worldOk_sub hw 0) hps
            intro p hp
            refine ⟨(values_ok hi).1 p hp, ?_⟩
            obtain ⟨x, hx, rfl⟩ := List.mem_map.1 hp
            exact hu1 x hx
          have b2 : Flat ms := by
            refine flat_props ?_ (worldOk_sub hw 1) hms
            intro p hp
            refine ⟨(values_ok hi).2 p hp, ?_⟩
            obtain ⟨g, hg, hpg⟩ := List.mem_flatten.1 hp
            obtain ⟨x, hx, rfl⟩ := List.mem_map.1 hg
            exact hu2 x hx p hpg
          have b3 := held_others comps hc hu3 (worldOk_sub hw 2) hcs
          have b4 := flat_generated (b := props.containsKey c!"DTSTAMP") (x := c!"DTSTAMP:" ++ fmtUtc (w.now []))
            (by have := fmtUtc_not_mem (w.now []) (x := '\n') (by decide) (by decide)
                simpa [NoLf] using this)
            (bracketOf_blank (by decide) (by decide))
          have b5 := flat_generated (b := props.containsKey c!"UID") (x := c!"UID:" ++ w.uuid [])
            (by have := uuid_not_mem hw (x := '\n') (by decide) []
                simpa [NoLf] using this)
            (bracketOf_blank (by decide) (by decide))
          refine ⟨name, _, hn, Balanced.append (.flat (flat_append (flat_append (flat_append b4 b1) b5) b2)) b3, ?_⟩
          simp only [blockText, List.append_assoc]

theorem held_others (l : List Other) (hl : OthersOk l) (hu : UnbrokenOthers l) {w : World} (hw : World.Ok w) {out : Str}
    (h : fmtOthers l w = .ok out) : Balanced out := by
  match l, hl, hu with
  | [], _, _ =>
    simp only [fmtOthers] at h
    cases h
    exact .flat flat_nil
  | o :: l, hl, hu =>
    obtain ⟨ho, hl⟩ := hl
    obtain ⟨hu1, hu2⟩ := hu
    unfold fmtOthers at h
    cases ha : o.fmtWrite (w.sub 0) with
    | error e => rw [ha] at h; cases h
    | ok a =>
      rw [ha] at h
      cases hb : fmtOthers l (w.sub 1) with
      | error e => rw [hb] at h; cases h
      | ok b =>
        rw [hb] at h
        cases h
        obtain ⟨name, body, h1, h2, rfl⟩ := held_other o ho hu1 (worldOk_sub hw 0) ha
        exact Balanced.append (.block h1 h2) (held_others l hl hu2 (worldOk_sub hw 1) hb)
end

/-- a world of which two parts are given -/
def World.join (a b : World) : World where
  now := fun | 0 :: q => a.now q | _ :: q => b.now q | [] => a.now []
  uuid := fun | 0 :: q => a.uuid q | _ :: q => b.uuid q | [] => a.uuid []
  order := fun | 0 :: q => a.order q | _ :: q => b.order q | [] => a.order []

omit [Uni] in
theorem join_ok {a b : World} (ha : World.Ok a) (hb : World.Ok b) : World.Ok (World.join a b) := by
  constructor
  · intro p l
    match p with
    | [] => exact ha.order [] l
    | 0 :: q => exact ha.order q l
    | (n + 1) :: q => exact hb.order q l
  · intro p
    match p with
    | [] => exact ha.2 []
    | 0 :: q => exact ha.2 q
    | (n + 1) :: q => exact hb.2 q
  · intro p
    match p with
    | [] => exact ha.3 []
    | 0 :: q => exact ha.3 q
    | (n + 1) :: q => exact hb.3 q

theorem blocks_comps (keep : Str → Bool) (l : List CalComp) (hl : ∀ x ∈ l, CalCompOk x) (hu : ∀ x ∈ l, UnbrokenOther x.toOther)
    {w : World} (hw : World.Ok w) {out : Str} (h : fmtComps l w = .ok out) :
    ∃ blocks : List (CalComp × Str), blocks.map Prod.fst = l ∧ out = (blocks.map Prod.snd).flatten ∧
      (∀ x ∈ blocks, ∃ w', World.Ok w' ∧ x.1.fmtWrite w' = .ok x.2) ∧
      (∃ w' kept, World.Ok w' ∧ fmtComps ((blocks.filter (fun x => keep x.2)).map Prod.fst) w' = .ok kept ∧
        ∀ t, copyLines keep 1 [] (cutLines (out ++ t)) = kept ++ copyLines keep 1 [] (cutLines t)) := by
  induction l generalizing w out with
  | nil =>
    cases h
    exact ⟨[], rfl, rfl, by simp, w, [], hw, rfl, fun _ => rfl⟩
  | cons x l ih =>
    unfold fmtComps at h
    cases ha : x.fmtWrite (w.sub 0) with
    | error e => rw [ha] at h; cases h
    | ok a =>
      rw [ha] at h
      cases hb : fmtComps l (w.sub 1) with
      | error e => rw [hb] at h; cases h
      | ok b =>
        rw [hb] at h
        cases h
        obtain ⟨blocks, h1, h2, h3, w', kept, h4, h5, h6⟩ := ih (fun y hy => hl y (by simp [hy])) (fun y hy => hu y (by simp [hy]))
          (worldOk_sub hw 1) hb
        have ha' := ha
        rw [calComp_fmtWrite] at ha'
        obtain ⟨name, body, n1, n2, n3⟩ := held_other _ (calCompOk_other (hl x (by simp))) (hu x (by simp)) (worldOk_sub hw 0) ha'
        have hcopy : ∀ t, copyLines keep 1 [] (cutLines (a ++ b ++ t)) = (if keep a then a else []) ++ (kept ++ copyLines keep 1 [] (cutLines t)) := by
          intro t
          rw [List.append_assoc, n3, copy_block n1 (balanced_held n2), h6]
        refine ⟨(x, a) :: blocks, by rw [List.map_cons, h1], by rw [List.map_cons, List.flatten_cons, ← h2], ?_, ?_⟩
        · intro y hy
          rcases List.mem_cons.1 hy with rfl | hy
          · exact ⟨_, worldOk_sub hw 0, ha⟩
          · exact h3 y hy
        · by_cases hk : keep a = true
          · refine ⟨World.join (w.sub 0) w', a ++ kept, join_ok (worldOk_sub hw 0) h4, ?_, fun t => ?_⟩
            · rw [List.filter_cons_of_pos (by simpa using hk), List.map_cons, fmtComps]
              have e0 : (World.join (w.sub 0) w').sub 0 = w.sub 0 := rfl
              have e1 : (World.join (w.sub 0) w').sub 1 = w' := rfl
              rw [e0, e1, ha, h5]
            · rw [hcopy, if_pos hk, List.append_assoc]
          · refine ⟨w', kept, h4, ?_, fun t => ?_⟩
            · rw [List.filter_cons_of_neg (by simpa using hk)]
              exact h5
            · rw [hcopy, if_neg hk, List.nil_append]

/-- **C147.** Copying, line by line, a written file without some of its components gives a file that is written for the
calendar without these components. -/
theorem selected_written {c : Calendar} (hc : CalendarOk c) (hu : UnbrokenCal c) {w : World} (hw : World.Ok w) {out : Str}
    (h : c.fmtWrite w = .ok out) (keep : Str → Bool) :
    ∃ (blocks : List (CalComp × Str)) (head : Str), blocks.map Prod.fst = c.comps ∧
      out = head ++ (blocks.map Prod.snd).flatten ++ c!"END:VCALENDAR\r\n" ∧
      (∀ x ∈ blocks, ∃ w', World.Ok w' ∧ x.1.fmtWrite w' = .ok x.2) ∧
      ∃ w', World.Ok w' ∧ ({ props := c.props, comps := (blocks.filter (fun x => keep x.2)).map Prod.fst } : Calendar).fmtWrite w' =
        .ok (selectBlocks keep out) := by
  unfold Calendar.fmtWrite at h
  cases hps : fmtProps c.props (w.sub 0) with
  | error e => simp only [hps] at h; cases h
  | ok ps =>
    cases hcs : fmtComps c.comps (w.sub 1) with
    | error e => simp only [hps, hcs] at h; cases h
    | ok cs =>
      simp only [hps, hcs] at h
      cases h
      have b1 := flat_props (fun p hp => ⟨hc.props p hp, hu.props p hp⟩) (worldOk_sub hw 0) hps
      obtain ⟨blocks, h1, h2, h3, w', kept, h4, h5, h6⟩ := blocks_comps keep _ hc.comps hu.comps (worldOk_sub hw 1) hcs
      refine ⟨blocks, c!"BEGIN:VCALENDAR" ++ crlf ++ ps, h1, by rw [← h2]; rfl, h3, World.join (w.sub 0) w', join_ok (worldOk_sub hw 0) h4, ?_⟩
      obtain ⟨k1, k2, n1, n2⟩ := bracket_lines (name := c!"VCALENDAR") (by simp [IsName, NameChar, isAlnum])
      have e0 : (World.join (w.sub 0) w').sub 0 = w.sub 0 := rfl
      have e1 : (World.join (w.sub 0) w').sub 1 = w' := rfl
      unfold Calendar.fmtWrite
      simp only [e0, e1, hps, h5]
      have e : c!"BEGIN:VCALENDAR" ++ crlf ++ ps ++ cs ++ (c!"END:VCALENDAR" ++ crlf) =
          c!"BEGIN:" ++ c!"VCALENDAR" ++ crlf ++ (ps ++ (cs ++ (c!"END:" ++ c!"VCALENDAR" ++ crlf ++ []))) := by
        simp only [List.append_assoc, List.append_nil, List.cons_append, List.nil_append]
      unfold selectBlocks
      rw [e, cutLines_crlf n1, copyLines, k1]
      simp only [if_true]
      rw [b1.1, copy_outer (by omega) _ _ b1.2, cutLines_flatten, h6, cutLines_crlf n2, copyLines, k2]
      simp only [if_pos (show (1 : Nat) ≤ 1 by omega), cutLines, copyLines]
      simp only [List.append_assoc, List.append_nil, List.cons_append, List.nil_append]

/-- **C147.** So what is read from it is the calendar without these components. -/
theorem selected_read {c : Calendar} (hc : CalendarOk c) (hs : CalendarSafe c) (hst : ∀ x ∈ c.comps, HasStamps x.toOther)
    (hu : UnbrokenCal c) {w : World} (hw : World.Ok w) {out : Str} (h : c.fmtWrite w = .ok out) (keep : Str → Bool) :
    ∃ (blocks : List (CalComp × Str)) (head : Str), blocks.map Prod.fst = c.comps ∧
      out = head ++ (blocks.map Prod.snd).flatten ++ c!"END:VCALENDAR\r\n" ∧
      (∀ x ∈ blocks, ∃ w', World.Ok w' ∧ x.1.fmtWrite w' = .ok x.2) ∧
      Calendar.fromStr (selectBlocks keep out) =
        some { props := c.props, comps := (blocks.filter (fun x => keep x.2)).map Prod.fst } := by
  obtain ⟨blocks, head, h1, h0, h2, w', hw', h3⟩ := selected_written hc hu hw h keep
  have hsub : ∀ x ∈ (blocks.filter (fun x => keep x.2)).map Prod.fst, x ∈ c.comps := by
    intro x hx
    obtain ⟨y, hy, rfl⟩ := List.mem_map.1 hx
    rw [← h1]
    exact List.mem_map.2 ⟨y, (List.mem_filter.1 hy).1, rfl⟩
  refine ⟨blocks, head, h1, h0, h2, calendar_roundtrip _ ?_ ?_ ?_ w' hw' _ h3⟩
  · exact ⟨hc.props, fun x hx => hc.comps x (hsub x hx)⟩
  · exact ⟨hs.props, fun x hx => hs.comps x (hsub x hx)⟩
  · exact fun x hx => hst x (hsub x hx)

end Ical
