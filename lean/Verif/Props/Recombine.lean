import Verif.Spec.Recombine
import Verif.Props.Blocks

/-!
# Files put together from parts of files

C150: the components of written files can be put together to another file, line by line; what is read from it are these
components.
-/

namespace Ical

open Nom Spec

variable [Uni]

omit [Uni] in
theorem cut_outer {d : Nat} (hd : d ≤ 1) : (ls ls' : List Str) → (∀ l ∈ ls, bracketOf l = none) →
    cutBlocks d [] (ls ++ ls') = cutBlocks d [] ls'
  | [], _, _ => rfl
  | l :: ls, ls', h => by
    rw [List.cons_append, cutBlocks, h l (by simp)]
    simp only [if_pos hd]
    rw [cut_outer hd ls ls' (fun x hx => h x (by simp [hx]))]

omit [Uni] in
theorem cut_inner {d : Nat} (hd : ¬ d ≤ 1) : (ls ls' : List Str) → (held : Str) → (∀ l ∈ ls, bracketOf l = none) →
    cutBlocks d held (ls ++ ls') = cutBlocks d (held ++ ls.flatten) ls'
  | [], _, _, _ => by simp
  | l :: ls, ls', held, h => by
    rw [List.cons_append, cutBlocks, h l (by simp)]
    simp only [if_neg hd]
    rw [cut_inner hd ls ls' _ (fun x hx => h x (by simp [hx])), List.flatten_cons, List.append_assoc]

theorem balanced_cut {s : Str} (h : Balanced s) : ∀ d held t, ¬ d ≤ 1 →
    cutBlocks d held (cutLines (s ++ t)) = cutBlocks d (held ++ s) (cutLines t) := by
  induction h with
  | flat h =>
    intro d held t hd
    rw [h.1, cut_inner hd _ _ _ h.2, cutLines_flatten]
  | append _ _ ha hb =>
    intro d held t hd
    rw [List.append_assoc, ha d held _ hd, hb d _ t hd, List.append_assoc]
  | @block name body hn _ hb =>
    obtain ⟨b1, b2, n1, n2⟩ := bracket_lines hn
    intro d held t hd
    unfold blockText
    rw [List.append_assoc (c!"BEGIN:" ++ name ++ crlf), cutLines_crlf n1, cutBlocks, b1]
    simp only [if_neg (show ¬ d = 0 by omega)]
    rw [List.append_assoc body, hb (d + 1) _ _ (by omega), cutLines_crlf n2, cutBlocks, b2]
    simp only [if_neg (show ¬ d + 1 ≤ 1 by omega), if_neg (show ¬ d + 1 = 2 by omega), Nat.add_sub_cancel]
    simp only [List.append_assoc]

theorem cut_block {name body : Str} (hn : IsName name) (hb : Balanced body) (t : Str) :
    cutBlocks 1 [] (cutLines (blockText name body ++ t)) = blockText name body :: cutBlocks 1 [] (cutLines t) := by
  obtain ⟨b1, b2, n1, n2⟩ := bracket_lines hn
  have e : blockText name body ++ t = c!"BEGIN:" ++ name ++ crlf ++ (body ++ (c!"END:" ++ name ++ crlf ++ t)) := by
    simp only [blockText, List.append_assoc]
  rw [e, cutLines_crlf n1, cutBlocks, b1]
  simp only [if_neg (show ¬ (1 : Nat) = 0 by omega)]
  rw [balanced_cut hb 2 _ _ (by omega), cutLines_crlf n2, cutBlocks, b2]
  simp only [if_neg (show ¬ (1 + 1 : Nat) ≤ 1 by omega), if_true]
  have e2 : [] ++ (c!"BEGIN:" ++ name ++ crlf) ++ body ++ (c!"END:" ++ name ++ crlf) = blockText name body := by
    simp only [blockText, List.append_assoc, List.nil_append]
  rw [e2]

/-- a component and what is written for it -/
def Piece (x : CalComp × Str) : Prop :=
  (∃ w, World.Ok w ∧ x.1.fmtWrite w = .ok x.2) ∧ ∃ name body, IsName name ∧ Balanced body ∧ x.2 = blockText name body

theorem pieces_comps (l : List CalComp) (hl : ∀ x ∈ l, CalCompOk x) (hu : ∀ x ∈ l, UnbrokenOther x.toOther)
    {w : World} (hw : World.Ok w) {out : Str} (h : fmtComps l w = .ok out) :
    ∃ pieces : List (CalComp × Str), pieces.map Prod.fst = l ∧ out = (pieces.map Prod.snd).flatten ∧ (∀ x ∈ pieces, Piece x) ∧
      ∀ t, cutBlocks 1 [] (cutLines (out ++ t)) = pieces.map Prod.snd ++ cutBlocks 1 [] (cutLines t) := by
  induction l generalizing w out with
  | nil =>
    cases h
    exact ⟨[], rfl, rfl, by simp, fun _ => rfl⟩
  | cons x l ih =>
    unfold fmtComps at h
    cases ha : x.fmtWrite (w.sub 0) with
    | error e => rw [ha] at h; cases h
    | ok a =>
      rw [ha] at h
      cases hb : fmtComps l (w.sub 1) with
      | error e => rw [hb] at h; cases h
      | ok b =>
        rw [hb] at h
        cases h
        obtain ⟨pieces, h1, h2, h3, h4⟩ := ih (fun y hy => hl y (by simp [hy])) (fun y hy => hu y (by simp [hy])) (worldOk_sub hw 1) hb
        have ha' := ha
        rw [calComp_fmtWrite] at ha'
        obtain ⟨name, body, n1, n2, n3⟩ := held_other _ (calCompOk_other (hl x (by simp))) (hu x (by simp)) (worldOk_sub hw 0) ha'
        refine ⟨(x, a) :: pieces, by rw [List.map_cons, h1], by rw [List.map_cons, List.flatten_cons, ← h2], ?_, fun t => ?_⟩
        · intro y hy
          rcases List.mem_cons.1 hy with rfl | hy
          · exact ⟨⟨_, worldOk_sub hw 0, ha⟩, name, body, n1, n2, n3⟩
          · exact h3 y hy
        · rw [List.append_assoc, n3, cut_block n1 n2, h4]
          rfl

/-- the pieces of a written file -/
theorem pieces_written {c : Calendar} (hc : CalendarOk c) (hu : UnbrokenCal c) {w : World} (hw : World.Ok w) {out : Str}
    (h : c.fmtWrite w = .ok out) :
    ∃ (ps : Str) (pieces : List (CalComp × Str)), fmtProps c.props (w.sub 0) = .ok ps ∧ headOf out = c!"BEGIN:VCALENDAR\r\n" ++ ps ∧
      pieces.map Prod.fst = c.comps ∧ pieces.map Prod.snd = blocksOf out ∧ (∀ x ∈ pieces, Piece x) ∧
      out = headOf out ++ (blocksOf out).flatten ++ c!"END:VCALENDAR\r\n" := by
  unfold Calendar.fmtWrite at h
  cases hps : fmtProps c.props (w.sub 0) with
  | error e => simp only [hps] at h; cases h
  | ok ps =>
    cases hcs : fmtComps c.comps (w.sub 1) with
    | error e => simp only [hps, hcs] at h; cases h
    | ok cs =>
      simp only [hps, hcs] at h
      cases h
      have b1 := flat_props (fun p hp => ⟨hc.props p hp, hu.props p hp⟩) (worldOk_sub hw 0) hps
      obtain ⟨pieces, h1, h2, h3, h4⟩ := pieces_comps _ hc.comps hu.comps (worldOk_sub hw 1) hcs
      obtain ⟨k1, k2, n1, n2⟩ := bracket_lines (name := c!"VCALENDAR") (by simp [IsName, NameChar, isAlnum])
      have e : c!"BEGIN:VCALENDAR" ++ crlf ++ ps ++ cs ++ (c!"END:VCALENDAR" ++ crlf) =
          c!"BEGIN:" ++ c!"VCALENDAR" ++ crlf ++ (ps ++ (cs ++ (c!"END:" ++ c!"VCALENDAR" ++ crlf ++ []))) := by
        simp only [List.append_assoc, List.append_nil, List.cons_append, List.nil_append]
      have hblocks : blocksOf (c!"BEGIN:VCALENDAR" ++ crlf ++ ps ++ cs ++ (c!"END:VCALENDAR" ++ crlf)) = pieces.map Prod.snd := by
        unfold blocksOf
        rw [e, cutLines_crlf n1, cutBlocks, k1]
        simp only [if_true]
        rw [b1.1, cut_outer (by omega) _ _ b1.2, h4, cutLines_crlf n2, cutBlocks, k2]
        simp only [if_pos (show (1 : Nat) ≤ 1 by omega), cutLines, cutBlocks, List.append_nil]
      have hnext : ∃ line rest, cutLines (cs ++ (c!"END:" ++ c!"VCALENDAR" ++ crlf ++ [])) = line :: rest ∧ bracketOf line ≠ none := by
        cases pieces with
        | nil =>
          rw [h2]
          exact ⟨_, _, cutLines_crlf n2 [], by rw [k2]; simp⟩
        | cons x pieces =>
          obtain ⟨-, name, body, m1, m2, m3⟩ := h3 x (by simp)
          obtain ⟨q1, -, q2, -⟩ := bracket_lines m1
          rw [h2, List.map_cons, List.flatten_cons, m3, blockText, List.append_assoc, List.append_assoc (c!"BEGIN:" ++ name ++ crlf)]
          exact ⟨_, _, cutLines_crlf q2 _, by rw [q1]; simp⟩
      have hhead : headOf (c!"BEGIN:VCALENDAR" ++ crlf ++ ps ++ cs ++ (c!"END:VCALENDAR" ++ crlf)) = c!"BEGIN:VCALENDAR\r\n" ++ ps := by
        obtain ⟨line, rest, e1, e2⟩ := hnext
        unfold headOf
        rw [e, cutLines_crlf n1, b1.1, e1]
        simp only []
        rw [List.takeWhile_append_of_pos (by simpa using b1.2), List.takeWhile_cons_of_neg (by simpa using e2), List.append_nil, cutLines_flatten]
        rfl
      refine ⟨ps, pieces, rfl, hhead, h1, hblocks.symm, h3, ?_⟩
      rw [hhead, hblocks, ← h2]
      rfl

theorem join_pieces {pieces : List (CalComp × Str)} (h : ∀ x ∈ pieces, Piece x) {w0 : World} (hw0 : World.Ok w0) :
    ∃ w, World.Ok w ∧ fmtComps (pieces.map Prod.fst) w = .ok (pieces.map Prod.snd).flatten := by
  induction pieces with
  | nil => exact ⟨w0, hw0, rfl⟩
  | cons x pieces ih =>
    obtain ⟨w', hw', e'⟩ := ih (fun y hy => h y (by simp [hy]))
    obtain ⟨⟨w, hw, e⟩, -⟩ := h x (by simp)
    refine ⟨World.join w w', join_ok hw hw', ?_⟩
    have e0 : (World.join w w').sub 0 = w := rfl
    have e1 : (World.join w w').sub 1 = w' := rfl
    rw [List.map_cons, List.map_cons, List.flatten_cons, fmtComps, e0, e1, e, e']

/-- **C150.** The file consists of its head, of one text for each component of the calendar, written for this component, and
of its last line. -/
theorem file_parts {c : Calendar} (hc : CalendarOk c) (hu : UnbrokenCal c) {w : World} (hw : World.Ok w) {out : Str}
    (h : c.fmtWrite w = .ok out) :
    out = recombine out (blocksOf out) ∧ (blocksOf out).length = c.comps.length ∧
      ∀ x ∈ c.comps.zip (blocksOf out), ∃ w', World.Ok w' ∧ x.1.fmtWrite w' = .ok x.2 := by
  obtain ⟨ps, pieces, -, -, h3, h4, h5, h6⟩ := pieces_written hc hu hw h
  refine ⟨h6, by rw [← h4, ← h3]; simp, fun x hx => ?_⟩
  rw [← h3, ← h4, List.zip_map', List.mem_map] at hx
  obtain ⟨y, hy, rfl⟩ := hx
  exact (h5 y hy).1

theorem inAFile_piece {x : CalComp × Str} (h : InAFile x) : Piece x ∧ CalCompOk x.1 ∧
    ∃ c : Calendar, CalendarOk c ∧ CalendarSafe c ∧ (∀ y ∈ c.comps, HasStamps y.toOther) ∧ x.1 ∈ c.comps := by
  obtain ⟨c, w, out, hc, hs, hst, hu, hw, h, hx⟩ := h
  obtain ⟨ps, pieces, -, -, h3, h4, h5, -⟩ := pieces_written hc hu hw h
  have hx' := hx
  rw [← h3, ← h4, List.zip_map', List.mem_map] at hx
  obtain ⟨y, hy, rfl⟩ := hx
  have hm : y.1 ∈ c.comps := (List.of_mem_zip hx').1
  exact ⟨h5 y hy, hc.comps _ hm, c, hc, hs, hst, hm⟩

/-- **C150.** From a file that is put together from the head of a file and texts of components, of the same and of other
files, in any order and number, the calendar with these components is read. -/
theorem recombined {c : Calendar} (hc : CalendarOk c) (hs : CalendarSafe c) (hu : UnbrokenCal c) {w : World} (hw : World.Ok w) {out : Str}
    (h : c.fmtWrite w = .ok out) {picks : List (CalComp × Str)} (hp : ∀ x ∈ picks, InAFile x) :
    Calendar.fromStr (recombine out (picks.map Prod.snd)) = some ⟨c.props, picks.map Prod.fst⟩ := by
  obtain ⟨ps, pieces, h1, h2, -, -, -, -⟩ := pieces_written hc hu hw h
  obtain ⟨w', hw', h3⟩ := join_pieces (fun x hx => (inAFile_piece (hp x hx)).1) hw
  have hwrite : (⟨c.props, picks.map Prod.fst⟩ : Calendar).fmtWrite (World.join (w.sub 0) w') = .ok (recombine out (picks.map Prod.snd)) := by
    have e0 : (World.join (w.sub 0) w').sub 0 = w.sub 0 := rfl
    have e1 : (World.join (w.sub 0) w').sub 1 = w' := rfl
    unfold Calendar.fmtWrite
    simp only [e0, e1, h1, h3]
    unfold recombine
    rw [h2]
    rfl
  have hmem : ∀ x ∈ picks.map Prod.fst, ∃ c : Calendar, CalendarOk c ∧ CalendarSafe c ∧ (∀ y ∈ c.comps, HasStamps y.toOther) ∧ x ∈ c.comps := by
    intro x hx
    obtain ⟨y, hy, rfl⟩ := List.mem_map.1 hx
    exact (inAFile_piece (hp y hy)).2.2
  refine calendar_roundtrip _ ?_ ?_ ?_ _ (join_ok (worldOk_sub hw 0) hw') _ hwrite
  · exact ⟨hc.props, fun x hx => by obtain ⟨d, d1, -, -, d4⟩ := hmem x hx; exact d1.comps x d4⟩
  · exact ⟨hs.props, fun x hx => by obtain ⟨d, -, d2, -, d4⟩ := hmem x hx; exact d2.comps x d4⟩
  · exact fun x hx => by obtain ⟨d, -, -, d3, d4⟩ := hmem x hx; exact d3 x d4

end Ical
