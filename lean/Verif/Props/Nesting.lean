import Verif.Proofs.CalendarIO
import Verif.Spec.Structure

/-!
C29: the lines of a serialized calendar are properly nested.
-/

namespace Ical

open Nom Spec

/-- the text of lines -/
def linesText (ls : List Str) : Str := (ls.map (· ++ c!"\r\n")).flatten

/-- a text that unfolds to the given lines, whatever follows -/
def Emits (out : Str) (ls : List Str) : Prop :=
  (∀ l ∈ ls, NoLf l) ∧
  ∀ t, NoIndent t → unfoldSpec (out ++ t) = linesText ls ++ unfoldSpec t ∧ NoIndent (out ++ t)

/-- lines that leave the open components as they are -/
def Neutral (ls : List Str) : Prop :=
  ∀ top stack rest, nested (top :: stack) (ls ++ rest) ↔ nested (top :: stack) rest

/-- a text of whole components and properties, with the given BEGIN and END lines -/
def Block (out : Str) (ks : List (Bool × Str)) : Prop := ∃ ls, Emits out ls ∧ Neutral ls ∧ keywordLines ls = ks

theorem keywordLines_append (a b : List Str) : keywordLines (a ++ b) = keywordLines a ++ keywordLines b := by
  induction a with
  | nil => rfl
  | cons l a ih =>
    simp only [List.cons_append, keywordLines, ih]
    split
    · rfl
    · split <;> rfl

theorem emits_append {a b : Str} {la lb : List Str} (ha : Emits a la) (hb : Emits b lb) : Emits (a ++ b) (la ++ lb) := by
  refine ⟨fun l hl => (List.mem_append.1 hl).elim (ha.1 l) (hb.1 l), fun t ht => ?_⟩
  obtain ⟨h1, h2⟩ := hb.2 t ht
  obtain ⟨h3, h4⟩ := ha.2 _ h2
  rw [List.append_assoc]
  refine ⟨?_, h4⟩
  rw [h3, h1]
  simp [linesText]

theorem block_nil : Block [] [] := ⟨[], ⟨by simp, fun t ht => ⟨rfl, ht⟩⟩, fun _ _ _ => Iff.rfl, rfl⟩

theorem block_append {a b : Str} {ka kb : List (Bool × Str)} (ha : Block a ka) (hb : Block b kb) :
    Block (a ++ b) (ka ++ kb) := by
  obtain ⟨la, ha, na, rfl⟩ := ha
  obtain ⟨lb, hb, nb, rfl⟩ := hb
  refine ⟨la ++ lb, emits_append ha hb, fun top stack rest => ?_, keywordLines_append _ _⟩
  rw [List.append_assoc, na, nb]

/-- a line written as it is -/
theorem emits_raw {l : Str} (hn : NoLf l) (hi : NoIndent (l ++ crlf)) : Emits (l ++ crlf) [l] := by
  refine ⟨by simpa using hn, fun t ht => ?_⟩
  constructor
  · rw [List.append_assoc]
    refine (unfold_raw (markerFree_of_noLf hn) .crlf ht).trans ?_
    simp [linesText, Break.text]
  · cases l with
    | nil => exact noIndent_cons (by decide) (by decide)
    | cons c l => simpa [NoIndent] using hi

/-- a folded line -/
theorem emits_folded {l f : Str} (hn : NoLf l) (hi : NoIndent (l ++ crlf)) (hf : foldLine l = .ok f) :
    Emits (f ++ crlf) [l] := by
  refine ⟨by simpa using hn, fun t ht => ?_⟩
  have h1 := fun (t : Str) (ht : NoIndent t) => unfold_line (markerFree_of_noLf hn) hf (t := t) ht
  constructor
  · rw [List.append_assoc]
    refine (h1 t ht).trans ?_
    simp [linesText, crlf]
  · refine noIndent_of_unfold (l := l ++ crlf) ?_ ?_ ht
    · have := h1 [] noIndent_nil
      simpa [unfoldSpec] using this
    · cases l with
      | nil => exact noIndent_cons (by decide) (by decide)
      | cons c l => simpa [NoIndent] using hi

/-- a line that is no keyword line -/
theorem neutral_line {l : Str} (h1 : afterKeyword c!"begin:" l = none) (h2 : afterKeyword c!"end:" l = none) :
    Neutral [l] ∧ keywordLines [l] = [] := by
  constructor
  · intro top stack rest
    simp [nested, h1, h2]
  · simp [keywordLines, h1, h2]

/-- a component around a block -/
theorem block_component {name body : Str} {ks : List (Bool × Str)} (hn : NoLf name) (hb : Block body ks) :
    Block (c!"BEGIN:" ++ name ++ crlf ++ body ++ (c!"END:" ++ name ++ crlf)) ((true, name) :: (ks ++ [(false, name)])) := by
  obtain ⟨ls, he, hneu, rfl⟩ := hb
  have e1 : Emits (c!"BEGIN:" ++ name ++ crlf) [c!"BEGIN:" ++ name] :=
    emits_raw (by simpa [NoLf] using hn) (noIndent_cons (by decide) (by decide))
  have e2 : Emits (c!"END:" ++ name ++ crlf) [c!"END:" ++ name] :=
    emits_raw (by simpa [NoLf] using hn) (noIndent_cons (by decide) (by decide))
  have k1 : afterKeyword c!"begin:" (c!"BEGIN:" ++ name) = some name := by
    simp [afterKeyword, lowerAscii]
  have k2 : afterKeyword c!"begin:" (c!"END:" ++ name) = none := by
    simp [afterKeyword, lowerAscii]
  have k3 : afterKeyword c!"end:" (c!"END:" ++ name) = some name := by
    simp [afterKeyword, lowerAscii]
  refine ⟨_, emits_append (emits_append e1 he) e2, fun top stack rest => ?_, by
    rw [keywordLines_append, keywordLines_append]
    simp only [keywordLines, k1, k2, k3]
    rfl⟩
  simp only [List.append_assoc, List.singleton_append]
  show nested (top :: stack) ((c!"BEGIN:" ++ name) :: (ls ++ ((c!"END:" ++ name) :: rest))) ↔ _
  rw [nested]
  simp only [k1]
  rw [hneu]
  simp only [nested, k2, k3, true_and]

theorem keyword_take {b : Str} (hb : b.head? = some ':' ∨ b.head? = some ';') (kw a : Str) (h1 : ':' ∉ kw) (h2 : ';' ∉ kw)
    (h : ((a ++ b).take (kw.length + 1)).map lowerAscii = kw ++ [':']) :
    ((a ++ [':']).take (kw.length + 1)).map lowerAscii = kw ++ [':'] := by
  induction kw generalizing a with
  | nil =>
    cases a with
    | nil => rfl
    | cons c a => simpa using h
  | cons k kw ih =>
    cases a with
    | nil =>
      cases b with
      | nil => simp at h
      | cons c b =>
        exfalso
        simp only [List.nil_append, List.length_cons, List.take_succ_cons, List.map_cons, List.cons_append,
          List.cons.injEq] at h
        simp only [List.head?_cons, Option.some.injEq] at hb
        rcases hb with rfl | rfl
        · exact h1 (by rw [← h.1]; simp [lowerAscii])
        · exact h2 (by rw [← h.1]; simp [lowerAscii])
    | cons c a =>
      simp only [List.length_cons, List.cons_append, List.take_succ_cons, List.map_cons, List.cons.injEq] at h ⊢
      exact ⟨h.1, ih a (fun hc => h1 (by simp [hc])) (fun hc => h2 (by simp [hc])) h.2⟩

theorem afterKeyword_line {kw a b : Str} (h1 : ':' ∉ kw) (h2 : ';' ∉ kw)
    (h : afterKeyword (kw ++ [':']) (a ++ [':']) = none) (hb : b.head? = some ':' ∨ b.head? = some ';') :
    afterKeyword (kw ++ [':']) (a ++ b) = none := by
  unfold afterKeyword at *
  rw [ite_eq_right_iff] at *
  intro hc
  simp only [List.length_append, List.length_cons, List.length_nil, Nat.zero_add] at h hc
  exact absurd (h (keyword_take hb kw a h1 h2 hc)) (by simp)

theorem noLf_params (l : List (Str × Str)) (h : ∀ x ∈ l, NoLf x.1 ∧ NoLf x.2) : NoLf (paramsText l) := by
  induction l with
  | nil => simp [paramsText, NoLf]
  | cons x l ih =>
    obtain ⟨k, v⟩ := x
    have h1 := h (k, v) (by simp)
    have h2 := ih (fun y hy => h y (by simp [hy]))
    unfold NoLf at *
    simp only [paramsText, List.mem_append, not_or]
    refine ⟨⟨⟨⟨by decide, h1.1⟩, by decide⟩, ?_⟩, h2⟩
    unfold quoteIfContainsColon
    split
    · simp only [List.mem_append, not_or]
      exact ⟨⟨by decide, h1.2⟩, by decide⟩
    · exact h1.2

variable [Uni]

theorem block_property {p : Property} (hp : PlainProp p) {w : World} (hw : World.Ok w) {out : Str}
    (h : p.fmtWrite w = .ok out) : Block out [] := by
  unfold Property.fmtWrite at h
  cases hf : foldLine (p.line w) with
  | error e => rw [hf] at h; cases h
  | ok s =>
    rw [hf] at h
    cases h
    have hval : NoLf p.valueText := by
      by_cases ht : IsText p
      · rw [valueText_of_text ((isText_iff p).1 ht)]
        exact (escape_inert p.val).2
      · rw [valueText_of_not (fun hc => ht ((isText_iff p).2 hc))]
        exact hp.value.resolve_left ht
    have hpar := noLf_params (w.order [] p.params) (fun x hx => hp.params x ((hw.order [] p.params).mem_iff.1 hx))
    have hn : NoLf (p.line w) := by
      have := hp.key
      unfold Property.line NoLf at *
      simp only [List.mem_append, not_or]
      exact ⟨⟨⟨this, hpar⟩, by decide⟩, hval⟩
    have hline : ∃ b, p.line w = p.key ++ b ∧ (b.head? = some ':' ∨ b.head? = some ';') := by
      refine ⟨paramsText (w.order [] p.params) ++ [':'] ++ p.valueText, by simp [Property.line], ?_⟩
      cases w.order [] p.params with
      | nil => left; rfl
      | cons x l => right; rfl
    obtain ⟨b, hb, hh⟩ := hline
    have hbn : b ≠ [] := by rintro rfl; simp at hh
    refine ⟨[p.line w], emits_folded hn ?_ hf, neutral_line (l := p.line w) ?_ ?_⟩
    · have hi := hp.indent
      rw [hb]
      cases hk : p.key with
      | nil =>
        cases b with
        | nil => exact absurd rfl hbn
        | cons c b =>
          simp at hh
          rcases hh with rfl | rfl <;> exact noIndent_cons (by decide) (by decide)
      | cons c k =>
        rw [hk] at hi
        refine noIndent_cons ?_ ?_
        · rintro rfl; exact hi.1 (by simp)
        · rintro rfl; exact hi.2 (by simp)
    · rw [hb]
      exact afterKeyword_line (kw := c!"begin") (by decide) (by decide) hp.keyword.1 hh
    · rw [hb]
      exact afterKeyword_line (kw := c!"end") (by decide) (by decide) hp.keyword.2 hh

theorem block_props {l : List Property} (hl : ∀ p ∈ l, PlainProp p) {w : World} (hw : World.Ok w) {out : Str}
    (h : fmtProps l w = .ok out) : Block out [] := by
  induction l generalizing w out with
  | nil => cases h; exact block_nil
  | cons p l ih =>
    unfold fmtProps at h
    cases ha : p.fmtWrite (w.sub 0) with
    | error e => rw [ha] at h; cases h
    | ok a =>
      rw [ha] at h
      cases hb : fmtProps l (w.sub 1) with
      | error e => rw [hb] at h; cases h
      | ok b =>
        rw [hb] at h
        cases h
        exact block_append (block_property (hl p (by simp)) (worldOk_sub hw 0) ha)
          (ih (fun q hq => hl q (by simp [hq])) (worldOk_sub hw 1) hb)

omit [Uni] in
/-- a generated line -/
theorem block_generated {b : Bool} {k v : Str} (hk : NoLf k) (hi : NoIndent (k ++ (v ++ crlf)))
    (h1 : afterKeyword c!"begin:" (k ++ v) = none) (h2 : afterKeyword c!"end:" (k ++ v) = none) (hv : NoLf v) :
    Block (if b then [] else k ++ v ++ crlf) [] := by
  split
  · exact block_nil
  · refine ⟨_, emits_raw ?_ (by simpa using hi), neutral_line h1 h2⟩
    unfold NoLf at *
    simp only [List.mem_append, not_or]
    exact ⟨hk, hv⟩

mutual
theorem block_other (o : Other) (ho : PlainOther o) {w : World} (hw : World.Ok w) {out : Str}
    (h : o.fmtWrite w = .ok out) : Block out (skeleton o) := by
  match o, ho with
  | .mk name props multi comps, ho =>
    obtain ⟨hn, hp, hm, hc⟩ := ho
    unfold Other.fmtWrite at h
    cases hps : fmtProps props.values (w.sub 0) with
    | error e => simp only [hps] at h; cases h
    | ok ps =>
      cases hms : fmtProps multi.values.flatten (w.sub 1) with
      | error e => simp only [hps, hms] at h; cases h
      | ok ms =>
        cases hcs : fmtOthers comps (w.sub 2) with
        | error e => simp only [hps, hms, hcs] at h; cases h
        | ok cs =>
          simp only [hps, hms, hcs] at h
          cases h
          have b1 : Block ps [] := by
            refine block_props ?_ (worldOk_sub hw 0) hps
            intro p hp'
            obtain ⟨x, hx, rfl⟩ := List.mem_map.1 hp'
            exact hp x hx
          have b2 : Block ms [] := by
            refine block_props ?_ (worldOk_sub hw 1) hms
            intro p hp'
            obtain ⟨g, hg, hpg⟩ := List.mem_flatten.1 hp'
            obtain ⟨x, hx, rfl⟩ := List.mem_map.1 hg
            exact hm x hx p hpg
          have b3 := block_others comps hc (worldOk_sub hw 2) hcs
          have b4 : Block (if props.containsKey c!"DTSTAMP" then [] else c!"DTSTAMP:" ++ fmtUtc (w.now []) ++ crlf) [] :=
            block_generated (by decide) (noIndent_cons (by decide) (by decide)) (by simp [afterKeyword, lowerAscii])
              (by simp [afterKeyword, lowerAscii]) (fmtUtc_not_mem (w.now []) (by decide) (by decide))
          have b5 : Block (if props.containsKey c!"UID" then [] else c!"UID:" ++ w.uuid [] ++ crlf) [] :=
            block_generated (by decide) (noIndent_cons (by decide) (by decide)) (by simp [afterKeyword, lowerAscii])
              (by simp [afterKeyword, lowerAscii]) (uuid_not_mem hw (by decide) [])
          have := block_component hn (block_append (block_append (block_append (block_append b4 b1) b5) b2) b3)
          simpa only [List.append_assoc, List.nil_append, skeleton] using this
theorem block_others (l : List Other) (hl : PlainOthers l) {w : World} (hw : World.Ok w) {out : Str}
    (h : fmtOthers l w = .ok out) : Block out (skeletons l) := by
  match l, hl with
  | [], _ =>
    simp only [fmtOthers] at h
    cases h
    exact block_nil
  | o :: l, hl =>
    obtain ⟨ho, hl⟩ := hl
    unfold fmtOthers at h
    cases ha : o.fmtWrite (w.sub 0) with
    | error e => rw [ha] at h; cases h
    | ok a =>
      rw [ha] at h
      cases hb : fmtOthers l (w.sub 1) with
      | error e => rw [hb] at h; cases h
      | ok b =>
        rw [hb] at h
        cases h
        exact block_append (block_other o ho (worldOk_sub hw 0) ha) (block_others l hl (worldOk_sub hw 1) hb)
end

theorem block_comps (l : List CalComp) (hl : ∀ x ∈ l, PlainOther x.toOther) {w : World} (hw : World.Ok w) {out : Str}
    (h : fmtComps l w = .ok out) : Block out (l.flatMap (fun x => skeleton x.toOther)) := by
  induction l generalizing w out with
  | nil => cases h; exact block_nil
  | cons x l ih =>
    unfold fmtComps at h
    rw [calComp_fmtWrite] at h
    cases ha : x.toOther.fmtWrite (w.sub 0) with
    | error e => rw [ha] at h; cases h
    | ok a =>
      rw [ha] at h
      cases hb : fmtComps l (w.sub 1) with
      | error e => rw [hb] at h; cases h
      | ok b =>
        rw [hb] at h
        cases h
        exact block_append (block_other _ (hl x (by simp)) (worldOk_sub hw 0) ha)
          (ih (fun y hy => hl y (by simp [hy])) (worldOk_sub hw 1) hb)

theorem calendar_lines (c : Calendar) (hp : ∀ p ∈ c.props, PlainProp p) (hc : ∀ x ∈ c.comps, PlainOther x.toOther)
    (w : World) (hw : World.Ok w) (out : Str) (h : c.fmtWrite w = .ok out) :
    ∃ lines, unfold out = (lines.map (· ++ c!"\r\n")).flatten ∧ (∀ l ∈ lines, NoLf l) ∧ ProperlyNested lines ∧
      keywordLines lines = calendarSkeleton c := by
  unfold Calendar.fmtWrite at h
  cases hps : fmtProps c.props (w.sub 0) with
  | error e => simp only [hps] at h; cases h
  | ok ps =>
    cases hcs : fmtComps c.comps (w.sub 1) with
    | error e => simp only [hps, hcs] at h; cases h
    | ok cs =>
      simp only [hps, hcs] at h
      cases h
      obtain ⟨ls, he, hn, hk⟩ :=
        block_append (block_props hp (worldOk_sub hw 0) hps) (block_comps _ hc (worldOk_sub hw 1) hcs)
      have e1 : Emits c!"BEGIN:VCALENDAR\r\n" [c!"BEGIN:VCALENDAR"] :=
        emits_raw (l := c!"BEGIN:VCALENDAR") (by decide) (noIndent_cons (by decide) (by decide))
      have e2 : Emits c!"END:VCALENDAR\r\n" [c!"END:VCALENDAR"] :=
        emits_raw (l := c!"END:VCALENDAR") (by decide) (noIndent_cons (by decide) (by decide))
      obtain ⟨h1, h2⟩ := emits_append (emits_append e1 he) e2
      refine ⟨_, ?_, h1, ⟨ls ++ [c!"END:VCALENDAR"], by simp, ?_⟩, ?_⟩
      · have := (h2 [] noIndent_nil).1
        simp only [List.append_nil, unfoldSpec] at this
        rw [unfold_eq_spec]
        simpa [linesText, crlf] using this
      · rw [hn]
        simp [nested, afterKeyword, lowerAscii]
      · rw [keywordLines_append, keywordLines_append, hk]
        rfl

/-- **C29.** What is written for a calendar without raw line feeds unfolds to lines that all end in CRLF,
contain no other line feed, and form one properly nested VCALENDAR. -/
theorem properly_nested (c : Calendar) (hp : ∀ p ∈ c.props, PlainProp p) (hc : ∀ x ∈ c.comps, PlainOther x.toOther)
    (w : World) (hw : World.Ok w) (out : Str) (h : c.fmtWrite w = .ok out) :
    ∃ lines, unfold out = (lines.map (· ++ c!"\r\n")).flatten ∧ (∀ l ∈ lines, NoLf l) ∧ ProperlyNested lines := by
  obtain ⟨lines, h1, h2, h3, -⟩ := calendar_lines c hp hc w hw out h
  exact ⟨lines, h1, h2, h3⟩

/-- **C67** (partial: for calendars without line feeds in properties that are not TEXT). The BEGIN and END lines of
what is written are exactly those of the components that were added, in order; no text in a property makes another
one. -/
theorem no_injection_partial (c : Calendar) (hp : ∀ p ∈ c.props, PlainProp p)
    (hc : ∀ x ∈ c.comps, PlainOther x.toOther) (w : World) (hw : World.Ok w) (out : Str)
    (h : c.fmtWrite w = .ok out) :
    ∃ lines, unfold out = (lines.map (· ++ c!"\r\n")).flatten ∧ (∀ l ∈ lines, NoLf l) ∧
      keywordLines lines = calendarSkeleton c := by
  obtain ⟨lines, h1, h2, -, h4⟩ := calendar_lines c hp hc w hw out h
  exact ⟨lines, h1, h2, h4⟩

end Ical

namespace Ical

open Nom Spec

/-- an alarm in an event in a calendar -/
example : ProperlyNested [c!"BEGIN:VCALENDAR", c!"VERSION:2.0", c!"BEGIN:VEVENT", c!"SUMMARY:END:VEVENT", c!"Begin:VALARM",
    c!"end:VALARM", c!"END:VEVENT", c!"END:VCALENDAR"] := by
  refine ⟨_, rfl, ?_⟩
  simp [nested, afterKeyword, lowerAscii]

/-- crossing components are not properly nested -/
example : ¬ ProperlyNested [c!"BEGIN:VCALENDAR", c!"BEGIN:VEVENT", c!"BEGIN:VALARM", c!"END:VEVENT", c!"END:VALARM",
    c!"END:VCALENDAR"] := by
  rintro ⟨_, h, h'⟩
  simp only [List.cons.injEq, true_and] at h
  subst h
  simp [nested, afterKeyword, lowerAscii] at h'

/-- The theorem applies to a calendar whose description contains the lines of an event. -/
example : PlainProp ⟨c!"DESCRIPTION", c!"x\nBEGIN:VEVENT\nEND:VEVENT", [(c!"LANGUAGE", c!"en")]⟩ := by
  refine @PlainProp.mk _ ?_ ?_ ?_ ?_ ?_ <;> decide +kernel

/-- The calendar name is not a TEXT property, so a line feed in it must be excluded: it ends the line and
what follows is read as a line of its own. -/
theorem nested_needs_no_lf :
    @Calendar.fmtWrite Uni.ascii (Calendar.empty.appendProperty ⟨c!"NAME", c!"x\nEND:VCALENDAR", []⟩)
        ⟨fun _ => ⟨⟨⟨2026, 1, 1⟩, 0, 0, 0, 0⟩⟩, fun _ => c!"0", fun _ l => l⟩ =
      .ok c!"BEGIN:VCALENDAR\r\nNAME:x\nEND:VCALENDAR\r\nEND:VCALENDAR\r\n" := by
  decide +kernel

/-- **C67 (violated).** A calendar name, a URL, a venue's postal code or a time zone id with line breaks is written
as it is: readers find an event nobody added, an attendee nobody invited. -/
theorem no_injection_violated :
    let w : World := ⟨fun _ => ⟨⟨⟨2026, 1, 1⟩, 0, 0, 0, 0⟩⟩, fun _ => c!"0", fun _ l => l⟩
    let evil := c!"x\r\nBEGIN:VEVENT\r\nUID:evil\r\nEND:VEVENT"
    let named := Calendar.empty.name evil
    let event : Event := Component.url (Component.uid (Component.timestamp (⟨⟨[], [], []⟩⟩ : Event)
      ⟨⟨⟨2026, 1, 1⟩, 0, 0, 0, 0⟩⟩) c!"u") c!"x\r\nATTENDEE:evil"
    let zoned : Event := Component.starts (Component.uid (Component.timestamp (⟨⟨[], [], []⟩⟩ : Event)
      ⟨⟨⟨2026, 1, 1⟩, 0, 0, 0, 0⟩⟩) c!"u") (.dateTime (.zoned ⟨⟨2026, 1, 1⟩, 0, 0, 0, 0⟩ c!"x:y\r\nATTENDEE:evil"))
    named.comps.length = 0 ∧
    (∃ out, @Calendar.fmtWrite Uni.ascii named w = .ok out ∧
      (@Calendar.fromStr Uni.ascii out).map (fun c => c.comps.map (fun x => x.toOther.name)) =
        some [c!"VEVENT", c!"VEVENT"]) ∧
    (∃ out, @Calendar.fmtWrite Uni.ascii (Calendar.empty.push (.event event)) w = .ok out ∧
      (@Calendar.fromStr Uni.ascii out).map (fun c => c.comps.map (fun x => x.toOther.inner.multi.map Prod.fst)) =
        some [[c!"ATTENDEE"]]) ∧
    (∃ out, @Calendar.fmtWrite Uni.ascii (Calendar.empty.push (.event zoned)) w = .ok out ∧
      c!"\r\nATTENDEE:evil" <:+: out) := by
  intro w evil named event zoned
  have key : ∀ (r : Except Crash Str) (P : Str → Prop) [DecidablePred P],
      (match r with | .ok out => decide (P out) | .error _ => false) = true → ∃ out, r = .ok out ∧ P out := by
    intro r P _ h
    cases r with
    | error e => cases h
    | ok out => exact ⟨out, rfl, of_decide_eq_true h⟩
  refine ⟨rfl, key _ _ ?_, key _ _ ?_, key _ _ ?_⟩ <;> decide +kernel

end Ical
