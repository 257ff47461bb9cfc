import Verif.Proofs.Errors
import Verif.Props.Parsing
import Verif.Props.Folding

/-!
Error messages (C90, C91).
-/

namespace Ical

open Nom Spec

/-! ### places -/

theorem blen_utf8 (s : Str) : (s.flatMap String.utf8EncodeChar).length = blen s := by
  induction s with
  | nil => rfl
  | cons c s ih => simp [blen, ih]

theorem takeWhile_ne_not_mem (s : Str) : '\n' ∉ s.takeWhile (· != '\n') := by
  intro h
  have := List.all_takeWhile (p := (· != '\n')) (l := s)
  rw [List.all_eq_true] at this
  simpa using this _ h

theorem dropWhile_ne_cases (s : Str) : s.dropWhile (· != '\n') = [] ∨ ∃ b, s.dropWhile (· != '\n') = '\n' :: b := by
  cases h : s.dropWhile (· != '\n') with
  | nil => exact .inl rfl
  | cons c b =>
    right
    have := List.head?_dropWhile_not (· != '\n') s
    rw [h] at this
    simp at this
    exact ⟨b, by rw [this]⟩

theorem trimEnd_spec (s : Str) : ∃ white, s = trimEnd s ++ white ∧ (∀ c ∈ white, isWhitespace c = true) ∧
    (∀ c, (trimEnd s).getLast? = some c → isWhitespace c = false) := by
  refine ⟨(s.reverse.takeWhile isWhitespace).reverse, ?_, ?_, ?_⟩
  · unfold trimEnd
    rw [← List.reverse_append, List.takeWhile_append_dropWhile, List.reverse_reverse]
  · intro c hc
    rw [List.mem_reverse] at hc
    have := List.all_takeWhile (p := isWhitespace) (l := s.reverse)
    rw [List.all_eq_true] at this
    exact this c hc
  · intro c hc
    unfold trimEnd at hc
    rw [List.getLast?_reverse] at hc
    have := List.head?_dropWhile_not isWhitespace s.reverse
    rw [hc] at this
    exact this

theorem takeWhile_append_of_not_mem {a b : Str} (h : '\n' ∉ a) :
    (a ++ b).takeWhile (· != '\n') = a ++ b.takeWhile (· != '\n') := by
  rw [List.takeWhile_append_of_pos]
  intro c hc
  simp only [bne_iff_ne, ne_eq]
  rintro rfl
  exact h hc

/-- the place that is computed is the place -/
theorem placeOf_isPlace (pre rest : Str) :
    IsPlace (pre ++ rest) rest (placeOf (pre ++ rest) rest).lineNumber (placeOf (pre ++ rest) rest).line
      (placeOf (pre ++ rest) rest).column := by
  have hpre : (pre ++ rest).take ((pre ++ rest).length - rest.length) = pre := by
    simp
  obtain ⟨white, h1, h2, h3⟩ := trimEnd_spec
    (((pre.reverse.takeWhile (· != '\n')).reverse ++ rest).takeWhile (· != '\n'))
  have hb : '\n' ∉ (pre.reverse.takeWhile (· != '\n')).reverse := by
    rw [List.mem_reverse]
    exact takeWhile_ne_not_mem _
  have hsplit : pre = (pre.reverse.dropWhile (· != '\n')).reverse ++ (pre.reverse.takeWhile (· != '\n')).reverse := by
    rw [← List.reverse_append, List.takeWhile_append_dropWhile, List.reverse_reverse]
  refine ⟨(pre.reverse.dropWhile (· != '\n')).reverse, (pre.reverse.takeWhile (· != '\n')).reverse,
    rest.takeWhile (· != '\n'), rest.dropWhile (· != '\n'), white, ?_, ?_, ?_, hb, ?_,
    List.takeWhile_append_dropWhile.symm, takeWhile_ne_not_mem _, dropWhile_ne_cases _, ?_, h2, ?_⟩
  · rw [← hsplit]
  · rcases dropWhile_ne_cases pre.reverse with h | ⟨b, h⟩
    · exact .inl (by rw [h]; rfl)
    · exact .inr ⟨b.reverse, by rw [h]; simp⟩
  · unfold placeOf
    rw [hpre]
    simp only
    conv => lhs; rw [hsplit]
    rw [List.count_append, List.count_eq_zero.2 hb, Nat.add_zero, List.count_eq_length_filter]
    rfl
  · unfold placeOf
    rw [hpre, blen_utf8]
  · unfold placeOf
    rw [hpre]
    simp only
    rw [← h1, takeWhile_append_of_not_mem hb]
  · unfold placeOf
    rw [hpre]
    exact h3

theorem convertErrorFrom_message {input : Str} (hne : input ≠ []) (l : List Entry) :
    (∀ e ∈ l, e.1 <:+ input) → ∀ k, Message input k l (convertErrorFrom input k l) := by
  induction l with
  | nil => intro _ k; exact .nil
  | cons e l ih =>
    intro h k
    obtain ⟨rest, what⟩ := e
    obtain ⟨pre, hp⟩ := h (rest, what) (by simp)
    have hpl := placeOf_isPlace pre rest
    simp only at hp
    rw [hp] at hpl
    have := Message.cons (what := what) hpl (ih (fun e he => h e (by simp [he])) (k + 1))
    have he : convertErrorFrom input k ((rest, what) :: l) = Nat.toDigits 10 k ++ c!": at line " ++
        Nat.toDigits 10 (placeOf input rest).lineNumber ++ c!", in " ++ what.says ++ c!":\n" ++
        (placeOf input rest).line ++ c!"\n" ++ List.replicate ((placeOf input rest).column - 1) ' ' ++ c!"^\n\n" ++
        convertErrorFrom input (k + 1) l := by
      have hf : input.isEmpty = false := by
        cases input with
        | nil => exact (hne rfl).elim
        | cons => rfl
      rw [convertErrorFrom, entryText, hf]
      cases what <;> simp [EKind.says, caret, natToStr]
    rw [he]
    exact this

/-- the text of a line at a place, and the numbers, are determined -/
theorem isPlace_unique {input rest line line' : Str} {n n' col col' : Nat} (h : IsPlace input rest n line col)
    (h' : IsPlace input rest n' line' col') : n = n' ∧ line = line' ∧ col = col' := by
  obtain ⟨above, before, after, below, white, h1, h2, h3, h4, h5, h6, h7, h8, h9, h10, h11⟩ := h
  obtain ⟨above', before', after', below', white', g1, g2, g3, g4, g5, g6, g7, g8, g9, g10, g11⟩ := h'
  have hpre : above ++ before = above' ++ before' := List.append_cancel_right (h1.symm.trans g1)
  have hb : ∀ {a b : Str}, (a = [] ∨ ∃ x, a = x ++ ['\n']) → '\n' ∉ b →
      ((a ++ b).reverse.takeWhile (· != '\n')) = b.reverse := by
    intro a b ha hb
    rw [List.reverse_append]
    have hb' : '\n' ∉ b.reverse := by simpa using hb
    rw [takeWhile_append_of_not_mem hb']
    rcases ha with rfl | ⟨x, rfl⟩
    · simp
    · simp
  have e1 : before = before' := by
    have := hb h2 h4
    rw [hpre, hb g2 g4] at this
    exact (List.reverse_inj.1 this).symm
  subst e1
  have e2 : above = above' := List.append_cancel_right hpre
  subst e2
  have ha : ∀ {a b : Str}, (b = [] ∨ ∃ x, b = '\n' :: x) → '\n' ∉ a → (a ++ b).takeWhile (· != '\n') = a := by
    intro a b hb ha
    rw [takeWhile_append_of_not_mem ha]
    rcases hb with rfl | ⟨x, rfl⟩ <;> simp
  have e3 : after = after' := by
    have := ha h8 h7
    rw [← h6, g6, ha g8 g7] at this
    exact this.symm
  subst e3
  refine ⟨by rw [h3, g3], ?_, by rw [h5, g5]⟩
  have ht : ∀ {l w : Str}, (∀ c ∈ w, isWhitespace c = true) → (∀ c, l.getLast? = some c → isWhitespace c = false) →
      trimEnd (l ++ w) = l := by
    intro l w hw hl
    unfold trimEnd
    rw [List.reverse_append, List.dropWhile_append_of_pos (by simpa using hw)]
    have : l.reverse.dropWhile isWhitespace = l.reverse := by
      cases hr : l.reverse with
      | nil => rfl
      | cons c x =>
        have : isWhitespace c = false := hl c (by rw [List.getLast?_eq_head?_reverse, hr]; rfl)
        simp [this]
    rw [this, List.reverse_reverse]
  have := ht h10 h11
  rw [← h9, g9, ht g10 g11] at this
  exact this.symm

/-- a message is determined by the places it is about -/
theorem message_unique {input : Str} {k : Nat} {l : List Entry} {m m' : Str} (h : Message input k l m)
    (h' : Message input k l m') : m = m' := by
  induction h generalizing m' with
  | nil => cases h'; rfl
  | cons hp _ ih =>
    cases h' with
    | cons hp' h' =>
      obtain ⟨rfl, rfl, rfl⟩ := isPlace_unique hp hp'
      rw [ih h']

variable [Uni]

/-! ### C90 -/

/-- **C90.** Places that are blamed are in the text, and each of them is inside the ones that follow. -/
theorem blamed_places {i : Str} {l : List Entry} (h : Blame i l) :
    (∀ e ∈ l, e.1 <:+ i) ∧ List.Pairwise (fun a b => a.1 <:+ b.1) l := by
  have opens : ∀ {i name body : Str}, OpensBody i name body → body <:+ i := by
    rintro i name body ⟨b, kw, _, _, _, _, rfl⟩
    exact ⟨b ++ kw ++ name, rfl⟩
  induction h with
  | mismatch h h1 h2 h3 =>
    rename_i i name body before kw s
    have : s <:+ i := by
      refine List.IsSuffix.trans ?_ (opens h)
      rw [h1]
      exact ⟨before ++ kw, rfl⟩
    refine ⟨?_, ?_⟩
    · intro e he
      simp only [List.mem_cons, List.not_mem_nil, or_false] at he
      rcases he with rfl | rfl <;> exact this
    · simp
  | keyword h h1 h2 h3 h4 h5 =>
    rename_i i name body before blank line space s
    have hl : line <:+ i := by
      refine List.IsSuffix.trans ?_ (opens h)
      rw [h1]
      exact ⟨before, rfl⟩
    have hs : space ++ s <:+ line := by rw [h2]; exact ⟨blank, by simp⟩
    have hs' : s <:+ space ++ s := ⟨space, rfl⟩
    refine ⟨?_, ?_⟩
    · intro e he
      simp only [List.mem_cons, List.not_mem_nil, or_false] at he
      rcases he with rfl | rfl | rfl | rfl
      · exact hs'.trans (hs.trans hl)
      · exact hs.trans hl
      · exact hs.trans hl
      · exact hl
    · simp [hs, hs', hs'.trans hs]
  | inner h h1 _ ih =>
    rename_i i name body before line l _
    have hl : line <:+ i := by
      refine List.IsSuffix.trans ?_ (opens h)
      rw [h1]
      exact ⟨before, rfl⟩
    refine ⟨?_, ?_⟩
    · intro e he
      rcases List.mem_append.1 he with he | he
      · exact (ih.1 e he).trans hl
      · simp only [List.mem_cons, List.not_mem_nil, or_false] at he
        subst he
        exact hl
    · rw [List.pairwise_append]
      refine ⟨ih.2, by simp, ?_⟩
      intro a ha b hb
      simp only [List.mem_cons, List.not_mem_nil, or_false] at hb
      subst hb
      exact ih.1 a ha

theorem blame_ne_nil {i : Str} {l : List Entry} (h : Blame i l) : i ≠ [] := by
  have opens : ∀ {i name body : Str}, OpensBody i name body → i ≠ [] := by
    rintro i name body ⟨b, kw, _, hk, _, _, rfl⟩ h
    simp only [List.append_eq_nil_iff] at h
    rw [h.1.1.2] at hk
    cases hk
  cases h with
  | mismatch h _ _ _ => exact opens h
  | keyword h _ _ _ _ _ => exact opens h
  | inner h _ _ => exact opens h

/-- the payload of `components` -/
theorem components_payload (i : Str) : EP.components.payload i =
    match component i with
    | .failure => some (EP.component.err i)
    | _ => none := by
  unfold EP.payload
  rcases components_cases i with ⟨c, h1, h2⟩ | ⟨h1, h2⟩ | ⟨h1, h2⟩
  · have : EP.components.run i = .ok [] [c] := h2
    rw [this, h1]
  · have : EP.components.run i = .ok i [] := h2
    rw [this]
    rcases h1 with h1 | ⟨r, c, _, h1⟩ <;> rw [h1]
  · have : EP.components.run i = .failure := h2
    rw [this, h1]
    simp only [Option.some.injEq]
    have hr : (EP.allConsuming EP.component).run i = .failure := by
      have h1' : EP.component.run i = .failure := h1
      simp [EP.allConsuming, allConsuming, h1']
    have e1 : EP.components.err i = EP.many0Err (EP.allConsuming EP.component) (i.length + 1) i := rfl
    rw [e1, EP.many0Err, hr]
    have h1' : EP.component.run i = .failure := h1
    simp [EP.allConsuming, h1']

/-- **C90.** A calendar text is rejected exactly if there is an error message. The same holds for components and
properties. -/
theorem error_iff_rejected (i : Str) :
    ((readCalendarError i).isSome ↔ readCalendar i = none) ∧
    ((readCalendarError i).isSome ↔ readComponents i = none) ∧
    ((readComponentError i).isSome ↔ readComponent i = none) ∧
    ((readPropertyError i).isSome ↔ readProperty i = none) := by
  refine ⟨?_, ?_, ?_, ?_⟩
  · unfold readCalendarError readCalendar
    rw [components_payload]
    rcases components_cases i with ⟨c, h1, h2⟩ | ⟨h1, h2⟩ | ⟨h1, h2⟩
    · rw [h1, h2]
      simp only [finish]
      split <;> simp
    · rw [h2]
      rcases h1 with h1 | ⟨r, c, _, h1⟩ <;> simp [h1, finish]
    · simp [h1, h2, finish]
  · unfold readCalendarError readComponents
    rw [components_payload]
    rcases components_cases i with ⟨c, h1, h2⟩ | ⟨h1, h2⟩ | ⟨h1, h2⟩
    · simp [h1, h2, finish]
    · rw [h2]
      rcases h1 with h1 | ⟨r, c, _, h1⟩ <;> simp [h1, finish]
    · simp [h1, h2, finish]
  · unfold readComponentError readComponent EP.payload
    have : EP.component.run i = component i := rfl
    rw [this]
    cases component i <;> simp [finish]
  · unfold readPropertyError readProperty EP.payload
    have : EP.property.run i = property i := (rfl)
    rw [this]
    cases property i <;> simp [finish]

/-- **C90.** The error message for a calendar text is about places that may be blamed, and says of each where it is. -/
theorem calendar_error_message {i m : Str} (h : readCalendarError i = some m) :
    ∃ l text, Blame i l ∧ Message i 0 l text ∧ m = c!"error: " ++ text := by
  unfold readCalendarError at h
  rw [components_payload] at h
  cases hc : component i with
  | ok r a => simp [hc] at h
  | error => simp [hc] at h
  | failure =>
    simp only [hc, Option.map_some, Option.some.injEq] at h
    have hb : Blame i (EP.component.err i) := EP.component_blame hc
    exact ⟨_, _, hb, convertErrorFrom_message (blame_ne_nil hb) _ (blamed_places hb).1 0, h.symm⟩

/-! a text that cannot be read as a component without a component inside being at fault -/

theorem property_stands {i : Str} {p : PProp} (h : property i = .ok i p) :
    ∀ c, i.head? = some c → ¬ NameChar c := by
  intro c hc hn
  unfold property cut map pair at h
  cases hp : propertyParts i with
  | error => simp [hp] at h
  | failure => simp [hp] at h
  | ok r a =>
    simp only [hp] at h
    have hr := (shrinks_propertyParts _ _ _ hp).length_le
    have : i.length ≤ r.length := by
      cases ho : opt lineEnding r with
      | error => simp [ho] at h
      | failure => simp [ho] at h
      | ok r' a' =>
        simp only [ho] at h
        have := (shrinks_opt shrinks_lineEnding _ _ _ ho).length_le
        cases h
        exact this
    have hlt : r.length < i.length := by
      unfold propertyParts alt at hp
      cases hs : separatedPair (pair (cut (preceded multispace0 propertyKey)) parameters) (tag [':'])
          propertyRest i with
      | failure => simp [hs] at hp
      | ok r1 a1 =>
        simp only [hs] at hp
        cases hp
        unfold separatedPair map at hs
        rw [pair] at hs
        cases h1 : pair (cut (preceded multispace0 propertyKey)) parameters i with
        | error => simp [h1] at hs
        | failure => simp [h1] at hs
        | ok r2 a2 =>
          simp only [h1] at hs
          have h1l := (shrinks_pair (shrinks_cut (shrinks_preceded (shrinks_takeWhile _) shrinks_propertyKey))
            shrinks_parameters _ _ _ h1).length_le
          unfold pair tag at hs
          by_cases hpre : [':'].isPrefixOf r2 = true
          · simp only [hpre, if_true] at hs
            cases r2 with
            | nil => simp at hpre
            | cons d r2 =>
              simp only [List.length_cons, List.length_nil, Nat.zero_add, List.drop_succ_cons, List.drop_zero] at hs
              cases h3 : propertyRest r2 with
              | error => simp [h3] at hs
              | failure => simp [h3] at hs
              | ok r3 a3 =>
                simp [h3] at hs
                have h3l := (shrinks_propertyRest _ _ _ h3).length_le
                rw [hs.1] at h3l
                simp at h1l
                omega
          · simp [hpre] at hs
      | error =>
        simp only [hs] at hp
        unfold map validKeySequence takeWhile at hp
        simp only [Res.ok.injEq] at hp
        rw [← hp.1]
        cases i with
        | nil => simp at hc
        | cons d i =>
          simp only [List.head?_cons, Option.some.injEq] at hc
          subst hc
          rw [List.dropWhile_cons_of_pos ((isKeyChar_iff d).2 hn)]
          have := (List.dropWhile_suffix (l := i) isKeyChar).length_le
          simp
          omega
    omega

theorem child_stands {i : Str} {ch : Child} {r : Str} (h : componentChild component i = .ok r ch)
    (hl : r.length = i.length) : ∀ c, i.head? = some c → ¬ NameChar c := by
  obtain ⟨blank, t, l, h1, h2, h3⟩ := many0_lineEnding i
  have hlen := congrArg List.length h2
  rw [List.length_append] at hlen
  unfold componentChild cut alt map at h
  cases hc : lineSeparated component i with
  | failure => simp [hc] at h
  | ok r' a =>
    exfalso
    simp only [hc, Res.ok.injEq] at h
    unfold lineSeparated delimited map pair at hc
    simp only [h1] at hc
    cases hp : component t with
    | error => simp [hp] at hc
    | failure => simp [hp] at hc
    | ok t' a' =>
      simp only [hp] at hc
      cases hz : many0 lineEnding t' with
      | error => simp [hz] at hc
      | failure => simp [hz] at hc
      | ok t'' a'' =>
        simp [hz] at hc
        have hz' := (shrinks_many0 shrinks_lineEnding _ _ _ hz).length_le
        have hlt : t'.length < t.length := by
          rw [component_eq] at hp
          unfold componentBody at hp
          cases hb : line c!"BEGIN:" validKeySequence t with
          | error => simp [hb] at hp
          | failure => simp [hb] at hp
          | ok u name =>
            have hu := line_lt shrinks_validKeySequence hb
            simp only [hb] at hp
            cases hm : manyTill (componentChild component) (componentEnd name) u with
            | error => simp [hm] at hp
            | failure => simp [hm] at hp
            | ok v x =>
              have hv := (shrinks_manyTill (shrinks_componentChild shrinks_component)
                (shrinks_componentEnd _) _ _ _ hm).length_le
              simp only [hm] at hp
              cases hy : many0 (tag ['\n']) v with
              | error => simp [hy] at hp
              | failure => simp [hy] at hp
              | ok w y =>
                have hw := (shrinks_many0 (shrinks_tag _) _ _ _ hy).length_le
                simp [hy] at hp
                simp at hu
                rw [← hp.1]
                omega
        rw [← h.1, ← hc.1] at hl
        omega
  | error =>
    simp only [hc] at h
    unfold lineSeparated delimited map pair at h
    simp only [h1] at h
    cases hp : property t with
    | error => simp [hp] at h
    | failure => simp [hp] at h
    | ok t' a' =>
      simp only [hp] at h
      cases hz : many0 lineEnding t' with
      | error => simp [hz] at h
      | failure => simp [hz] at h
      | ok t'' a'' =>
        simp [hz] at h
        have hz' := (shrinks_many0 shrinks_lineEnding _ _ _ hz).length_le
        have hs' := shrinks_property _ _ _ hp
        have := hs'.length_le
        rw [← h.1] at hl
        have hb : blank = [] := List.length_eq_zero_iff.1 (by omega)
        have ht : t' = t := hs'.eq_of_length (by omega)
        rw [hb, List.nil_append] at h2
        rw [ht] at hp
        rw [h2]
        exact property_stands hp

omit [Uni] in
theorem manyTill_error_payload {α β : Type} {f : EP α} {g : EP β} (hs : Shrinks f.run)
    (hf : ∀ i, f.run i ≠ .error) {i : Str} (h : (EP.manyTill f g).run i = .error) :
    ∃ before j r a, i = before ++ j ∧ f.run j = .ok r a ∧ r.length = j.length ∧
      (EP.manyTill f g).err i = [(j, .nom c!"ManyTill")] := by
  induction hn : i.length using Nat.strongRecOn generalizing i with
  | _ n ih =>
    have h' : manyTill f.run g.run i = .error := h
    rw [manyTill_eq hs] at h'
    rw [EP.manyTill_err_eq hs]
    cases hg : g.run i with
    | ok r a => simp [hg] at h'
    | failure => simp [hg] at h'
    | error =>
      simp only [hg] at h' ⊢
      cases hfi : f.run i with
      | error => exact (hf i hfi).elim
      | failure => simp [hfi] at h'
      | ok r a =>
        have hsuf := hs _ _ _ hfi
        simp only [hfi] at h' ⊢
        by_cases hl : r.length = i.length
        · rw [if_pos hl]
          have : r = i := hsuf.eq_of_length hl
          subst this
          exact ⟨[], r, r, a, rfl, hfi, rfl, rfl⟩
        · rw [if_neg hl] at h' ⊢
          have := hsuf.length_le
          have hr : (EP.manyTill f g).run r = .error := by
            cases hm : manyTill f.run g.run r with
            | ok r' x => simp [hm] at h'
            | failure => simp [hm] at h'
            | error => exact hm
          obtain ⟨b, j, r', a', e1, e2⟩ := ih r.length (by omega) hr rfl
          obtain ⟨x, hx⟩ := hsuf
          exact ⟨x ++ b, j, r', a', by rw [← hx, e1]; simp, e2⟩

theorem component_error_payload {i : Str} (h : component i = .error) :
    (∃ blank s, i = blank ++ s ∧ (∀ c ∈ blank, c = '\r' ∨ c = '\n') ∧
      (∀ kw s', s = kw ++ s' → kw.map lowerAscii ≠ c!"begin:") ∧ EP.component.err i = [(s, .nom c!"Tag")]) ∨
    (∃ name body before s, OpensBody i name body ∧ body = before ++ s ∧
      (∀ c, s.head? = some c → ¬ NameChar c) ∧ EP.component.err i = [(s, .nom c!"ManyTill")]) := by
  have herr := EP.component_err_eq i
  rw [component_eq] at h
  unfold componentBody at h
  cases hb : line c!"BEGIN:" validKeySequence i with
  | failure => exact (EP.begin_line_noFail i hb).elim
  | ok r name =>
    right
    obtain ⟨before, body, ho, hbody⟩ := EP.begin_line_ok hb
    simp only [hb] at h
    have hm : manyTill (componentChild component) (componentEnd name) r = .error := by
      cases hm : manyTill (componentChild component) (componentEnd name) r with
      | failure => simp [hm] at h
      | error => rfl
      | ok r' x =>
        exfalso
        simp only [hm] at h
        cases hz : many0 (tag ['\n']) r' with
        | failure => simp [hz] at h
        | ok r a => simp [hz] at h
        | error =>
          have : ∀ n i, i.length < n → many0F (tag ['\n']) n i ≠ .error := by
            intro n
            induction n with
            | zero => intro i hi; omega
            | succ n ih =>
              intro i hi
              unfold many0F tag
              cases i with
              | nil => simp
              | cons c i =>
                by_cases hc : c = '\n'
                · subst hc
                  simp only [List.isPrefixOf, beq_self_eq_true, Bool.true_and, if_true]
                  have := ih i (by simp at hi; omega)
                  unfold tag at this
                  simp
                  split <;> simp_all
                · have : (['\n'].isPrefixOf (c :: i)) = false := by
                    simp [List.isPrefixOf, Ne.symm hc]
                  simp [this]
          exact this _ _ (by omega) hz
    have hm' : (EP.manyTill (EP.componentChild EP.component) (EP.componentEnd name)).run r = .error := by
      show manyTill (EP.componentChild EP.component).run _ r = .error
      rw [EP.run_componentChild]
      exact hm
    have hnf : ∀ i, (EP.componentChild EP.component).run i ≠ .error := by
      intro i hi
      rw [EP.run_componentChild] at hi
      unfold componentChild cut at hi
      split at hi <;> simp_all
    obtain ⟨b, j, r', ch, e1, e2, e3, e4⟩ := manyTill_error_payload EP.shrinks_child hnf hm'
    rw [EP.run_componentChild] at e2
    refine ⟨name, body, before ++ b, j, ho, by rw [hbody, e1]; simp, child_stands e2 e3, ?_⟩
    rw [herr, EP.componentBody]
    simp only [hb, hm', e4]
  | error =>
    left
    obtain ⟨blank, t, l, h1, h2, h3⟩ := many0_lineEnding i
    unfold line lineSeparated delimited map pair at hb
    simp only [h1] at hb
    have hp : prefixNoCase c!"BEGIN:" t = false := by
      cases hp : prefixNoCase c!"BEGIN:" t with
      | false => rfl
      | true =>
        exfalso
        unfold complete preceded map pair tagNoCase at hb
        simp only [hp, if_true] at hb
        have hv : ∀ s, validKeySequence s = .ok (s.dropWhile isKeyChar) (s.takeWhile isKeyChar) := fun _ => rfl
        simp only [hv] at hb
        obtain ⟨_, _, _, h1', _, _⟩ := many0_lineEnding ((t.drop 6).dropWhile isKeyChar)
        simp [h1'] at hb
    have ht : tagNoCase c!"BEGIN:" t = .error := by
      unfold tagNoCase
      rw [hp]
      rfl
    refine ⟨blank, t, h2, h3, ?_, ?_⟩
    · rintro kw s' rfl hk
      rw [tagNoCase_ok (by rw [hk]; decide)] at ht
      cases ht
    · have hline : line c!"BEGIN:" validKeySequence i = .error := by
        unfold line lineSeparated delimited map pair complete preceded map pair
        simp only [h1, ht]
      rw [herr, EP.componentBody]
      simp only [hline]
      have e1 : (EP.line c!"BEGIN:" EP.validKeySequence).err i =
          (EP.pair (EP.complete (EP.preceded (EP.tagNoCase c!"BEGIN:") EP.validKeySequence))
            (EP.many0 EP.lineEnding)).err t := EP.pair_err_ok (q := EP.pair _ _) h1
      rw [e1, EP.pair_err_error]
      · exact EP.pair_err_error (p := EP.tagNoCase c!"BEGIN:") ht
      · show preceded (tagNoCase c!"BEGIN:") validKeySequence t = .error
        unfold preceded map pair
        simp only [ht]

/-- **C90.** The error message for a component text is about places that may be blamed, or it says that no component
starts at the first line that is not blank, or it names a place in the component where no line starts. -/
theorem component_error_message {i m : Str} (hne : i ≠ []) (h : readComponentError i = some m) :
    ∃ l text, Message i 0 l text ∧ m = c!"error: " ++ text ∧
      (Blame i l ∨
      (∃ blank s, i = blank ++ s ∧ (∀ c ∈ blank, c = '\r' ∨ c = '\n') ∧
        (∀ kw s', s = kw ++ s' → kw.map lowerAscii ≠ c!"begin:") ∧ l = [(s, .nom c!"Tag")]) ∨
      (∃ name body before s, OpensBody i name body ∧ body = before ++ s ∧
        (∀ c, s.head? = some c → ¬ NameChar c) ∧ l = [(s, .nom c!"ManyTill")])) := by
  unfold readComponentError EP.payload at h
  have hr : EP.component.run i = component i := rfl
  rw [hr] at h
  cases hc : component i with
  | ok r a => simp [hc] at h
  | failure =>
    simp only [hc, Option.map_some, Option.some.injEq] at h
    have hb : Blame i (EP.component.err i) := EP.component_blame hc
    exact ⟨_, _, convertErrorFrom_message hne _ (blamed_places hb).1 0, h.symm, .inl hb⟩
  | error =>
    simp only [hc, Option.map_some, Option.some.injEq] at h
    refine ⟨_, _, convertErrorFrom_message hne (EP.component.err i) ?_ 0, h.symm, ?_⟩
    · rcases component_error_payload hc with ⟨blank, s, e1, _, _, e4⟩ | ⟨name, body, before, s, e1, e2, _, e4⟩
      · rw [e4]
        intro e he
        simp only [List.mem_cons, List.not_mem_nil, or_false] at he
        subst he
        exact ⟨blank, e1.symm⟩
      · rw [e4]
        intro e he
        simp only [List.mem_cons, List.not_mem_nil, or_false] at he
        subst he
        obtain ⟨b, kw, _, _, _, _, rfl⟩ := e1
        exact ⟨b ++ kw ++ name ++ before, by rw [e2]; simp⟩
    · rcases component_error_payload hc with h | h
      · exact .inr (.inl h)
      · exact .inr (.inr h)

/-- **C90.** An empty text is reported as such. -/
theorem component_error_empty : readComponentError [] = some c!"error: 0: in Tag, got empty input\n\n" := by
  rfl

/-- **C90.** A property text is rejected exactly if `END` or `BEGIN` follows the whitespace it starts with, and the
message says so. -/
theorem property_error_message (i : Str) :
    ((readPropertyError i).isSome ↔ ∃ space s, i = space ++ s ∧ (∀ c ∈ space, c ∈ [' ', '\t', '\r', '\n']) ∧
      (c!"END" <+: s ∨ c!"BEGIN" <+: s)) ∧
    ∀ m, readPropertyError i = some m → ∃ space s text, i = space ++ s ∧
      (∀ c ∈ space, c ∈ [' ', '\t', '\r', '\n']) ∧ (c!"END" <+: s ∨ c!"BEGIN" <+: s) ∧
      Message i 0 [(s, .nom c!"Satisfy"), (i, .context c!"property cannot be END or BEGIN"),
        (i, .context c!"property")] text ∧ m = c!"error: " ++ text := by
  have key : ∀ m, readPropertyError i = some m → ∃ space s text, i = space ++ s ∧
      (∀ c ∈ space, c ∈ [' ', '\t', '\r', '\n']) ∧ (c!"END" <+: s ∨ c!"BEGIN" <+: s) ∧
      Message i 0 [(s, .nom c!"Satisfy"), (i, .context c!"property cannot be END or BEGIN"),
        (i, .context c!"property")] text ∧ m = c!"error: " ++ text := by
    intro m h
    unfold readPropertyError EP.payload at h
    have hr : EP.property.run i = property i := (rfl)
    rw [hr] at h
    cases hc : property i with
    | ok r a => simp [hc] at h
    | error =>
      exfalso
      unfold property cut at hc
      split at hc <;> simp_all
    | failure =>
      simp only [hc, Option.map_some, Option.some.injEq] at h
      obtain ⟨space, s, e1, e2, e3, e4⟩ := EP.property_fails (hr.trans hc)
      have hne : i ≠ [] := by
        rintro rfl
        have := List.append_eq_nil_iff.1 e1.symm
        rw [this.2] at e3
        simp at e3
      refine ⟨space, s, _, e1, e2, e3, ?_, h.symm⟩
      rw [e4]
      refine convertErrorFrom_message hne _ ?_ 0
      intro e he
      simp only [List.mem_cons, List.not_mem_nil, or_false] at he
      rcases he with rfl | rfl | rfl
      · exact ⟨space, e1.symm⟩
      · exact List.suffix_refl _
      · exact List.suffix_refl _
  refine ⟨⟨?_, ?_⟩, key⟩
  · intro h
    obtain ⟨m, hm⟩ := Option.isSome_iff_exists.1 h
    obtain ⟨space, s, _, e1, e2, e3, _⟩ := key m hm
    exact ⟨space, s, e1, e2, e3⟩
  · rintro ⟨space, s, e1, e2, e3⟩
    have hm : multispace0 i = .ok s space := by
      rw [e1]
      apply takeWhile_ok
      · intro c hc
        have := e2 c hc
        simp only [List.mem_cons, List.not_mem_nil, or_false] at this
        rcases this with rfl | rfl | rfl | rfl <;> rfl
      · intro c hc
        cases s with
        | nil => simp at hc
        | cons d s =>
          simp only [List.head?_cons, Option.some.injEq] at hc
          subst hc
          rcases e3 with h | h <;> (rw [List.cons_prefix_cons] at h; obtain ⟨rfl, -⟩ := h; rfl)
    have hk : propertyKey s = .error := by
      unfold propertyKey
      rw [if_pos]
      rw [Bool.or_eq_true, List.isPrefixOf_iff_prefix, List.isPrefixOf_iff_prefix]
      exact e3
    have hp : property i = .failure := by
      unfold property cut map pair propertyParts alt separatedPair map pair
      unfold cut preceded map pair
      simp only [hm, hk]
    unfold readPropertyError EP.payload
    have hr : EP.property.run i = property i := (rfl)
    rw [hr, hp]
    rfl

/-! ### C91 -/

omit [Uni] in
theorem openText_append (br : Break) (l k : List Frame) : openText br (l ++ k) = openText br l ++ openText br k := by
  induction l with
  | nil => rfl
  | cons f l ih =>
    obtain ⟨b, n, i⟩ := f
    simp [openText, ih]

omit [Uni] in
theorem insideOf_concat (br : Break) (l : List Frame) (f : Frame) (t : Str) :
    insideOf br (l ++ [f]) t = (openText br [f] ++ t, .context c!"component") :: insideOf br l (openText br [f] ++ t) := by
  induction l with
  | nil => simp [insideOf]
  | cons g l ih =>
    have : openText br (g :: (l ++ [f])) = openText br (g :: l) ++ openText br [f] := by
      rw [← List.cons_append, openText_append]
    simp [insideOf, ih, this]

omit [Uni] in
theorem insideOf_suffix (br : Break) (l : List Frame) (t : Str) :
    ∀ e ∈ insideOf br l t, e.1 <:+ openText br l ++ t := by
  induction l with
  | nil => simp [insideOf]
  | cons f l ih =>
    intro e he
    rw [insideOf, List.mem_append] at he
    rcases he with he | he
    · refine (ih e he).trans ?_
      obtain ⟨b, n, i⟩ := f
      exact ⟨b ++ n ++ br.text ++ itemsText br i, by simp [openText]⟩
    · simp only [List.mem_cons, List.not_mem_nil, or_false] at he
      subst he
      exact List.suffix_refl _

omit [Uni] in
theorem insideOf_tail_suffix (br : Break) (l : List Frame) (t : Str) :
    ∀ e ∈ insideOf br l.tail t, e.1 <:+ openText br l ++ t := by
  cases l with
  | nil => simp [insideOf]
  | cons f l =>
    intro e he
    refine (insideOf_suffix br l t e he).trans ?_
    obtain ⟨b, n, i⟩ := f
    exact ⟨b ++ n ++ br.text ++ itemsText br i, by simp [openText]⟩

omit [Uni] in
theorem ends_append {x y : Str} (hx : x = [] ∨ ∃ a, x = a ++ ['\n']) (hy : y = [] ∨ ∃ a, y = a ++ ['\n']) :
    x ++ y = [] ∨ ∃ a, x ++ y = a ++ ['\n'] := by
  rcases hy with rfl | ⟨b, rfl⟩
  · simpa using hx
  · exact .inr ⟨x ++ b, by simp⟩

omit [Uni] in
/-- open components end with a line break -/
theorem openText_ends (br : Break) (fs : List Frame) : openText br fs = [] ∨ ∃ a, openText br fs = a ++ ['\n'] := by
  have hbr : ∃ a, br.text = a ++ ['\n'] := by
    cases br
    · exact ⟨['\r'], rfl⟩
    · exact ⟨[], rfl⟩
  obtain ⟨x, hx⟩ := hbr
  have items : ∀ l : List Item, itemsText br l = [] ∨ ∃ a, itemsText br l = a ++ ['\n'] := by
    intro l
    induction l with
    | nil => exact .inl rfl
    | cons it l ih =>
      rw [itemsText]
      refine ends_append (.inr ?_) ih
      cases it with
      | prop k ps v => exact ⟨_, by rw [Item.text, hx, ← List.append_assoc]⟩
      | comp b e n l => exact ⟨_, by rw [Item.text, hx, ← List.append_assoc, ← List.append_assoc]⟩
  induction fs with
  | nil => exact .inl rfl
  | cons f fs ih =>
    obtain ⟨b, n, i⟩ := f
    rw [openText]
    refine ends_append (ends_append (.inr ?_) (items i)) ih
    exact ⟨_, by rw [hx, ← List.append_assoc]⟩

/-- from the payload to the message -/
theorem calendar_message_of {i : Str} {l : List Entry} (hc : component i = .failure) (he : EP.component.err i = l)
    (hne : i ≠ []) (hl : ∀ e ∈ l, e.1 <:+ i) :
    ∃ text, readCalendarError i = some (c!"error: " ++ text) ∧ Message i 0 l text := by
  refine ⟨convertError i l, ?_, convertErrorFrom_message hne l hl 0⟩
  unfold readCalendarError
  rw [components_payload, hc, he]
  rfl

omit [Uni] in
/-- the start of a line -/
theorem isPlace_line (above text : Str) (h : above = [] ∨ ∃ a, above = a ++ ['\n']) (before : Str) (hb : '\n' ∉ before) :
    ∃ line, IsPlace (above ++ (before ++ text)) text ((above.filter (· = '\n')).length + 1) line
      ((before.flatMap String.utf8EncodeChar).length + 1) := by
  obtain ⟨white, h1, h2, h3⟩ := trimEnd_spec (before ++ text.takeWhile (· != '\n'))
  exact ⟨_, above, before, text.takeWhile (· != '\n'), text.dropWhile (· != '\n'), white, by simp, h, rfl, hb, rfl,
    List.takeWhile_append_dropWhile.symm, takeWhile_ne_not_mem _, dropWhile_ne_cases _, h1, h2, h3⟩

theorem mismatch_fails {n e rest : Str} (he : e.map lowerAscii = c!"end:") (hne : ¬ n <+: rest) :
    componentEnd n (e ++ rest) = .failure ∧ lineEnding (e ++ rest) = .error ∧
      (EP.manyTill (EP.componentChild EP.component) (EP.componentEnd n)).err (e ++ rest) =
        [(rest, .nom c!"Tag"), (rest, .context c!"mismatching end")] := by
  have hle : lineEnding (e ++ rest) = .error := keyword_lineEnding he (by decide) (by decide)
  have hend : componentEnd n (e ++ rest) = .failure := by
    apply lineSeparated_failure hle
    unfold complete preceded map pair
    rw [tagNoCase_ok (by rw [he]; decide)]
    have : tag n rest = .error := by
      unfold tag
      rw [if_neg]
      rw [List.isPrefixOf_iff_prefix]
      exact hne
    simp [cut, this]
  refine ⟨hend, hle, ?_⟩
  rw [EP.manyTill_err_eq EP.shrinks_child]
  have h1 : (EP.componentEnd n).run (e ++ rest) = .failure := hend
  simp only [h1]
  have hp : (EP.complete (EP.preceded (EP.tagNoCase c!"END:")
      (EP.cut (EP.context c!"mismatching end" (EP.tag n))))).run (e ++ rest) = .failure := by
    have h1' := h1
    obtain ⟨_, r, e1, e2, e3, e4⟩ := EP.lineSeparated_fails h1
    rename_i blank
    cases blank with
    | nil => rw [List.nil_append] at e1; rw [e1]; exact e3
    | cons c blank =>
      exfalso
      obtain ⟨d, s, rfl, hc⟩ := keyword_head he
      simp only [List.cons_append, List.cons.injEq] at e1
      rw [e1.1] at hc
      rcases e2 c (by simp) with rfl | rfl <;> exact absurd hc (by decide)
  refine (EP.lineSeparated_err_here hle hp).trans ?_
  exact EP.pair_err_ok (p := EP.tagNoCase c!"END:") (q := EP.cut (EP.context c!"mismatching end" (EP.tag n)))
    (tagNoCase_ok (by rw [he]; decide))

omit [Uni] in
theorem end_keyword {e : Str} (he : e.map lowerAscii = c!"end:") :
    '\n' ∉ e ∧ (e.flatMap String.utf8EncodeChar).length = 4 := by
  have hm : ∀ c ∈ e, lowerAscii c ∈ c!"end:" := by
    intro c hc
    rw [← he]
    exact List.mem_map_of_mem hc
  have hsz : ∀ c ∈ e, c.utf8Size = 1 := by
    intro c hc
    have h1 : (lowerAscii c).toNat < 128 := by
      have := hm c hc
      simp only [List.mem_cons, List.not_mem_nil, or_false] at this
      rcases this with h | h | h | h <;> rw [h] <;> decide
    have h2 : c.toNat < 128 := by
      unfold lowerAscii at h1
      split at h1
      · rename_i h3
        simp at h3
        omega
      · exact h1
    exact utf8Size_ascii h2
  refine ⟨?_, ?_⟩
  · intro h
    exact absurd (hm _ h) (by decide)
  · rw [blen_utf8]
    have hl : e.length = 4 := by simpa using congrArg List.length he
    have : ∀ s : Str, (∀ c ∈ s, c.utf8Size = 1) → blen s = s.length := by
      intro s
      induction s with
      | nil => intro _; rfl
      | cons c s ih =>
        intro h
        rw [blen, h c (by simp), ih (fun d hd => h d (by simp [hd]))]
        simp
        omega
    rw [this e hsz, hl]

/-- **C91 (partial: for a wrong `END`).** If an `END:` line carries a name that does not start with the name of the innermost
open component, the message is about the place behind `END:` on that line, then about the components it is in. -/
theorem mismatched_end_message_partial {br : Break} {fs : List Frame} (h : FramesOk br fs) {b n : Str} {items : List Item}
    (hf : FramesOk br [(b, n, items)]) {e rest : Str} (he : e.map lowerAscii = c!"end:")
    (hne : ¬ n <+: rest)
    (hq : br = .lf → '\r' ∉ openText br (fs ++ [(b, n, items)]) ++ (e ++ rest)) :
    ∃ text line, readCalendarError (openText br (fs ++ [(b, n, items)]) ++ (e ++ rest)) = some (c!"error: " ++ text) ∧
      Message (openText br (fs ++ [(b, n, items)]) ++ (e ++ rest)) 0
        ([(rest, .nom c!"Tag"), (rest, .context c!"mismatching end")] ++
          insideOf br (fs ++ [(b, n, items)]).tail (e ++ rest)) text ∧
      IsPlace (openText br (fs ++ [(b, n, items)]) ++ (e ++ rest)) rest
        (((openText br (fs ++ [(b, n, items)])).filter (· = '\n')).length + 1) line 5 := by
  obtain ⟨hend, hle, herr⟩ := mismatch_fails he hne
  have hbody : manyTill (componentChild component) (componentEnd n) (e ++ rest) = .failure := by
    rw [manyTill_eq (shrinks_componentChild shrinks_component), hend]
  have hc := open_failure h hf hle hq hbody
  have hp := EP.open_err h hf hle hq hbody
  rw [herr] at hp
  have hnl := end_keyword he
  obtain ⟨line, hline⟩ := isPlace_line _ rest (openText_ends br (fs ++ [(b, n, items)])) e hnl.1
  rw [hnl.2] at hline
  have hA : openText br (fs ++ [(b, n, items)]) ++ (e ++ rest) ≠ [] := by
    intro h0
    rw [List.append_eq_nil_iff, List.append_eq_nil_iff] at h0
    rw [h0.2.1] at he
    cases he
  have hB : ∀ x ∈ [(rest, EKind.nom c!"Tag"), (rest, EKind.context c!"mismatching end")] ++
      insideOf br (fs ++ [(b, n, items)]).tail (e ++ rest),
      x.1 <:+ openText br (fs ++ [(b, n, items)]) ++ (e ++ rest) := by
    intro x hx
    rcases List.mem_append.1 hx with hx | hx
    · have : rest <:+ openText br (fs ++ [(b, n, items)]) ++ (e ++ rest) :=
        ⟨openText br (fs ++ [(b, n, items)]) ++ e, by simp⟩
      simp only [List.mem_cons, List.not_mem_nil, or_false] at hx
      rcases hx with rfl | rfl <;> exact this
    · exact insideOf_tail_suffix _ _ _ x hx
  obtain ⟨text, h1, h2⟩ := calendar_message_of hc hp hA hB
  exact ⟨text, line, h1, h2, hline⟩

/-- text that starts with a keyword but cannot be read as a component: the payload -/
theorem keyword_err {t : Str} (h : c!"END" <+: t ∨ c!"BEGIN" <+: t) {n : Str} (hend : componentEnd n t = .error)
    (hc : component t = .error) :
    manyTill (componentChild component) (componentEnd n) t = .failure ∧
    (EP.manyTill (EP.componentChild EP.component) (EP.componentEnd n)).err t =
      [(t, .nom c!"Satisfy"), (t, .context c!"property cannot be END or BEGIN"), (t, .context c!"property"),
        (t, .context c!"component")] := by
  obtain ⟨x, u, rfl, hx⟩ : ∃ x u, t = x :: u ∧ (x = 'E' ∨ x = 'B') := by
    rcases h with ⟨u, rfl⟩ | ⟨u, rfl⟩
    · exact ⟨_, _, rfl, .inl rfl⟩
    · exact ⟨_, _, rfl, .inr rfl⟩
  have hle : lineEnding (x :: u) = .error := by
    rcases hx with rfl | rfl <;> exact lineEnding_cons_error (by decide) (by decide)
  have hch : componentChild component (x :: u) = .failure := by
    unfold componentChild cut alt map
    rw [lineSeparated_error hle hc, lineSeparated_failure hle (property_failure h)]
  refine ⟨by rw [manyTill_eq (shrinks_componentChild shrinks_component), hend, hch], ?_⟩
  rw [EP.manyTill_err_eq EP.shrinks_child]
  have h1 : (EP.componentEnd n).run (x :: u) = .error := hend
  have h2 : (EP.componentChild EP.component).run (x :: u) = .failure := by
    rw [EP.run_componentChild]
    exact hch
  simp only [h1, h2]
  have nil_of : ∀ {blank r : Str}, x :: u = blank ++ r → (∀ c ∈ blank, c ∈ [' ', '\t', '\r', '\n']) →
      blank = [] ∧ r = x :: u := by
    intro blank r e hb
    cases blank with
    | nil => exact ⟨rfl, e.symm⟩
    | cons c blank =>
      simp only [List.cons_append, List.cons.injEq] at e
      have := hb c (by simp)
      rw [← e.1] at this
      rcases hx with rfl | rfl <;> exact absurd this (by decide)
  rcases EP.componentChild_fails h2 with ⟨blank, r, e1, e2, e3, e4⟩ | ⟨blank, space, s, e1, e2, e3, e4, e5⟩
  · exfalso
    obtain ⟨_, rfl⟩ := nil_of e1 (by intro c hc; rcases e2 c hc with rfl | rfl <;> simp)
    have e3' : component (x :: u) = .failure := e3
    rw [hc] at e3'
    cases e3'
  · rw [List.append_assoc] at e1
    obtain ⟨rfl, e1'⟩ := nil_of e1 (by intro c hc; rcases e2 c hc with rfl | rfl <;> simp)
    obtain ⟨rfl, rfl⟩ := nil_of e1'.symm e3
    rw [e5]
    simp

/-- **C91 (partial: for a name that starts like a keyword).** If a line of a component starts with `BEGIN` or `END` without being
a `BEGIN:` or `END:` line, the message is about that line, then about the components it is in. -/
theorem keyword_name_message_partial {br : Break} {fs : List Frame} (h : FramesOk br fs) {b n : Str}
    {items : List Item} (hf : FramesOk br [(b, n, items)]) {t : Str}
    (ht : (c!"END" <+: t ∧ ¬ c!"END:" <+: t) ∨ (c!"BEGIN" <+: t ∧ ¬ c!"BEGIN:" <+: t))
    (hq : br = .lf → '\r' ∉ openText br (fs ++ [(b, n, items)]) ++ t) :
    ∃ text line, readCalendarError (openText br (fs ++ [(b, n, items)]) ++ t) = some (c!"error: " ++ text) ∧
      Message (openText br (fs ++ [(b, n, items)]) ++ t) 0
        ([(t, .nom c!"Satisfy"), (t, .context c!"property cannot be END or BEGIN"), (t, .context c!"property"),
          (t, .context c!"component")] ++ insideOf br (fs ++ [(b, n, items)]).tail t) text ∧
      IsPlace (openText br (fs ++ [(b, n, items)]) ++ t) t
        (((openText br (fs ++ [(b, n, items)])).filter (· = '\n')).length + 1) line 1 := by
  have hpre : c!"END" <+: t ∨ c!"BEGIN" <+: t := by
    rcases ht with h | h
    · exact .inl h.1
    · exact .inr h.1
  have hnk := keyword_name_plain ht
  have hle : lineEnding t = .error := by
    rcases hpre with ⟨s, rfl⟩ | ⟨s, rfl⟩ <;> exact lineEnding_cons_error (by decide) (by decide)
  obtain ⟨hbody, herr⟩ := keyword_err hpre (n := n) (line_error hle hnk.1) (component_error hle hnk.2)
  have hc := open_failure h hf hle hq hbody
  have hp := EP.open_err h hf hle hq hbody
  rw [herr] at hp
  have hA : openText br (fs ++ [(b, n, items)]) ++ t ≠ [] := by
    intro h0
    rw [List.append_eq_nil_iff] at h0
    rw [h0.2] at hpre
    simp at hpre
  have hB : ∀ x ∈ [(t, EKind.nom c!"Satisfy"), (t, EKind.context c!"property cannot be END or BEGIN"),
      (t, EKind.context c!"property"), (t, EKind.context c!"component")] ++
      insideOf br (fs ++ [(b, n, items)]).tail t, x.1 <:+ openText br (fs ++ [(b, n, items)]) ++ t := by
    intro x hx
    rcases List.mem_append.1 hx with hx | hx
    · have : t <:+ openText br (fs ++ [(b, n, items)]) ++ t := ⟨_, rfl⟩
      simp only [List.mem_cons, List.not_mem_nil, or_false] at hx
      rcases hx with rfl | rfl | rfl | rfl <;> exact this
    · exact insideOf_tail_suffix _ _ _ x hx
  obtain ⟨text, h1, h2⟩ := calendar_message_of hc hp hA hB
  obtain ⟨line, hline⟩ := isPlace_line _ t (openText_ends br (fs ++ [(b, n, items)])) [] (by simp)
  exact ⟨text, line, h1, h2, hline⟩

/-- a component that is never closed, inside open components: the payload -/
theorem unclosed_err {br : Break} {fs : List Frame} (h : FramesOk br fs) (hne : fs ≠ [])
    {n : Str} {items : List Item} (hf : FramesOk br [(c!"BEGIN:", n, items)]) {t : Str}
    (ht : lineEnding t = .error)
    (hq : br = .lf → '\r' ∉ openText br (fs ++ [(c!"BEGIN:", n, items)]) ++ t)
    (hbody : manyTill (componentChild component) (componentEnd n) t = .error) :
    EP.component.err (openText br (fs ++ [(c!"BEGIN:", n, items)]) ++ t) =
      [(openText br [(c!"BEGIN:", n, items)] ++ t, .nom c!"Satisfy"),
        (openText br [(c!"BEGIN:", n, items)] ++ t, .context c!"property cannot be END or BEGIN"),
        (openText br [(c!"BEGIN:", n, items)] ++ t, .context c!"property")] ++
        insideOf br (fs ++ [(c!"BEGIN:", n, items)]).tail t := by
  obtain ⟨gs, ⟨b', n', items'⟩, rfl⟩ : ∃ gs g, fs = gs ++ [g] :=
    ⟨fs.dropLast, fs.getLast hne, (List.dropLast_concat_getLast hne).symm⟩
  have hgs : FramesOk br gs ∧ FramesOk br [(b', n', items')] := by
    clear hq hne
    induction gs with
    | nil => exact ⟨trivial, h⟩
    | cons g gs ih =>
      simp only [List.cons_append, FramesOk] at h
      have := ih h.2.2.2
      exact ⟨⟨h.1, h.2.1, h.2.2.1, this.1⟩, this.2⟩
  have hin : insideOf br (gs ++ [(b', n', items')] ++ [(c!"BEGIN:", n, items)]).tail t =
      (openText br [(c!"BEGIN:", n, items)] ++ t, .context c!"component") ::
        insideOf br (gs ++ [(b', n', items')]).tail (openText br [(c!"BEGIN:", n, items)] ++ t) := by
    rw [List.tail_append_of_ne_nil (by simp), insideOf_concat]
  rw [hin, openText_append, List.append_assoc]
  rw [openText_append, List.append_assoc] at hq
  have hle := open_lineEnding hf ht
  have hpre : c!"BEGIN" <+: openText br [(c!"BEGIN:", n, items)] ++ t := by
    simp [openText]
  have hend : componentEnd n' (openText br [(c!"BEGIN:", n, items)] ++ t) = .error := by
    refine line_error hle ?_
    simp only [openText, List.cons_append]
    exact prefixNoCase_head_ne (by decide)
  have hc : component (openText br [(c!"BEGIN:", n, items)] ++ t) = .error := by
    simp only [FramesOk] at hf
    simp only [openText, List.append_nil]
    rw [component_frame hf.1 hf.2.1 hf.2.2.1 ht, hbody]
    intro hbr; have := hq hbr; simp [openText] at this ⊢; simp [this]
  obtain ⟨k1, k2⟩ := keyword_err (.inr hpre) hend hc
  rw [EP.open_err hgs.1 hgs.2 hle hq k1, k2]
  rfl

/-- the message about a component that is never closed -/
theorem unclosed_message_of {br : Break} {fs : List Frame} (h : FramesOk br fs) (hne : fs ≠ [])
    {n : Str} {items : List Item} (hf : FramesOk br [(c!"BEGIN:", n, items)]) {t : Str}
    (ht : lineEnding t = .error)
    (hq : br = .lf → '\r' ∉ openText br (fs ++ [(c!"BEGIN:", n, items)]) ++ t)
    (hbody : manyTill (componentChild component) (componentEnd n) t = .error) :
    ∃ text line, readCalendarError (openText br (fs ++ [(c!"BEGIN:", n, items)]) ++ t) =
        some (c!"error: " ++ text) ∧
      Message (openText br (fs ++ [(c!"BEGIN:", n, items)]) ++ t) 0
        ([(openText br [(c!"BEGIN:", n, items)] ++ t, .nom c!"Satisfy"),
          (openText br [(c!"BEGIN:", n, items)] ++ t, .context c!"property cannot be END or BEGIN"),
          (openText br [(c!"BEGIN:", n, items)] ++ t, .context c!"property")] ++
          insideOf br (fs ++ [(c!"BEGIN:", n, items)]).tail t) text ∧
      IsPlace (openText br (fs ++ [(c!"BEGIN:", n, items)]) ++ t) (openText br [(c!"BEGIN:", n, items)] ++ t)
        (((openText br fs).filter (· = '\n')).length + 1) line 1 := by
  have hc := open_unclosed h hne hf ht hq hbody
  have hp := unclosed_err h hne hf ht hq hbody
  have hs : openText br [(c!"BEGIN:", n, items)] ++ t <:+ openText br (fs ++ [(c!"BEGIN:", n, items)]) ++ t :=
    ⟨openText br fs, by rw [openText_append]; simp⟩
  have hA : openText br (fs ++ [(c!"BEGIN:", n, items)]) ++ t ≠ [] := by
    rw [openText_append]
    simp [openText]
  have hB : ∀ x ∈ [(openText br [(c!"BEGIN:", n, items)] ++ t, EKind.nom c!"Satisfy"),
        (openText br [(c!"BEGIN:", n, items)] ++ t, EKind.context c!"property cannot be END or BEGIN"),
        (openText br [(c!"BEGIN:", n, items)] ++ t, EKind.context c!"property")] ++
        insideOf br (fs ++ [(c!"BEGIN:", n, items)]).tail t,
      x.1 <:+ openText br (fs ++ [(c!"BEGIN:", n, items)]) ++ t := by
    intro x hx
    rcases List.mem_append.1 hx with hx | hx
    · simp only [List.mem_cons, List.not_mem_nil, or_false] at hx
      rcases hx with rfl | rfl | rfl <;> exact hs
    · exact insideOf_tail_suffix _ _ _ x hx
  obtain ⟨text, h1, h2⟩ := calendar_message_of hc hp hA hB
  obtain ⟨line, hline⟩ := isPlace_line _ (openText br [(c!"BEGIN:", n, items)] ++ t) (openText_ends br fs) [] (by simp)
  refine ⟨text, line, h1, h2, ?_⟩
  rw [openText_append, List.append_assoc]
  exact hline

/-- **C91 (partial: for a missing `END`).** If the text ends while a nested component is open, the message is about the `BEGIN`
line of the innermost open component, then about the components it is in. -/
theorem missing_end_message_partial {br : Break} {fs : List Frame} (h : FramesOk br fs) (hne : fs ≠ [])
    {n : Str} {items : List Item} (hf : FramesOk br [(c!"BEGIN:", n, items)])
    (hq : br = .lf → '\r' ∉ openText br (fs ++ [(c!"BEGIN:", n, items)])) :
    ∃ text line, readCalendarError (openText br (fs ++ [(c!"BEGIN:", n, items)])) = some (c!"error: " ++ text) ∧
      Message (openText br (fs ++ [(c!"BEGIN:", n, items)])) 0
        ([(openText br [(c!"BEGIN:", n, items)], .nom c!"Satisfy"),
          (openText br [(c!"BEGIN:", n, items)], .context c!"property cannot be END or BEGIN"),
          (openText br [(c!"BEGIN:", n, items)], .context c!"property")] ++
          insideOf br (fs ++ [(c!"BEGIN:", n, items)]).tail []) text ∧
      IsPlace (openText br (fs ++ [(c!"BEGIN:", n, items)])) (openText br [(c!"BEGIN:", n, items)])
        (((openText br fs).filter (· = '\n')).length + 1) line 1 := by
  have := unclosed_message_of h hne hf (t := []) lineEnding_nil (by simpa using hq) (body_eof n)
  simpa only [List.append_nil] using this

/-- a line that starts with something that cannot be the start of a line -/
theorem body_unreadable {c : Char} (hn : ¬ NameChar c) (hc : c ∉ [' ', '\t', '\r', '\n', ':', ';']) (n u : Str) :
    manyTill (componentChild component) (componentEnd n) (c :: u) = .error := by
  simp only [List.mem_cons, List.not_mem_nil, or_false, not_or] at hc
  obtain ⟨c1, c2, c3, c4, c5, c6⟩ := hc
  have hk : isKeyChar c = false := by
    cases h : isKeyChar c with
    | false => rfl
    | true => exact (hn ((isKeyChar_iff c).1 h)).elim
  have hle : lineEnding (c :: u) = .error := lineEnding_cons_error c4 c3
  have letter : ∀ {x y : Char}, isKeyChar x = true → isKeyChar y = true → y.toNat = x.toNat + 32 →
      lowerAscii x = y → lowerAscii x ≠ lowerAscii c := by
    intro x y hx hy hxy hl h
    rw [hl] at h
    unfold lowerAscii at h
    split at h
    · rename_i hr
      simp at hr
      have hc : c.toNat = x.toNat := by
        have := congrArg Char.toNat h
        rw [char_toNat_ofNat (by unfold Nat.isValidChar; omega)] at this
        omega
      rw [Char.toNat_inj.1 hc, hx] at hk
      cases hk
    · rw [← h, hy] at hk
      cases hk
  have hend : componentEnd n (c :: u) = .error := by
    refine line_error hle ?_
    exact prefixNoCase_head_ne (letter (y := 'e') (by rfl) (by rfl) (by decide) (by decide))
  have hcomp : component (c :: u) = .error :=
    component_error hle (prefixNoCase_head_ne (letter (y := 'b') (by rfl) (by rfl) (by decide) (by decide)))
  have hstop : StopsAt isKeyChar (c :: u) := by
    intro d hd
    simp only [List.head?_cons, Option.some.injEq] at hd
    rw [← hd]
    exact hk
  have hms : multispace0 (c :: u) = .ok (c :: u) [] := by
    apply takeWhile_ok (a := []) (by simp)
    intro d hd
    simp only [List.head?_cons, Option.some.injEq] at hd
    subst hd
    simp [c1, c2, c3, c4]
  have hkey : propertyKey (c :: u) = .ok (c :: u) [] :=
    propertyKey_ok (k := []) (by simp [IsName]) (by decide) (by decide) hstop
  have hpar : parameters (c :: u) = .ok (c :: u) [] := by
    refine many0_error ?_
    have : tag [';'] (c :: u) = .error := tag_error (Ne.symm c6)
    unfold parameter alt pairParameter baseParameter
    simp [map, preceded, pair, this]
  have hprop : property (c :: u) = .ok (c :: u) (mkProperty (([], []), [])) := by
    have hcol : tag [':'] (c :: u) = .error := tag_error (Ne.symm c5)
    have hv : validKeySequence (c :: u) = .ok (c :: u) [] := validKeySequence_ok (k := []) (by simp [IsName]) hstop
    unfold property cut map pair propertyParts alt separatedPair map pair
    unfold cut preceded map pair
    simp only [hms, hkey, hpar, hcol, hv, opt, hle]
  have hch : componentChild component (c :: u) = .ok (c :: u) (.prop (mkProperty (([], []), []))) := by
    unfold componentChild cut alt map
    rw [lineSeparated_error hle hcomp, lineSeparated_ok hle hprop (many0_lineEnding_none hle)]
  rw [manyTill_eq (shrinks_componentChild shrinks_component), hend, hch]
  simp

/-- **C91 (violated, for every text).** A line of a nested component that starts with a character that no line can start
with, for instance `!`, is not what the message is about: it names the `BEGIN` line of the component, whatever the
number of lines in between. -/
theorem unreadable_line_violated {br : Break} {fs : List Frame} (h : FramesOk br fs) (hne : fs ≠ [])
    {n : Str} {items : List Item} (hf : FramesOk br [(c!"BEGIN:", n, items)]) {c : Char} {u : Str}
    (hn : ¬ NameChar c) (hc : c ∉ [' ', '\t', '\r', '\n', ':', ';'])
    (hq : br = .lf → '\r' ∉ openText br (fs ++ [(c!"BEGIN:", n, items)]) ++ c :: u) :
    ∃ text line, readCalendarError (openText br (fs ++ [(c!"BEGIN:", n, items)]) ++ c :: u) =
        some (c!"error: " ++ text) ∧
      Message (openText br (fs ++ [(c!"BEGIN:", n, items)]) ++ c :: u) 0
        ([(openText br [(c!"BEGIN:", n, items)] ++ c :: u, .nom c!"Satisfy"),
          (openText br [(c!"BEGIN:", n, items)] ++ c :: u, .context c!"property cannot be END or BEGIN"),
          (openText br [(c!"BEGIN:", n, items)] ++ c :: u, .context c!"property")] ++
          insideOf br (fs ++ [(c!"BEGIN:", n, items)]).tail (c :: u)) text ∧
      IsPlace (openText br (fs ++ [(c!"BEGIN:", n, items)]) ++ c :: u) (openText br [(c!"BEGIN:", n, items)] ++ c :: u)
        (((openText br fs).filter (· = '\n')).length + 1) line 1 := by
  refine unclosed_message_of h hne hf ?_ hq (body_unreadable hn hc n u)
  simp only [List.mem_cons, List.not_mem_nil, or_false, not_or] at hc
  exact lineEnding_cons_error hc.2.2.2.1 hc.2.2.1

/-- **C91 (violated, for every text).** Such a line directly in the root component gives no message at all: the text is
accepted as an empty calendar. -/
theorem unreadable_root_violated {br : Break} {b n : Str} {items : List Item} (hf : FramesOk br [(b, n, items)])
    {c : Char} {u : Str} (hn : ¬ NameChar c) (hc : c ∉ [' ', '\t', '\r', '\n', ':', ';'])
    (hq : br = .lf → '\r' ∉ openText br [(b, n, items)] ++ c :: u) :
    readCalendarError (openText br [(b, n, items)] ++ c :: u) = none ∧
      readCalendar (openText br [(b, n, items)] ++ c :: u) = some ⟨[], []⟩ := by
  have hcomp : component (openText br [(b, n, items)] ++ c :: u) = .error := by
    simp only [FramesOk] at hf
    have hbody := body_unreadable hn hc n u
    simp only [List.mem_cons, List.not_mem_nil, or_false, not_or] at hc
    have := component_frame hf.1 hf.2.1 hf.2.2.1 (t := c :: u) (lineEnding_cons_error hc.2.2.2.1 hc.2.2.1) (by
      intro hbr; have := hq hbr; simp [openText] at this ⊢; simp [this])
    rw [hbody] at this
    simpa [openText] using this
  constructor
  · unfold readCalendarError
    rw [components_payload, hcomp]
    rfl
  · unfold readCalendar
    rw [components_none (.inl hcomp)]
    rfl

end Ical

namespace Ical

open Spec

/-! ### Examples -/

section Examples

local instance : Uni := Uni.ascii

/-- a wrong `END` on line 4 -/
example : (readCalendarError c!"BEGIN:VCALENDAR\r\nBEGIN:VEVENT\r\nUID:1\r\nEND:VTODO\r\nEND:VCALENDAR\r\n").map
    String.ofList = some ("error: 0: at line 4, in Tag:\nEND:VTODO\n    ^\n\n" ++
      "1: at line 4, in mismatching end:\nEND:VTODO\n    ^\n\n2: at line 2, in component:\nBEGIN:VEVENT\n^\n\n") := by
  decide +kernel

/-- an event that is never closed: line 2 -/
example : (readCalendarError c!"BEGIN:VCALENDAR\nBEGIN:VEVENT\nUID:1\n").map String.ofList =
    some ("error: 0: at line 2, in Satisfy:\nBEGIN:VEVENT\n^\n\n" ++
      "1: at line 2, in property cannot be END or BEGIN:\nBEGIN:VEVENT\n^\n\n" ++
      "2: at line 2, in property:\nBEGIN:VEVENT\n^\n\n3: at line 2, in component:\nBEGIN:VEVENT\n^\n\n") := by
  decide +kernel

/-- line 4 cannot be read: the message is about line 2, and there is no message without an event -/
example : (readCalendarError c!"BEGIN:VCALENDAR\nBEGIN:VEVENT\nUID:1\n!\nEND:VEVENT\nEND:VCALENDAR\n").map
    String.ofList = some ("error: 0: at line 2, in Satisfy:\nBEGIN:VEVENT\n^\n\n" ++
      "1: at line 2, in property cannot be END or BEGIN:\nBEGIN:VEVENT\n^\n\n" ++
      "2: at line 2, in property:\nBEGIN:VEVENT\n^\n\n3: at line 2, in component:\nBEGIN:VEVENT\n^\n\n") ∧
    readCalendarError c!"BEGIN:VCALENDAR\nNAME:x\n!\nEND:VCALENDAR\n" = none := by
  decide +kernel

/-- a name that starts like a keyword, and a property on its own -/
example : (readCalendarError c!"BEGIN:VCALENDAR\r\nENDING:soon\r\nEND:VCALENDAR\r\n").map String.ofList =
    some ("error: 0: at line 2, in Satisfy:\nENDING:soon\n^\n\n" ++
      "1: at line 2, in property cannot be END or BEGIN:\nENDING:soon\n^\n\n" ++
      "2: at line 2, in property:\nENDING:soon\n^\n\n3: at line 2, in component:\nENDING:soon\n^\n\n") ∧
    (readPropertyError c!" END:x").map String.ofList =
    some ("error: 0: at line 1, in Satisfy:\n END:x\n ^\n\n" ++
      "1: at line 1, in property cannot be END or BEGIN:\n END:x\n^\n\n2: at line 1, in property:\n END:x\n^\n\n") ∧
    readPropertyError c!"SUMMARY:x" = none := by
  decide +kernel

/-- a component on its own: a line that cannot be read beyond its third column, and a line that does not start a component -/
example : (readComponentError c!"BEGIN:VEVENT\nUID é!\nEND:VEVENT\n").map String.ofList =
    some "error: 0: at line 2, in ManyTill:\nUID é!\n   ^\n\n" ∧
    (readComponentError c!"\n\nUID:1\n").map String.ofList = some "error: 0: at line 3, in Tag:\nUID:1\n^\n\n" := by
  decide +kernel

end Examples

end Ical
