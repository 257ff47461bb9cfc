import Verif.Model.Parameter
import Verif.Spec.OwnLine
import Verif.Props.Report
import Verif.Props.PropertyRoundtrip

/-!
Exactly which texts are read as a parameter on its own, and as what (C121).
-/

namespace Ical

open Nom Spec

variable [Uni]

theorem parameter_ok_iff {i f : Str} {p : PParam} : parameter i = .ok f p ↔ ∃ t, i = t ++ f ∧ ParamIs p t f := by
  constructor
  · intro h
    by_cases hs : [';'] <+: i
    · obtain ⟨j, rfl⟩ := hs
      obtain ⟨p', t, f', e, h', -⟩ := param_total j
      have h2 := paramIs_reads h'
      rw [← e] at h2
      rw [List.singleton_append] at h
      rw [h2] at h
      cases h
      exact ⟨t, by rw [List.singleton_append, e], h'⟩
    · rw [parameter_error] at h
      · cases h
      · intro c hc
        rintro rfl
        cases i with
        | nil => cases hc
        | cons d i =>
          simp only [List.head?_cons, Option.some.injEq] at hc
          subst hc
          exact hs ⟨i, rfl⟩
  · rintro ⟨t, rfl, h⟩
    exact paramIs_reads h

/-- **C121.** A parameter is read from a text if and only if the text starts with the text of that parameter. -/
theorem parameter_read_iff {i : Str} {p : PParam} : readParameter i = some p ↔ ∃ t f, i = t ++ f ∧ ParamIs p t f := by
  have h1 : readParameter i = some p ↔ ∃ f, parameter i = .ok f p := by
    unfold readParameter
    cases parameter i <;> simp [finish]
  rw [h1]
  simp only [parameter_ok_iff]
  exact ⟨fun ⟨f, t, h⟩ => ⟨t, f, h⟩, fun ⟨t, f, h⟩ => ⟨f, t, h⟩⟩

theorem parameter_error_of {i : Str} (h : ¬ [';'] <+: i) :
    parameter i = .error ∧ EP.parameter.err i = [(i, .nom c!"Tag"), (i, .nom c!"Alt")] := by
  have ht : tag [';'] i = .error := by
    unfold tag
    rw [if_neg (by rwa [List.isPrefixOf_iff_prefix])]
  have e0 : (EP.pair (EP.tag [';']) EP.space0).run i = .error := by
    show pair (tag [';']) space0 i = _
    unfold pair
    rw [ht]
  have e1 : EP.pairParameter.run i = .error := by
    show map _ (map _ (pair (pair (tag [';']) space0) _)) i = _
    unfold map
    rw [pair, show pair (tag [';']) space0 i = .error from e0]
  have e2 : EP.baseParameter.run i = .error := by
    have hp : preceded (pair (tag [';']) space0) validKeySequence i = .error := by
      unfold preceded map
      rw [pair, show pair (tag [';']) space0 i = .error from e0]
    show baseParameter i = _
    unfold baseParameter map
    rw [pair, hp]
  have e3 : EP.baseParameter.err i = [(i, .nom c!"Tag")] := by
    show (EP.pair (EP.preceded (EP.pair (EP.tag [';']) EP.space0) EP.validKeySequence) _).err i = _
    rw [EP.pair_err_error]
    · show (EP.pair (EP.pair (EP.tag [';']) EP.space0) _).err i = _
      rw [EP.pair_err_error e0]
      exact EP.pair_err_error (p := EP.tag [';']) ht
    · show preceded (pair (tag [';']) space0) validKeySequence i = _
      unfold preceded map
      rw [pair, show pair (tag [';']) space0 i = .error from e0]
  refine ⟨?_, ?_⟩
  · show alt pairParameter baseParameter i = _
    have e1' : pairParameter i = .error := e1
    have e2' : baseParameter i = .error := e2
    unfold alt
    rw [e1', e2']
  · show (EP.alt EP.pairParameter EP.baseParameter).err i = _
    unfold EP.alt
    simp only [e1, e2, e3]
    rfl

/-- **C121.** A text is rejected as a parameter if and only if it does not start with a semicolon; the message says so
about its beginning. -/
theorem parameter_rejected_iff {i : Str} : (readParameter i = none ↔ ¬ [';'] <+: i) ∧
    ((readParameterError i).isSome ↔ readParameter i = none) ∧
    (i ≠ [] → ∀ m, readParameterError i = some m ↔ ¬ [';'] <+: i ∧ ∃ text,
      Message i 0 [(i, .nom c!"Tag"), (i, .nom c!"Alt")] text ∧ m = c!"error: " ++ text) := by
  have run : EP.parameter.run i = parameter i := rfl
  by_cases hs : [';'] <+: i
  · obtain ⟨p, f, h⟩ : ∃ p f, parameter i = .ok f p := by
      obtain ⟨j, rfl⟩ := hs
      obtain ⟨p, t, f, e, h, -⟩ := param_total j
      have := paramIs_reads h
      rw [← e] at this
      exact ⟨p, f, this⟩
    refine ⟨?_, ?_, ?_⟩
    · simp [readParameter, h, finish, hs]
    · simp [readParameter, readParameterError, EP.payload, run, h, finish]
    · intro _ m
      simp [readParameterError, EP.payload, run, h, hs]
  · obtain ⟨h1, h2⟩ := parameter_error_of hs
    refine ⟨?_, ?_, ?_⟩
    · simp [readParameter, h1, finish, hs]
    · simp [readParameter, readParameterError, EP.payload, run, h1, finish]
    · intro hne m
      have hm := convertErrorFrom_message hne [(i, .nom c!"Tag"), (i, .nom c!"Alt")] (by
        intro e he
        simp only [List.mem_cons, List.not_mem_nil, or_false] at he
        rcases he with rfl | rfl <;> exact List.suffix_refl _) 0
      have : readParameterError i = some (c!"error: " ++
          convertErrorFrom i 0 [(i, .nom c!"Tag"), (i, .nom c!"Alt")]) := by
        simp only [readParameterError, EP.payload, run, h1, h2]
        rfl
      rw [this]
      constructor
      · intro h
        exact ⟨hs, _, hm, (Option.some.inj h).symm⟩
      · rintro ⟨_, text, h, rfl⟩
        rw [message_unique h hm]

/-- **C121.** A parameter as it is written into a property is read back as it was if and only if its name consists of
name characters and quotes in its value cannot be mistaken for quotes around it. -/
theorem parameter_survives_iff {k v t : Str} (ht : ParamForm (k, v) t) :
    (∃ p, readParameter t = some p ∧ p.toPair = (k, v)) ↔ IsName k ∧ ValuesTold [(k, v)] [] := by
  have name_ne : ∀ {c d : Char}, NameChar c → d ∈ [' ', '\t', '='] → c ≠ d := by
    rintro c d hc hd rfl
    simp only [List.mem_cons, List.not_mem_nil, or_false] at hd
    rcases hd with rfl | rfl | rfl <;> revert hc <;> unfold NameChar <;>
      rw [isAlnum_ascii (by decide)] <;> decide
  unfold ParamForm at ht
  simp only at ht
  subst ht
  simp only [parameter_read_iff]
  constructor
  · rintro ⟨p, ⟨t, f, e, hn, blanks, form, hb, rfl, hf1, hf2, hv⟩, hp⟩
    obtain ⟨rfl, rfl⟩ : p.key = k ∧ p.val.getD [] = v := by
      unfold PParam.toPair at hp
      simpa using hp
    refine ⟨hn, ?_⟩
    simp only [List.cons_append, List.append_assoc, List.cons.injEq, true_and] at e
    have hbl : blanks = [] := by
      cases blanks with
      | nil => rfl
      | cons c bs =>
        exfalso
        have hc := hb c (by simp)
        cases hk : p.key with
        | nil =>
          rw [hk] at e
          simp only [List.nil_append, List.cons_append, List.cons.injEq] at e
          rw [← e.1] at hc
          revert hc; decide
        | cons d ds =>
          have hd := hn d (by rw [hk]; simp)
          rw [hk] at e
          simp only [List.cons_append, List.cons.injEq] at e
          rw [← e.1] at hc
          rcases hc with hc | hc
          · exact name_ne hd (by simp) hc
          · exact name_ne hd (by simp) hc
    subst hbl
    rw [List.nil_append] at e
    have e := List.append_cancel_left e
    unfold ValuesTold ValuesTold
    refine ⟨?_, trivial⟩
    cases hpv : p.val with
    | none => simp
    | some v =>
      rw [hpv] at hv e
      simp only [Option.getD_some] at e ⊢
      obtain ⟨hne, hv⟩ := hv
      by_cases hq : ':' ∈ v ∨ ';' ∈ v
      · rw [if_pos hq]
        rcases hv with ⟨rfl, h⟩ | ⟨rfl, h1, h2, -⟩
        · exact h
        · rcases hq with hq | hq
          · exact absurd hq h1
          · exact absurd hq h2
      · rw [if_neg hq] at e ⊢
        rcases hv with ⟨rfl, h⟩ | ⟨rfl, h1, h2, h3, h4⟩
        · exfalso
          have := congrArg List.length e
          simp at this
          omega
        · have hf : f = [] := by
            have := congrArg List.length e
            simp at this
            exact this
          subst hf
          rw [List.append_nil] at h4
          cases v with
          | nil => exact absurd rfl hne
          | cons c u =>
            by_cases hc : c = '"'
            · subst hc
              by_cases hu : '"' ∈ u
              · obtain ⟨w, z, rfl, hw⟩ := first_split hu
                cases w with
                | nil => exact .inr (.inl ⟨z, rfl⟩)
                | cons d w => exact absurd ⟨z, by simp⟩ (h4 (d :: w) (by simp) hw)
              · exact .inr (.inr ⟨by simpa using hu, by simp, by simp⟩)
            · left
              rintro ⟨z, hz⟩
              simp only [List.singleton_append, List.cons.injEq] at hz
              exact hc hz.1.symm
  · rintro ⟨hn, ht⟩
    unfold ValuesTold at ht
    obtain ⟨ht, -⟩ := ht
    have first : ∀ s, First (fun c => c ≠ ' ' ∧ c ≠ '\t') (k ++ '=' :: s) := by
      intro s c hc
      cases k with
      | nil =>
        simp only [List.nil_append, List.head?_cons, Option.some.injEq] at hc
        subst hc
        decide
      | cons d ds =>
        simp only [List.cons_append, List.head?_cons, Option.some.injEq] at hc
        subst hc
        exact ⟨name_ne (hn d (by simp)) (by simp), name_ne (hn d (by simp)) (by simp)⟩
    have stop : ∀ s, First (fun c => ¬ NameChar c) ('=' :: s) := by
      intro s c hc h
      simp only [List.head?_cons, Option.some.injEq] at hc
      exact name_ne h (by simp) hc.symm
    by_cases hv : v = []
    · subst hv
      refine ⟨⟨k, none⟩, ⟨';' :: k ++ ['='], [], by simp, hn, [], ['='], by simp, by simp, ?_, ?_,
        .inr ⟨rfl, by intro c hc; simp at hc⟩⟩, rfl⟩
      · simpa using first []
      · simpa using stop []
    · refine ⟨⟨k, some v⟩, ⟨_, [], by rw [List.append_nil], hn, [], '=' :: (if ':' ∈ v ∨ ';' ∈ v then
        '"' :: v ++ ['"'] else v), by simp, by simp, ?_, ?_, hv, ?_⟩, rfl⟩
      · simpa using first _
      · simpa using stop _
      · by_cases hq : ':' ∈ v ∨ ';' ∈ v
        · rw [if_pos hq] at ht
          exact .inl ⟨by simp [hq], ht⟩
        · rw [if_neg hq] at ht
          rw [not_or] at hq
          refine .inr ⟨by simp [hq.1, hq.2], hq.1, hq.2, by intro c hc; simp at hc, ?_⟩
          rintro w hw hw' ⟨z, hz⟩
          rw [List.append_nil] at hz
          subst hz
          rcases ht with ht | ⟨y, hy⟩ | ⟨ht, -⟩
          · exact ht ⟨w ++ ['"'] ++ z, by simp⟩
          · cases w with
            | nil => exact hw rfl
            | cons d w =>
              simp only [List.cons_append, List.cons.injEq, List.nil_append, true_and] at hy
              exact hw' (by rw [hy.1]; simp)
          · exact ht (by simp)

/-! ### Examples -/

/-- parameters with and without quotes, without a value, and one that is no parameter; text after a parameter is dropped -/
example : @readParameter Uni.ascii c!";TZID=Europe/Berlin" = some ⟨c!"TZID", some c!"Europe/Berlin"⟩ ∧
    @readParameter Uni.ascii c!"; CN=\"A;B\"C:x" = some ⟨c!"CN", some c!"A;B"⟩ ∧
    @readParameter Uni.ascii c!";RSVP" = some ⟨c!"RSVP", none⟩ ∧ @readParameter Uni.ascii c!";RSVP=" = some ⟨c!"RSVP", none⟩ ∧
    @readParameter Uni.ascii c!"TZID=Europe/Berlin" = none ∧
    (@readParameterError Uni.ascii c!"TZID=x").map String.ofList =
      some "error: 0: at line 1, in Tag:\nTZID=x\n^\n\n1: at line 1, in Alt:\nTZID=x\n^\n\n" := by
  decide +kernel

/-- a parameter that survives though there is a quote in its value, and one that does not: `"a" b` becomes `a` -/
example : ParamForm (c!"CN", c!"a \"b\"") c!";CN=a \"b\"" ∧ ParamForm (c!"CN", c!"\"a\" b") c!";CN=\"a\" b" ∧
    @readParameter Uni.ascii c!";CN=a \"b\"" = some ⟨c!"CN", some c!"a \"b\""⟩ ∧
    @readParameter Uni.ascii c!";CN=\"a\" b" = some ⟨c!"CN", some c!"a"⟩ := by
  refine ⟨by unfold ParamForm; decide +kernel, by unfold ParamForm; decide +kernel, ?_⟩
  decide +kernel

end Ical
