import Verif.Spec.DateReaders
import Verif.Props.LooseDates

/-!
C75: exactly when the two readers of dates agree. C51: exactly when the date of a value is the beginning of its text.
-/

namespace Ical

open Spec

theorem find_reverse_filter {α : Type} (f : α → Bool) (l : List α) :
    l.reverse.find? f = (l.filter f).getLast? := by
  rw [← List.head?_filter, List.filter_reverse, List.head?_reverse]

theorem param_last (p : PProp) (k : Str) :
    p.toProperty.params.lookup k =
      ((p.params.filter (fun q => q.key = k)).getLast?).map (fun q => q.val.getD []) := by
  rw [lookup_eq_get]
  unfold PProp.toProperty
  simp only
  rw [BMap.get_ofList, ← List.map_reverse, List.find?_map]
  have e : ((fun x : Str × Str => x.1 == k) ∘ PParam.toPair) = fun q : PParam => decide (q.key = k) := by
    funext q
    by_cases h : q.key = k <;> simp [PParam.toPair, h]
  rw [e, find_reverse_filter, Option.map_map]
  rfl

theorem saysDate_iff (p : PProp) :
    p.toProperty.params.lookup c!"VALUE" = some c!"DATE" ↔ SaysDate p := by
  rw [param_last]
  unfold SaysDate
  simp only [Option.map_eq_some_iff, List.getLast?_eq_some_iff]
  constructor
  · rintro ⟨q, ⟨ys, h⟩, hq⟩
    rw [List.filter_eq_append_iff] at h
    obtain ⟨l1, l2, hp, h1, h2⟩ := h
    rw [List.filter_eq_cons_iff] at h2
    obtain ⟨m1, m2, rfl, h3, h4, h5⟩ := h2
    refine ⟨l1 ++ m1, q, m2, by rw [hp]; simp, by simpa using h4, ?_, ?_⟩
    · cases hv : q.val with
      | none => rw [hv] at hq; cases hq
      | some v => rw [hv] at hq; simpa using hq
    · intro r hr
      rw [List.filter_eq_nil_iff] at h5
      simpa using h5 r hr
  · rintro ⟨a, q, b, hp, hk, hv, hb⟩
    refine ⟨q, ⟨a.filter (fun q => decide (q.key = c!"VALUE")), ?_⟩, by rw [hv]; rfl⟩
    rw [hp, List.filter_append, List.filter_cons_of_pos (by simpa using hk)]
    congr 2
    rw [List.filter_eq_nil_iff]
    intro r hr
    simpa using hb r hr

theorem tzid_last (p : PProp) :
    p.toProperty.params.lookup c!"TZID" = (tzids p).getLast?.map (fun v => v.getD []) := by
  rw [param_last]
  unfold tzids
  rw [List.getLast?_map, Option.map_map]
  rfl

theorem tzid_first (p : PProp) :
    (p.params.find? (fun q => q.key == c!"TZID")).map PParam.val = (tzids p).head? := by
  unfold tzids
  rw [List.head?_map, List.head?_filter]
  congr 2
  funext q
  by_cases h : q.key = c!"TZID" <;> simp [h]

section
variable [Uni]

/-- **C75** (partial: not on all properties). The two readers of dates agree on exactly the properties of the
specification. -/
theorem date_readers_agree_exact_partial (p : PProp) :
    DatePerhapsTime.fromProperty p.toProperty = DatePerhapsTime.tryFromParsed p ↔ ReadersAgree p := by
  obtain ⟨e1, e2, e3⟩ := parse_exclusive p.val
  have hu : ∀ t, LooseDateTime p.val t ['Z'] ↔ parseUtc p.val = some ⟨t⟩ := fun t => (parseUtc_iff p.val ⟨t⟩).symm
  unfold ReadersAgree
  simp only [← parseDate_iff, ← parseDateTime_iff, hu, ← saysDate_iff]
  unfold DatePerhapsTime.fromProperty DatePerhapsTime.tryFromParsed CalDateTime.fromProperty CalDateTime.fromStr
  simp only [valueType_date_iff, ← lookup_eq_get c!"TZID", tzid_last]
  have hval : p.toProperty.val = p.val := rfl
  rw [hval]
  have hf := tzid_first p
  have hv : p.toProperty.params.lookup c!"VALUE" = some c!"DATE" ∨ p.toProperty.params.lookup c!"VALUE" ≠ some c!"DATE" :=
    Decidable.em _
  cases hd : parseDate p.val with
  | some d =>
    obtain ⟨a, b⟩ := e1 d hd
    simp only [a, b]
    rcases hv with hv | hv
    · simp [hv]
    · simp only [if_neg hv]
      cases (tzids p).getLast? <;> simp [hv]
  | none =>
    cases ht : parseDateTime p.val with
    | some t =>
      obtain ⟨a, b⟩ := e2 t ht
      simp only [b]
      rcases hv with hv | hv
      · simp only [if_pos hv]
        cases hq : p.params.find? (fun q => q.key == c!"TZID") with
        | none =>
          rw [hq] at hf
          have hz : tzids p = [] := List.head?_eq_none_iff.1 hf.symm
          simp [hz, hv]
        | some q =>
          rw [hq] at hf
          obtain ⟨l, hz⟩ := List.head?_eq_some_iff.1 hf.symm
          cases hqv : q.val with
          | none => rw [hqv] at hz; simp [hz, hv, hqv]
          | some z => rw [hqv] at hz; simp [hz, hv, hqv]
      · simp only [if_neg hv]
        cases hq : p.params.find? (fun q => q.key == c!"TZID") with
        | none =>
          rw [hq] at hf
          have hz : tzids p = [] := List.head?_eq_none_iff.1 hf.symm
          simp [hz, hv]
        | some q =>
          rw [hq] at hf
          obtain ⟨l, hz⟩ := List.head?_eq_some_iff.1 hf.symm
          cases hqv : q.val with
          | none => rw [hqv] at hz; simp [hz, hv, hqv, List.getLast?_cons]
          | some z => rw [hqv] at hz; simp [hz, hv, hqv, List.getLast?_eq_some_getLast]
    | none =>
      cases hu : parseUtc p.val with
      | none =>
        cases (tzids p).getLast? <;> simp
      | some u =>
        rcases hv with hv | hv
        · obtain ⟨u⟩ := u
          simp [hv]
        · obtain ⟨u⟩ := u
          cases hz : tzids p with
          | nil => simp [hv]
          | cons z l => simp [hv, List.getLast?_cons]

/-- **C51** (partial: not for all texts). The date of a value read from a property prints as the first eight characters of
the property's text exactly if these are eight digits. -/
theorem date_naive_text_exact_partial (p : Property) (d : DatePerhapsTime) (h : DatePerhapsTime.fromProperty p = some d) :
    fmtDate d.dateNaive = p.val.take 8 ↔ 8 ≤ p.val.length ∧ ∀ c ∈ p.val.take 8, '0' ≤ c ∧ c ≤ '9' := by
  constructor
  · intro he
    obtain ⟨s, hs⟩ := fromProperty_scan h
    obtain ⟨-, -, -, -, -, -, -, hd⟩ := (scanDate_iff _ _ _).1 hs
    obtain ⟨h1, h2, h3, h4⟩ := hd
    have hlen := congrArg List.length he
    unfold fmtDate at he hlen
    have hm : d.dateNaive.month < 100 := by omega
    have hday : d.dateNaive.day < 100 := by
      rcases h4 with h4 | ⟨-, h4⟩ | ⟨-, h4⟩ | ⟨-, h4, -⟩ <;> omega
    have l2 := congrArg List.length (fmt2_eq hm)
    have l3 := congrArg List.length (fmt2_eq hday)
    have l4 : ∀ n, 4 ≤ (fmt4 n).length := by
      intro n
      unfold fmt4
      simp only [List.length_append, List.length_replicate]
      omega
    simp only [List.length_append, l2, l3, List.length_take, List.length_cons, List.length_nil] at hlen
    unfold fmtYear at he hlen
    split at he
    · rename_i hy
      refine ⟨?_, ?_⟩
      · rw [if_pos hy, fmt4_eq (by omega)] at hlen
        simp at hlen
        omega
      · intro c hc
        rw [← he, List.mem_append, List.mem_append] at hc
        rcases hc with (hc | hc) | hc
        · exact fmt4_digits _ c hc
        · exact fmt2_digits _ c hc
        · exact fmt2_digits _ c hc
    · rename_i hy
      exfalso
      rw [if_neg hy] at hlen
      have := l4 d.dateNaive.year.toNat
      have := l4 (-d.dateNaive.year).toNat
      split at hlen <;> simp at hlen <;> omega
  · rintro ⟨hl, hd⟩
    exact date_naive_text_partial p d h hl hd

/-- eight digits and fewer -/
example : ∃ p q : Property, @DatePerhapsTime.fromProperty Uni.ascii p = some (.date ⟨2026, 1, 2⟩) ∧
    @DatePerhapsTime.fromProperty Uni.ascii q = some (.date ⟨2026, 1, 2⟩) ∧
    fmtDate (DatePerhapsTime.date ⟨2026, 1, 2⟩).dateNaive = p.val.take 8 ∧ q.val.length < 8 :=
  ⟨⟨c!"DTSTART", c!"20260102", [(c!"VALUE", c!"DATE")]⟩, ⟨c!"DTSTART", c!"2026012", [(c!"VALUE", c!"DATE")]⟩,
   by decide +kernel, by decide +kernel, by decide +kernel, by decide⟩

end

/-- Of two TZIDs the direct reader takes the first and the converted property has the last: they agree if both name
the same zone, even if others stand between, and do not otherwise. -/
example : ∃ p q : PProp, p.val = c!"20260131T120000" ∧ q.val = p.val ∧
    tzids p = [some c!"Europe/Berlin", none, some c!"Europe/Berlin"] ∧ ReadersAgree p ∧
    tzids q = [some c!"Europe/Berlin", none] ∧ ¬ ReadersAgree q :=
  ⟨⟨c!"DTSTART", c!"20260131T120000", [⟨c!"TZID", some c!"Europe/Berlin"⟩, ⟨c!"TZID", none⟩,
      ⟨c!"VALUE", some c!"DATE"⟩, ⟨c!"VALUE", none⟩, ⟨c!"TZID", some c!"Europe/Berlin"⟩]⟩,
   ⟨c!"DTSTART", c!"20260131T120000", [⟨c!"TZID", some c!"Europe/Berlin"⟩, ⟨c!"TZID", none⟩]⟩,
   rfl, rfl, by decide +kernel, (@date_readers_agree_exact_partial Uni.ascii _).1 (by decide +kernel), by decide +kernel,
   fun h => absurd ((@date_readers_agree_exact_partial Uni.ascii _).2 h) (by decide +kernel)⟩

/-- A local time with VALUE=DATE and a TZID without `=` is read by neither. -/
example : ∃ p : PProp, p.val = c!"20260131T120000" ∧ SaysDate p ∧ tzids p = [none] ∧ ReadersAgree p :=
  ⟨⟨c!"DTSTART", c!"20260131T120000", [⟨c!"TZID", none⟩, ⟨c!"VALUE", some c!"DATE"⟩]⟩, rfl,
   ⟨[⟨c!"TZID", none⟩], ⟨c!"VALUE", some c!"DATE"⟩, [], rfl, rfl, rfl, by simp⟩, by decide +kernel,
   (@date_readers_agree_exact_partial Uni.ascii _).1 (by decide +kernel)⟩

end Ical
