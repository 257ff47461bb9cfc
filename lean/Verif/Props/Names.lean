import Verif.Props.DateText
import Verif.Props.Grammar

/-!
C76: the default value types. C77: the case of names.
-/

namespace Ical

open Nom Spec

/-! ### C76 -/

namespace Spec

/-- The properties RFC 5545 (3.7 and 3.8) gives a default value type, by type. -/
def defaultNames : ValueType → List Str
  | .text => [c!"CALSCALE", c!"METHOD", c!"PRODID", c!"VERSION", c!"CATEGORIES", c!"CLASS", c!"COMMENT",
      c!"DESCRIPTION", c!"LOCATION", c!"RESOURCES", c!"STATUS", c!"SUMMARY", c!"TRANSP", c!"TZID", c!"TZNAME",
      c!"CONTACT", c!"RELATED-TO", c!"UID", c!"ACTION", c!"REQUEST-STATUS"]
  | .uri => [c!"ATTACH", c!"TZURL", c!"URL"]
  | .calAddress => [c!"ATTENDEE", c!"ORGANIZER"]
  | .float => [c!"GEO"]
  | .integer => [c!"PERCENT-COMPLETE", c!"PRIORITY", c!"REPEAT", c!"SEQUENCE"]
  | .dateTime => [c!"COMPLETED", c!"DTEND", c!"DUE", c!"DTSTART", c!"RECURRENCE-ID", c!"EXDATE", c!"RDATE",
      c!"CREATED", c!"DTSTAMP", c!"LAST-MODIFIED"]
  | .duration => [c!"DURATION", c!"TRIGGER"]
  | .period => [c!"FREEBUSY"]
  | .utcOffset => [c!"TZOFFSETFROM", c!"TZOFFSETTO"]
  | .recur => [c!"RRULE"]
  | _ => []

/-- The texts RFC 5545 (3.2.20) gives the value types. -/
def typeName : ValueType → Str
  | .binary => c!"BINARY" | .boolean => c!"BOOLEAN" | .calAddress => c!"CAL-ADDRESS" | .date => c!"DATE"
  | .dateTime => c!"DATE-TIME" | .duration => c!"DURATION" | .float => c!"FLOAT" | .integer => c!"INTEGER"
  | .period => c!"PERIOD" | .recur => c!"RECUR" | .text => c!"TEXT" | .time => c!"TIME" | .uri => c!"URI"
  | .utcOffset => c!"UTC-OFFSET"

end Spec

variable [Uni]

theorem byName_iff (k : Str) (t : ValueType) : ValueType.byName k = some t ↔ k ∈ defaultNames t := by
  unfold ValueType.byName
  constructor
  · intro h
    split at h
    · cases h
    · have := lookup_mem h
      revert this
      unfold byNameTable
      intro hm
      simp only [List.mem_cons, Prod.mk.injEq, List.not_mem_nil, or_false] at hm
      repeat' (first | (rcases hm with ⟨rfl, rfl⟩ | hm) | (obtain ⟨rfl, rfl⟩ := hm))
      all_goals (subst_vars; decide)
  · intro h
    have hl : k.any isLower = false := by
      apply noLower
      revert h
      cases t <;> simp only [defaultNames, List.mem_cons, List.not_mem_nil, or_false, false_implies]
      all_goals
        intro h
        repeat' (first | (rcases h with rfl | h) | subst h)
        all_goals decide
    rw [hl]
    revert h
    cases t <;> simp only [defaultNames, List.mem_cons, List.not_mem_nil, or_false, false_implies]
    all_goals
      intro h
      repeat' (first | (rcases h with rfl | h) | subst h)
      all_goals rfl

omit [Uni] in
theorem fromStr_iff (s : Str) (t : ValueType) : ValueType.fromStr s = some t ↔ s = typeName t := by
  constructor
  · intro h
    have := lookup_mem h
    revert this
    unfold fromStrTable
    intro hm
    simp only [List.mem_cons, Prod.mk.injEq, List.not_mem_nil, or_false] at hm
    repeat' (first | (rcases hm with ⟨rfl, rfl⟩ | hm) | (obtain ⟨rfl, rfl⟩ := hm))
    all_goals (subst_vars; rfl)
  · rintro rfl
    cases t <;> rfl

/-- **C76.** The value type of a property is the one its VALUE parameter names, or else the default RFC 5545 gives its
name; properties without VALUE the RFC does not mention have none. -/
theorem value_type_rfc (p : Property) (t : ValueType) :
    p.valueType = some t ↔
      p.params.lookup c!"VALUE" = some (typeName t) ∨
      ((∀ u, p.params.lookup c!"VALUE" ≠ some (typeName u)) ∧ p.key ∈ defaultNames t) := by
  rw [lookup_eq_get]
  unfold Property.valueType
  cases hg : p.params.get c!"VALUE" with
  | none => simp [byName_iff]
  | some v =>
    simp only [Option.bind_some, Option.some.injEq, ne_eq]
    cases hf : ValueType.fromStr v with
    | none =>
      have hn : ∀ u, ¬ v = typeName u := fun u hu => by rw [(fromStr_iff v u).2 hu] at hf; cases hf
      simp [byName_iff, hn]
    | some w =>
      have hw := (fromStr_iff v w).1 hf
      simp only [Option.some.injEq]
      constructor
      · rintro rfl; exact .inl hw
      · rintro (h | ⟨h, -⟩)
        · have := (fromStr_iff v t).2 h
          rw [hf] at this
          exact Option.some.inj this
        · exact absurd hw (h w)

end Ical

namespace Ical
open Spec

example : @Property.valueType Uni.ascii ⟨c!"TRIGGER", [], []⟩ = some .duration ∧
    @Property.valueType Uni.ascii ⟨c!"TRIGGER", [], [(c!"VALUE", c!"DATE-TIME")]⟩ = some .dateTime ∧
    @Property.valueType Uni.ascii ⟨c!"TRIGGER", [], [(c!"VALUE", c!"X-OWN")]⟩ = some .duration ∧
    @Property.valueType Uni.ascii ⟨c!"X-OWN", [], []⟩ = none := by decide

/-! ### C77 -/

/-- **C77** (partial: nothing is lost, but nothing is interpreted either). A line whose name has a lower-case letter
is read with its name and value verbatim, whatever they are. -/
theorem name_case_partial [Uni] (key val : Str) (hk : IsName key) (h1 : ¬ c!"END" <+: key) (h2 : ¬ c!"BEGIN" <+: key)
    (hl : key.any isLower) (hv : ¬ ['\r', '\n'] <:+: val) :
    readProperty (key ++ [':'] ++ val ++ ['\r', '\n']) = some ⟨key, val, []⟩ := by
  have h := property_ok (br := .crlf) (r := []) (params := []) hk h1 h2 (by simp) hv (by simp)
  unfold readProperty
  rw [List.append_nil] at h
  rw [show key ++ [':'] ++ val ++ ['\r', '\n'] = (Item.prop key [] val).text .crlf by simp [Item.text, Break.text], h]
  simp only [finish, meaningProp, List.map_nil, List.find?_nil, Option.bind_none, Option.some.injEq, PProp.mk.injEq,
    true_and, and_true]
  rw [if_neg]
  rw [isTextFor_iff]
  unfold ValueType.byName
  rw [hl]
  simp

/-- the hypotheses hold for a summary in lower case, whose escaped comma stays escaped -/
example : @IsName Uni.ascii c!"summary" ∧ ¬ c!"END" <+: c!"summary" ∧ c!"summary".any (@isLower Uni.ascii) ∧
    @readProperty Uni.ascii c!"summary:a\\, b\r\n" = some ⟨c!"summary", c!"a\\, b", []⟩ := by
  refine ⟨by decide, by decide, by decide, by decide +kernel⟩

/-- **C77, what is missing.** RFC 5545 has all names case-insensitive. An event with its summary in lower case has no
summary; a component in lower case is no event; a calendar in lower case is a component of an otherwise empty calendar;
an END in another case than its BEGIN is an error; and a parameter in lower case is not the parameter. -/
theorem name_case_violated :
    (@CalComp.fromStr Uni.ascii c!"BEGIN:VEVENT\r\nsummary:a\r\nEND:VEVENT\r\n").map
      (fun c => (Component.getSummary c.toOther, c.asEvent.isSome)) = some (none, true) ∧
    (@CalComp.fromStr Uni.ascii c!"BEGIN:vevent\r\nSUMMARY:a\r\nEND:vevent\r\n").map
      (fun c => (Component.getSummary c.toOther, c.asEvent.isSome)) = some (some c!"a", false) ∧
    (@Calendar.fromStr Uni.ascii c!"BEGIN:vcalendar\r\nVERSION:2.0\r\nEND:vcalendar\r\n").map
      (fun c => (c.props.length, c.comps.length)) = some (0, 1) ∧
    (@CalComp.fromStr Uni.ascii c!"BEGIN:VEVENT\r\nSUMMARY:a\r\nEND:vevent\r\n").isNone ∧
    (@CalComp.fromStr Uni.ascii c!"BEGIN:VEVENT\r\nDTSTART;value=DATE:20260101\r\nEND:VEVENT\r\n").map
      (fun c => @Component.getStart _ _ Uni.ascii c.toOther) = some none := by
  decide +kernel

end Ical
