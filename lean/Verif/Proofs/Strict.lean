import Verif.Spec.Strict
import Verif.Props.ContentLine
import Verif.Props.Escaping

/-!
Lemmas for C110: content lines are read in one way only, and which of those that are written are.
-/

namespace Ical

open Nom Spec

/-! ### Cutting at a delimiter -/

/-- the head of the text, if any, does not satisfy `P` -/
def Stops (P : Char → Prop) (r : Str) : Prop := ∀ c ∈ r.head?, ¬ P c

theorem cut_unique {P : Char → Prop} {a b r s : Str} (ha : ∀ c ∈ a, P c) (hb : ∀ c ∈ b, P c) (hr : Stops P r)
    (hs : Stops P s) (h : a ++ r = b ++ s) : a = b ∧ r = s := by
  induction a generalizing b with
  | nil =>
    cases b with
    | nil => exact ⟨rfl, h⟩
    | cons c b =>
      have : r = c :: (b ++ s) := h
      exact absurd (hb c (by simp)) (hr c (by simp [this]))
  | cons c a ih =>
    cases b with
    | nil =>
      have : c :: (a ++ r) = s := h
      exact absurd (ha c (by simp)) (hs c (by simp [← this]))
    | cons d b =>
      simp only [List.cons_append, List.cons.injEq] at h
      obtain ⟨rfl, h⟩ := h
      obtain ⟨h1, h2⟩ := ih (fun x hx => ha x (by simp [hx])) (fun x hx => hb x (by simp [hx])) h
      exact ⟨by rw [h1], h2⟩

def nameChar (c : Char) : Prop :=
  ('a' ≤ c ∧ c ≤ 'z') ∨ ('A' ≤ c ∧ c ≤ 'Z') ∨ ('0' ≤ c ∧ c ≤ '9') ∨ c = '-'

theorem nameChar_ne {c : Char} (h : nameChar c) :
    c ≠ ':' ∧ c ≠ ';' ∧ c ≠ '=' ∧ c ≠ '\r' ∧ c ≠ '\n' ∧ c ≠ ' ' ∧ c ≠ '\t' := by
  refine ⟨?_, ?_, ?_, ?_, ?_, ?_, ?_⟩ <;> rintro rfl <;> revert h <;> unfold nameChar <;> decide

theorem name_chars {s : Str} (h : RfcName s) : ∀ c ∈ s, nameChar c := h.2

theorem safe_ne {c : Char} (h : SafeChar c) : QSafeChar c ∧ c ≠ ';' ∧ c ≠ ':' ∧ c ≠ ',' :=
  ⟨⟨h.1, h.2.1⟩, h.2.2⟩

theorem control_cr : ControlChar '\r' := by decide
theorem control_lf : ControlChar '\n' := by decide

/-! ### Reading is unambiguous -/

/-- what may follow the value of a parameter -/
def Delimited (r : Str) : Prop := ∃ c s, r = c :: s ∧ (c = ',' ∨ c = ';' ∨ c = ':')

theorem Delimited.stops {r : Str} (h : Delimited r) : Stops SafeChar r := by
  obtain ⟨c, s, rfl, h⟩ := h
  intro d hd
  simp only [List.head?_cons, Option.mem_def, Option.some.injEq] at hd
  subst hd
  rintro ⟨-, -, h1, h2, h3⟩
  rcases h with h | h | h
  · exact h3 h
  · exact h1 h
  · exact h2 h

theorem Delimited.no_quote {r s : Str} (h : Delimited r) : r ≠ '"' :: s := by
  obtain ⟨c, s', rfl, h⟩ := h
  rintro ⟨⟩
  revert h; decide

theorem value_unique {v u a b r s : Str} (hv : StrictValue v a) (hu : StrictValue u b) (hr : Delimited r)
    (hs : Delimited s) (h : a ++ r = b ++ s) : v = u ∧ r = s := by
  rcases hv with ⟨rfl, hv⟩ | ⟨rfl, hv⟩ <;> rcases hu with ⟨rfl, hu⟩ | ⟨rfl, hu⟩
  · exact cut_unique hv hu hr.stops hs.stops h
  · cases a with
    | nil => exact absurd h (fun h => hr.no_quote h)
    | cons c a =>
      simp only [List.cons_append, List.cons.injEq] at h
      exact absurd h.1 (hv c (by simp)).2.1
  · cases b with
    | nil => exact absurd h.symm (fun h => hs.no_quote h)
    | cons c b =>
      simp only [List.cons_append, List.cons.injEq] at h
      exact absurd h.1.symm (hu c (by simp)).2.1
  · simp only [List.cons_append, List.cons.injEq, true_and, List.append_assoc] at h
    obtain ⟨h1, h2⟩ := cut_unique (P := QSafeChar) hv hu (by simp [Stops, QSafeChar]) (by simp [Stops, QSafeChar]) h
    exact ⟨h1, by simpa using h2⟩

/-- what may follow all values of a parameter -/
def Ended (r : Str) : Prop := ∃ c s, r = c :: s ∧ (c = ';' ∨ c = ':')

theorem Ended.delimited {r : Str} (h : Ended r) : Delimited r := by
  obtain ⟨c, s, rfl, h⟩ := h
  exact ⟨c, s, rfl, .inr h⟩

theorem comma_delimited (s : Str) : Delimited (',' :: s) := ⟨_, _, rfl, .inl rfl⟩

theorem Ended.no_comma {r s : Str} (h : Ended r) : r ≠ ',' :: s := by
  obtain ⟨c, s', rfl, h⟩ := h
  rintro ⟨⟩
  revert h; decide

theorem values_unique {vs us : List Str} {a b r s : Str} (hv : StrictValues vs a) (hu : StrictValues us b)
    (hr : Ended r) (hs : Ended s) (h : a ++ r = b ++ s) : vs = us ∧ r = s := by
  induction vs generalizing us a b with
  | nil => exact hv.elim
  | cons v vs ih =>
    cases us with
    | nil => exact hu.elim
    | cons u us =>
      cases vs with
      | nil =>
        cases us with
        | nil =>
          obtain ⟨rfl, h⟩ := value_unique hv hu hr.delimited hs.delimited h
          exact ⟨rfl, h⟩
        | cons u' us =>
          obtain ⟨a', b', h1, h2, rfl⟩ := hu
          rw [List.append_assoc] at h
          obtain ⟨rfl, h⟩ := value_unique hv h1 hr.delimited (comma_delimited _) h
          exact absurd h (fun h => hr.no_comma h)
      | cons v' vs =>
        obtain ⟨a1, b1, h1, h2, rfl⟩ := hv
        rw [List.append_assoc] at h
        cases us with
        | nil =>
          obtain ⟨rfl, h⟩ := value_unique h1 hu (comma_delimited _) hs.delimited h
          exact absurd h.symm (fun h => hs.no_comma h)
        | cons u' us =>
          obtain ⟨a2, b2, h3, h4, rfl⟩ := hu
          rw [List.append_assoc] at h
          obtain ⟨rfl, h⟩ := value_unique h1 h3 (comma_delimited _) (comma_delimited _) h
          simp only [List.cons.injEq, true_and] at h
          obtain ⟨h, h'⟩ := ih h2 h4 h
          exact ⟨by rw [h], h'⟩

theorem params_ended {l : List (Str × List Str)} {t v : Str} (h : StrictParams l t) : Ended (t ++ ':' :: v) := by
  cases l with
  | nil => subst h; exact ⟨':', v, rfl, .inr rfl⟩
  | cons x l =>
    obtain ⟨k, vs⟩ := x
    obtain ⟨a, b, -, -, -, rfl⟩ := h
    exact ⟨';', _, rfl, .inl rfl⟩

theorem stops_name {c : Char} {s : Str} (h : c = ':' ∨ c = ';' ∨ c = '=') : Stops nameChar (c :: s) := by
  intro d hd hn
  simp only [List.head?_cons, Option.mem_def, Option.some.injEq] at hd
  subst hd
  have := nameChar_ne hn
  rcases h with h | h | h
  · exact this.1 h
  · exact this.2.1 h
  · exact this.2.2.1 h

theorem Ended.stops_name {r : Str} (h : Ended r) : Stops nameChar r := by
  obtain ⟨c, s, rfl, h⟩ := h
  exact Ical.stops_name (by rcases h with h | h <;> simp [h])

theorem params_unique {l m : List (Str × List Str)} {t u v w : Str} (hl : StrictParams l t) (hm : StrictParams m u)
    (h : t ++ ':' :: v = u ++ ':' :: w) : l = m ∧ v = w := by
  induction l generalizing m t u with
  | nil =>
    subst hl
    cases m with
    | nil => subst hm; simpa using h
    | cons y m =>
      obtain ⟨k, vs⟩ := y
      obtain ⟨a, b, -, -, -, rfl⟩ := hm
      simp at h
  | cons x l ih =>
    obtain ⟨k, vs⟩ := x
    obtain ⟨a, b, h1, h2, h3, rfl⟩ := hl
    cases m with
    | nil => subst hm; simp at h
    | cons y m =>
      obtain ⟨k', us⟩ := y
      obtain ⟨a', b', h4, h5, h6, rfl⟩ := hm
      simp only [List.cons_append, List.append_assoc, List.cons.injEq, true_and] at h
      obtain ⟨e1, h'⟩ := cut_unique (P := nameChar) h1.2 h4.2 (stops_name (by simp)) (stops_name (by simp)) h
      simp only [List.cons.injEq, true_and] at h'
      obtain ⟨e2, h'⟩ := values_unique h2 h5 (params_ended h3) (params_ended h6) h'
      obtain ⟨e3, e4⟩ := ih h3 h6 h'
      exact ⟨by rw [e1, e2, e3], e4⟩

theorem line_unique {x y : Said} {t : Str} (hx : StrictLine x t) (hy : StrictLine y t) : x = y := by
  obtain ⟨n, ps, v⟩ := x
  obtain ⟨m, qs, u⟩ := y
  obtain ⟨a, h1, h2, -, rfl⟩ := hx
  obtain ⟨b, h3, h4, -, h⟩ := hy
  simp only [List.append_assoc] at h
  obtain ⟨h5, h⟩ := cut_unique (P := nameChar) h1.2 h3.2 (params_ended h2).stops_name (params_ended h4).stops_name h
  obtain ⟨h6, h7⟩ := params_unique h2 h4 h
  simp only at h5 h6 h7
  rw [h5, h6, h7]

/-! ### No CR in a content line -/

theorem strictValue_noCr {v t : Str} (h : StrictValue v t) : '\r' ∉ t := by
  rcases h with ⟨rfl, h⟩ | ⟨rfl, h⟩
  · exact fun hc => (h _ hc).1 control_cr
  · simp only [List.cons_append, List.mem_cons, List.mem_append, List.not_mem_nil, or_false]
    rintro (hc | hc | hc)
    · exact absurd hc (by decide)
    · exact (h _ hc).1 control_cr
    · exact absurd hc (by decide)

theorem strictValues_noCr {vs : List Str} {t : Str} (h : StrictValues vs t) : '\r' ∉ t := by
  induction vs generalizing t with
  | nil => exact h.elim
  | cons v vs ih =>
    cases vs with
    | nil => exact strictValue_noCr h
    | cons u vs =>
      obtain ⟨a, b, h1, h2, rfl⟩ := h
      have := strictValue_noCr h1
      have := ih h2
      simp_all

theorem name_noCr {s : Str} (h : RfcName s) : '\r' ∉ s := fun hc => (nameChar_ne (h.2 _ hc)).2.2.2.1 rfl

theorem strictParams_noCr {l : List (Str × List Str)} {t : Str} (h : StrictParams l t) : '\r' ∉ t := by
  induction l generalizing t with
  | nil => subst h; simp
  | cons x l ih =>
    obtain ⟨k, vs⟩ := x
    obtain ⟨a, b, h1, h2, h3, rfl⟩ := h
    have := name_noCr h1
    have := strictValues_noCr h2
    have := ih h3
    simp_all

theorem strictLine_noCr {x : Said} {t : Str} (h : StrictLine x t) : '\r' ∉ t := by
  obtain ⟨ps, h1, h2, h3, rfl⟩ := h
  have := name_noCr h1
  have := strictParams_noCr h2
  have : '\r' ∉ x.value := fun hc => h3 _ hc control_cr
  simp_all

theorem strictLines_peel {x : Said} {xs : List Said} {l rest : Str} (hl : '\r' ∉ l)
    (h : StrictLines (x :: xs) (l ++ ['\r', '\n'] ++ rest)) : StrictLine x l ∧ StrictLines xs rest := by
  obtain ⟨a, b, h1, h2, h3⟩ := h
  have ha := strictLine_noCr h1
  simp only [List.append_assoc] at h3
  obtain ⟨e1, e2⟩ := cut_unique (P := (· ≠ '\r')) (fun c hc e => hl (e ▸ hc)) (fun c hc e => ha (e ▸ hc))
    (by simp [Stops]) (by simp [Stops]) h3
  simp only [List.cons_append, List.cons.injEq, true_and, List.nil_append] at e2
  rw [e1, e2]
  exact ⟨h1, h2⟩

theorem lines_unique {xs ys : List Said} {t : Str} (hx : StrictLines xs t) (hy : StrictLines ys t) : xs = ys := by
  induction xs generalizing ys t with
  | nil =>
    subst hx
    cases ys with
    | nil => rfl
    | cons y ys => obtain ⟨a, b, -, -, h⟩ := hy; simp at h
  | cons x xs ih =>
    obtain ⟨a, b, h1, h2, rfl⟩ := hx
    cases ys with
    | nil =>
      have : a ++ ['\r', '\n'] ++ b = [] := hy
      simp at this
    | cons y ys =>
      obtain ⟨h3, h4⟩ := strictLines_peel (strictLine_noCr h1) hy
      rw [line_unique h1 h3, ih h2 h4]

end Ical
