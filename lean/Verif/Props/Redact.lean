import Verif.Spec.Redact
import Verif.Props.Breaks
import Verif.Props.ThreeWay
import Verif.Props.Search
import Verif.Props.FoldFill
import Verif.Props.SameBut

/-!
C144: removing the lines of a property from the file of a calendar.
-/

namespace Ical

open Nom Spec

/-! ### lines -/

/-- the lines of a text that has no LF -/
theorem cutLines_last {x : Str} (h : NoLf x) : cutLines x = if x = [] then [] else [x] := by
  induction x with
  | nil => rfl
  | cons c x ih =>
    have hc : c ≠ '\n' := fun e => h (by simp [e])
    have hx : NoLf x := fun e => h (by simp [e])
    rw [cutLines, if_neg hc, ih hx]
    cases x <;> rfl

/-- the first line of a text -/
theorem cutLines_line {x : Str} (h : NoLf x) (r : Str) : cutLines (x ++ '\n' :: r) = (x ++ ['\n']) :: cutLines r := by
  induction x with
  | nil => rw [List.nil_append, cutLines, if_pos rfl]; rfl
  | cons c x ih =>
    have hc : c ≠ '\n' := fun e => h (by simp [e])
    have hx : NoLf x := fun e => h (by simp [e])
    rw [List.cons_append, cutLines, if_neg hc, ih hx]
    rfl

/-- a text is one line, or a line and the rest -/
theorem cut_first (s : Str) : NoLf s ∨ ∃ x r, NoLf x ∧ s = x ++ '\n' :: r := by
  by_cases h : '\n' ∈ s
  · obtain ⟨x, r, rfl, hx⟩ := List.eq_append_cons_of_mem h
    exact .inr ⟨x, r, hx, rfl⟩
  · exact .inl h

theorem named_append {k x : Str} (y : Str) (h : NamedLine k x) : NamedLine k (x ++ y) :=
  h.imp (fun h => h.trans ⟨y, rfl⟩) (fun h => h.trans ⟨y, rfl⟩)

theorem prefix_before {p x : Str} {d : Char} {y : Str} (hd : d ∉ p) : p <+: x ++ d :: y ↔ p <+: x := by
  constructor
  · rintro ⟨t, ht⟩
    rcases List.append_eq_append_iff.1 ht with ⟨a, rfl, -⟩ | ⟨c, rfl, hc⟩
    · exact ⟨a, rfl⟩
    · cases c with
      | nil => exact ⟨[], by simp⟩
      | cons e c =>
        obtain ⟨rfl, -⟩ : d = e ∧ y = c ++ t := by simpa using hc
        exact absurd (by simp) hd
  · exact fun h => h.trans ⟨_, rfl⟩

/-- what follows a line does not matter -/
theorem named_line {k : Str} (hk : NoLf k) (x y : Str) : NamedLine k (x ++ '\n' :: y) ↔ NamedLine k x := by
  unfold NamedLine
  rw [prefix_before, prefix_before]
  · simpa [NoLf] using hk
  · simpa [NoLf] using hk

theorem withoutLines_nil (k : Str) : withoutLines k [] = [] := rfl

theorem withoutLines_last {k x : Str} (h : NoLf x) : withoutLines k x = if NamedLine k x then [] else x := by
  unfold withoutLines
  rw [cutLines_last h]
  by_cases hx : x = []
  · subst hx; simp
  · rw [if_neg hx]
    by_cases hn : NamedLine k x <;> simp [hn]

theorem withoutLines_line {k : Str} (hk : NoLf k) {x : Str} (h : NoLf x) (r : Str) :
    withoutLines k (x ++ '\n' :: r) = (if NamedLine k x then [] else x ++ ['\n']) ++ withoutLines k r := by
  unfold withoutLines
  rw [cutLines_line h]
  have := named_line hk x []
  by_cases hn : NamedLine k x <;> simp [hn, this]

theorem lineContent_lf {x : Str} (h : ¬ ['\r'] <:+ x) : lineContent (x ++ ['\n']) = x := by
  have h1 : ¬ c!"\r\n" <:+ x ++ ['\n'] := by
    rintro ⟨t, ht⟩
    have : t ++ ['\r'] = x := by
      have e : (t ++ ['\r']) ++ ['\n'] = x ++ ['\n'] := by rw [← ht]; simp
      exact (List.append_inj' e rfl).1
    exact h ⟨t, this⟩
  unfold lineContent
  rw [if_neg h1, if_pos ⟨x, rfl⟩]
  simp

theorem lineContent_crlf (x : Str) : lineContent ((x ++ ['\r']) ++ ['\n']) = x := by
  unfold lineContent
  rw [if_pos ⟨x, by simp⟩]
  simp

theorem noLf_unfold {x : Str} (h : NoLf x) : unfoldSpec x = x := by
  apply unfoldSpec_markerFree
  constructor <;>
  · rintro ⟨a, b, rfl⟩
    exact h (by simp)

/-- unfolding a line that is not continued -/
theorem unfold_next {x r : Str} (h : NoLf x) (hr : NoIndent r) : unfoldSpec (x ++ '\n' :: r) = x ++ '\n' :: unfoldSpec r := by
  have := unfoldSpec_break x .lf r hr
  rw [noLf_unfold h] at this
  exact this

/-- unfolding a line that is continued -/
theorem unfold_continued {x r : Str} {b : Char} (h : NoLf x) (hb : b = ' ' ∨ b = '\t') :
    unfoldSpec (x ++ '\n' :: b :: r) = lineContent (x ++ ['\n']) ++ unfoldSpec r := by
  by_cases hr : ['\r'] <:+ x
  · obtain ⟨y, rfl⟩ := hr
    have hy : NoLf y := fun e => h (by simp [e])
    rw [lineContent_crlf]
    rcases hb with rfl | rfl
    · have := unfoldSpec_append_marker y .crlfSp r (by simp [Marker.isLf])
      rw [noLf_unfold hy] at this
      simpa [Marker.text] using this
    · have := unfoldSpec_append_marker y .crlfTab r (by simp [Marker.isLf])
      rw [noLf_unfold hy] at this
      simpa [Marker.text] using this
  · rw [lineContent_lf hr]
    rcases hb with rfl | rfl
    · have := unfoldSpec_append_marker x .lfSp r (fun _ => hr)
      rw [noLf_unfold h] at this
      simpa [Marker.text] using this
    · have := unfoldSpec_append_marker x .lfTab r (fun _ => hr)
      rw [noLf_unfold h] at this
      simpa [Marker.text] using this

theorem continues_iff {r : Str} : Continues r ↔ ¬ NoIndent r := by
  unfold Continues NoIndent
  cases r with
  | nil => simp
  | cons c r =>
    simp [List.cons_prefix_cons]
    grind

theorem content_prefix (x : Str) : lineContent (x ++ ['\n']) <+: x := by
  by_cases hr : ['\r'] <:+ x
  · obtain ⟨y, rfl⟩ := hr
    rw [lineContent_crlf]
    exact ⟨_, rfl⟩
  · rw [lineContent_lf hr]
    exact List.prefix_refl _

/-- however the line goes on, it is not one of the name -/
def Decided (k x : Str) : Prop := ∀ t, ¬ NamedLine k (x ++ t)

theorem decided_of {k x : Str} (h : ¬ NamedLine k x) (h' : ¬ x <+: k) : Decided k x := by
  have key : ∀ (d : Char) (t : Str), ¬ k ++ [d] <+: x → ¬ k ++ [d] <+: x ++ t := by
    rintro d t hd ⟨u, hu⟩
    rcases List.append_eq_append_iff.1 hu with ⟨a, rfl, -⟩ | ⟨c, hc, -⟩
    · exact hd ⟨a, rfl⟩
    · rcases List.eq_nil_or_concat c with rfl | ⟨c', e, rfl⟩
      · exact hd ⟨[], by simpa using hc⟩
      · rw [List.concat_eq_append, ← List.append_assoc] at hc
        exact h' ⟨c', ((List.append_inj' hc rfl).1).symm⟩
  rintro t (ht | ht)
  · exact key ':' t (fun e => h (.inl e)) ht
  · exact key ';' t (fun e => h (.inr e)) ht

theorem named_noIndent {k x : Str} (hk : NoIndent k) (h : NamedLine k x) : NoIndent x := by
  unfold NoIndent at *
  rcases h with ⟨t, rfl⟩ | ⟨t, rfl⟩ <;> cases k <;> simp_all

theorem notContinued_tail {k : Str} {x r : Str} (h : NoLf x) (hn : NotContinued k (cutLines (x ++ '\n' :: r))) :
    NotContinued k (cutLines r) := by
  rw [cutLines_line h] at hn
  cases hr : cutLines r with
  | nil => trivial
  | cons b l => rw [hr] at hn; exact hn.2

theorem cutLines_head {b : Char} {r : Str} : ∃ line l, cutLines (b :: r) = (b :: line) :: l := by
  rw [cutLines]
  split
  · rename_i h; subst h; exact ⟨_, _, rfl⟩
  · split <;> exact ⟨_, _, rfl⟩

theorem notContinued_head {k : Str} {x r : Str} {b : Char} (h : NoLf x) (hb : b = ' ' ∨ b = '\t')
    (hn : NotContinued k (cutLines (x ++ '\n' :: b :: r))) :
    ¬ NamedLine k (x ++ ['\n']) ∧ ¬ lineContent (x ++ ['\n']) <+: k := by
  rw [cutLines_line h] at hn
  obtain ⟨line, l, e⟩ := cutLines_head (b := b) (r := r)
  rw [e] at hn
  refine hn.1 ?_
  rcases hb with rfl | rfl
  · exact .inl ⟨line, rfl⟩
  · exact .inr ⟨line, rfl⟩

theorem noIndent_cases (r : Str) : NoIndent r ∨ ∃ b r', (b = ' ' ∨ b = '\t') ∧ r = b :: r' := by
  cases r with
  | nil => exact .inl (by simp [NoIndent])
  | cons b r =>
    by_cases h : b = ' ' ∨ b = '\t'
    · exact .inr ⟨b, r, h, rfl⟩
    · exact .inl (by simpa [NoIndent] using not_or.1 h)

/-- what is left does not start with a blank unless the text does -/
theorem withoutLines_noIndent {k : Str} (hk : NoLf k) (n : Nat) (s : Str) (hs : s.length ≤ n) (h : NoIndent s)
    (hn : NotContinued k (cutLines s)) : NoIndent (withoutLines k s) := by
  induction n generalizing s with
  | zero =>
    obtain rfl : s = [] := List.length_eq_zero_iff.1 (by omega)
    exact h
  | succ n ih =>
    rcases cut_first s with hx | ⟨x, r, hx, rfl⟩
    · rw [withoutLines_last hx]
      split
      · simp [NoIndent]
      · exact h
    · rw [withoutLines_line hk hx]
      split
      · rename_i hnm
        rw [List.nil_append]
        refine ih r (by simp at hs; omega) ?_ (notContinued_tail hx hn)
        rcases noIndent_cases r with hr | ⟨b, r', hb, rfl⟩
        · exact hr
        · exact absurd (named_append ['\n'] hnm) (notContinued_head hx hb hn).1
      · cases x with
        | nil => simp [NoIndent]
        | cons c x => simpa [NoIndent] using h

/-- removing lines and unfolding can be exchanged -/
theorem without_unfold {k : Str} (hk : NoLf k) (hi : NoIndent k) (n : Nat) : ∀ s : Str, s.length ≤ n → NotContinued k (cutLines s) →
    unfoldSpec (withoutLines k s) = withoutLines k (unfoldSpec s) ∧
    ∀ acc b r, NoLf acc → Decided k acc → (b = ' ' ∨ b = '\t') → s = b :: r →
      ∃ r', withoutLines k s = b :: r' ∧ withoutLines k (acc ++ unfoldSpec r) = acc ++ unfoldSpec r' := by
  induction n with
  | zero =>
    intro s hs _
    obtain rfl : s = [] := List.length_eq_zero_iff.1 (by omega)
    exact ⟨rfl, fun _ _ _ _ _ _ h => by cases h⟩
  | succ n ih =>
    intro s hs hn
    constructor
    · rcases cut_first s with hx | ⟨x, r, hx, rfl⟩
      · rw [noLf_unfold hx, withoutLines_last hx]
        split
        · rfl
        · exact noLf_unfold hx
      · have hlen : r.length ≤ n := by simp at hs; omega
        have hn' := notContinued_tail hx hn
        rw [withoutLines_line hk hx]
        rcases noIndent_cases r with hr | ⟨b, r, hb, rfl⟩
        · rw [unfold_next hx hr, withoutLines_line hk hx, ← (ih r hlen hn').1]
          split
          · rfl
          · have := unfold_next hx (withoutLines_noIndent hk _ r (Nat.le_refl _) hr hn')
            simpa using this
        · obtain ⟨h1, h2⟩ := notContinued_head hx hb hn
          have h1' : ¬ NamedLine k x := fun h => h1 (named_append _ h)
          have hc : NoLf (lineContent (x ++ ['\n'])) := fun e => hx ((content_prefix x).subset e)
          have hd : Decided k (lineContent (x ++ ['\n'])) := by
            refine decided_of (fun h => h1' ?_) h2
            obtain ⟨t, ht⟩ := content_prefix x
            rw [← ht]
            exact named_append t h
          obtain ⟨r', e1, e2⟩ := (ih _ hlen hn').2 _ b r hc hd hb rfl
          rw [if_neg h1', e1, unfold_continued hx hb, e2]
          have := unfold_continued (r := r') hx hb
          simpa using this
    · rintro acc b r ha hd hb rfl
      have hnb : ∀ y, ¬ NamedLine k (b :: y) := by
        intro y hy
        have := named_noIndent hi hy
        rcases hb with rfl | rfl <;> simp [NoIndent] at this
      rcases cut_first r with hx | ⟨x, r, hx, rfl⟩
      · refine ⟨r, ?_, ?_⟩
        · have hbx : NoLf (b :: r) := by
            rcases hb with rfl | rfl <;> simpa [NoLf] using hx
          rw [withoutLines_last hbx, if_neg (hnb r)]
        · rw [noLf_unfold hx, withoutLines_last (by simpa [NoLf] using ⟨ha, hx⟩), if_neg (hd r)]
      · have hbx : NoLf (b :: x) := by
          rcases hb with rfl | rfl <;> simpa [NoLf] using hx
        rw [← List.cons_append] at hn hs ⊢
        have hlen : r.length ≤ n := by simp at hs; omega
        have hn' := notContinued_tail hbx hn
        refine ⟨x ++ '\n' :: withoutLines k r, ?_, ?_⟩
        · rw [withoutLines_line hk hbx, if_neg (hnb x)]
          simp
        · rcases noIndent_cases r with hr | ⟨b', r, hb', rfl⟩
          · rw [unfold_next hx hr, unfold_next hx (withoutLines_noIndent hk _ r (Nat.le_refl _) hr hn'),
              ← List.append_assoc, withoutLines_line hk (by simpa [NoLf] using ⟨ha, hx⟩), if_neg (hd x), (ih r hlen hn').1]
            simp
          · have hc : NoLf (lineContent (x ++ ['\n'])) := fun e => hx ((content_prefix x).subset e)
            obtain ⟨r', e1, e2⟩ := (ih _ hlen hn').2 (acc ++ lineContent (x ++ ['\n'])) b' r
              (by simpa [NoLf] using ⟨ha, hc⟩) (fun t => by rw [List.append_assoc]; exact hd _) hb' rfl
            rw [e1, unfold_continued hx hb', unfold_continued hx hb', ← List.append_assoc, e2, List.append_assoc]

/-- **C144.** If no line of the name is continued, then it does not matter whether the lines of the name are removed from
the file or from the unfolded file. -/
theorem redacted_unfold {k : Str} (hk : ∀ c ∈ k, c ≠ '\n' ∧ c ≠ ' ' ∧ c ≠ '\t') {s : Str} (hn : NotContinued k (cutLines s)) :
    unfold (withoutLines k s) = withoutLines k (unfold s) := by
  rw [unfold_eq_spec, unfold_eq_spec]
  refine (without_unfold (fun h => (hk _ h).1 rfl) ?_ _ s (Nat.le_refl _) hn).1
  constructor
  · intro h; exact (hk _ (List.mem_of_mem_head? (by rw [h]; rfl))).2.1 rfl
  · intro h; exact (hk _ (List.mem_of_mem_head? (by rw [h]; rfl))).2.2 rfl

/-! ### documents -/

theorem break_cases (br : Break) : ∃ q, NoLf q ∧ br.text = q ++ ['\n'] := by
  cases br
  · exact ⟨['\r'], by decide, rfl⟩
  · exact ⟨[], by decide, rfl⟩

/-- removing lines from a line and what follows -/
theorem withoutLines_break {k : Str} (hk : NoLf k) (hr : '\r' ∉ k) {x : Str} (h : NoLf x) (br : Break) (r : Str) :
    withoutLines k (x ++ (br.text ++ r)) = (if NamedLine k x then [] else x ++ br.text) ++ withoutLines k r := by
  obtain ⟨q, hq, e⟩ := break_cases br
  have hn : NamedLine k (x ++ q) ↔ NamedLine k x := by
    cases br
    · obtain rfl : q = ['\r'] := by
        have : q ++ ['\n'] = ['\r'] ++ ['\n'] := e.symm
        exact (List.append_inj' this rfl).1
      unfold NamedLine
      rw [prefix_before (by simpa using hr), prefix_before (by simpa using hr)]
    · obtain rfl : q = [] := by
        have : q ++ ['\n'] = [] ++ ['\n'] := e.symm
        exact (List.append_inj' this rfl).1
      rw [List.append_nil]
  have := withoutLines_line hk (x := x ++ q) (by simpa [NoLf] using ⟨h, hq⟩) r
  rw [e]
  simp only [List.append_assoc, List.cons_append, List.nil_append] at this ⊢
  rw [this]
  by_cases hx : NamedLine k x
  · rw [if_pos (hn.2 hx), if_pos hx]
  · rw [if_neg (fun h => hx (hn.1 h)), if_neg hx]

theorem withoutLines_blank {k : Str} (hk : NoLf k) (hr : '\r' ∉ k) {bl : Str} (h : Blank bl) (r : Str) :
    withoutLines k (bl ++ r) = bl ++ withoutLines k r := by
  obtain ⟨bs, rfl⟩ := h
  induction bs with
  | nil => rfl
  | cons b bs ih =>
    have := withoutLines_break hk hr (x := []) (by decide) b ((bs.map Break.text).flatten ++ r)
    rw [List.nil_append] at this
    rw [List.map_cons, List.flatten_cons, List.append_assoc, this, ih, if_neg]
    · simp
    · rintro (h | h) <;> simp at h

/-- a name at the start of a line ends where the name of the line ends -/
theorem named_key {k key t : Str} {d : Char} (hk : ':' ∉ k ∧ ';' ∉ k) (hkey : ':' ∉ key ∧ ';' ∉ key) (hd : d = ':' ∨ d = ';') :
    NamedLine k (key ++ d :: t) ↔ key = k := by
  have key' : ∀ (k key t : Str) (d e : Char), (':' ∉ k ∧ ';' ∉ k) → (':' ∉ key ∧ ';' ∉ key) → (d = ':' ∨ d = ';') → (e = ':' ∨ e = ';') →
      k ++ [e] <+: key ++ d :: t → key = k := by
    intro k
    induction k with
    | nil =>
      intro key t d e _ h2 h3 h4 h
      cases key with
      | nil => rfl
      | cons c key =>
        rw [List.nil_append, List.cons_append, List.cons_prefix_cons] at h
        obtain ⟨rfl, -⟩ := h
        rcases h4 with rfl | rfl
        · exact absurd (by simp) h2.1
        · exact absurd (by simp) h2.2
    | cons c k ih =>
      intro key t d e h1 h2 h3 h4 h
      cases key with
      | nil =>
        rw [List.nil_append, List.cons_append, List.cons_prefix_cons] at h
        obtain ⟨rfl, -⟩ := h
        rcases h3 with rfl | rfl
        · exact absurd (by simp) h1.1
        · exact absurd (by simp) h1.2
      | cons c' key =>
        rw [List.cons_append, List.cons_append, List.cons_prefix_cons] at h
        obtain ⟨rfl, h⟩ := h
        rw [ih key t d e ⟨fun h => h1.1 (by simp [h]), fun h => h1.2 (by simp [h])⟩
          ⟨fun h => h2.1 (by simp [h]), fun h => h2.2 (by simp [h])⟩ h3 h4 h]
  constructor
  · rintro (h | h)
    · exact key' k key t d _ hk hkey hd (.inl rfl) h
    · exact key' k key t d _ hk hkey hd (.inr rfl) h
  · rintro rfl
    rcases hd with rfl | rfl
    · exact .inl ⟨t, by simp⟩
    · exact .inr ⟨t, by simp⟩

theorem params_start (ps : List DParam) (v : Str) : ∃ d t, (d = ':' ∨ d = ';') ∧ (ps.map DParam.text).flatten ++ ([':'] ++ v) = d :: t := by
  cases ps with
  | nil => exact ⟨':', v, .inl rfl, rfl⟩
  | cons p ps =>
    rw [List.map_cons, List.flatten_cons]
    unfold DParam.text
    split <;> exact ⟨';', _, .inr rfl, rfl⟩

variable [Uni]

theorem name_plain {s : Str} (h : IsName s) : (':' ∉ s ∧ ';' ∉ s) ∧ NoLf s ∧ '\r' ∉ s ∧ ∀ c ∈ s, c ≠ '\n' ∧ c ≠ ' ' ∧ c ≠ '\t' := by
  have key : ∀ x : Char, ¬ NameChar x → x ∉ s := fun x hx hm => hx (h x hm)
  have h1 : ':' ∉ s := key _ (by unfold NameChar isAlnum; simp)
  have h2 : ';' ∉ s := key _ (by unfold NameChar isAlnum; simp)
  have h3 : '\n' ∉ s := key _ (by unfold NameChar isAlnum; simp)
  have h4 : '\r' ∉ s := key _ (by unfold NameChar isAlnum; simp)
  have h5 : ' ' ∉ s := key _ (by unfold NameChar isAlnum; simp)
  have h6 : '\t' ∉ s := key _ (by unfold NameChar isAlnum; simp)
  refine ⟨⟨h1, h2⟩, h3, h4, fun c hc => ⟨?_, ?_, ?_⟩⟩ <;> rintro rfl <;> contradiction

omit [Uni] in
theorem keyword_colon {b t : Str} (h : b.map lowerAscii = t ++ [':']) : ∃ b', b = b' ++ [':'] ∧ b'.map lowerAscii = t := by
  rcases List.eq_nil_or_concat b with rfl | ⟨b', c, rfl⟩
  · simp at h
  · rw [List.concat_eq_append, List.map_append] at h
    obtain ⟨h1, h2⟩ := List.append_inj' h rfl
    refine ⟨b', ?_, h1⟩
    have hc : lowerAscii c = ':' := by simpa using h2
    have : c = ':' := lowerAscii_eq (by decide) hc
    rw [List.concat_eq_append, this]

/-- BEGIN and END lines are not lines of a property -/
theorem keyword_not_named {k b name : Str} (hk : KeyOk k) (h : b.map lowerAscii = c!"begin:" ∨ b.map lowerAscii = c!"end:") (t : Str) :
    ¬ NamedLine k (b ++ (name ++ t)) := by
  have key : ∀ w : Str, ':' ∉ w ∧ ';' ∉ w → k.map lowerAscii ≠ w → b.map lowerAscii = w ++ [':'] → ¬ NamedLine k (b ++ (name ++ t)) := by
    intro w hw hne hb hn
    obtain ⟨b', rfl, hb'⟩ := keyword_colon hb
    rw [List.append_assoc] at hn
    have h1 : ':' ∉ b' ∧ ';' ∉ b' := by
      constructor
      · intro hm; exact hw.1 (by rw [← hb']; exact List.mem_map.2 ⟨_, hm, by decide⟩)
      · intro hm; exact hw.2 (by rw [← hb']; exact List.mem_map.2 ⟨_, hm, by decide⟩)
    rw [List.singleton_append, named_key (name_plain hk.name).1 h1 (.inl rfl)] at hn
    rw [hn] at hb'
    exact hne hb'
  rcases h with h | h
  · exact key c!"begin" (by decide) hk.notBeginAnyCase h
  · exact key c!"end" (by decide) hk.notEndAnyCase h

/-- what is left of the lines of elements presents what is left of the elements -/
theorem spaced_without {k : Str} (hk : KeyOk k) {br : Break} : (l : List Item) → ItemsOk br l → ItemsUnbroken l → {s : Str} → SpacedAll br l s →
    ∃ bl s', Blank bl ∧ SpacedAll br (withoutNamed k l) s' ∧ ∀ t, withoutLines k (s ++ t) = bl ++ (s' ++ withoutLines k t)
  | [], _, _, s, hs => by
    simp only [SpacedAll] at hs
    subst hs
    exact ⟨[], [], blank_nil, by simp [withoutNamed, SpacedAll], fun t => rfl⟩
  | .prop key params val :: l, h, hu, s, hs => by
    obtain ⟨⟨hkc, hks⟩, hk1, hk2, -⟩ := name_plain hk.name
    simp only [SpacedAll, Spaced] at hs
    obtain ⟨s1, s2, ⟨bl, hb, rfl⟩, h2, rfl⟩ := hs
    simp only [ItemsOk, Item.Ok] at h
    simp only [ItemsUnbroken, Item.Unbroken] at hu
    obtain ⟨bl', s', hb', hs', e⟩ := spaced_without hk l h.2 hu.2 h2
    have hline := fun t => withoutLines_break hk1 hk2 hu.1.2 br t
    have hnamed : NamedLine k (key ++ (params.map DParam.text).flatten ++ [':'] ++ val) ↔ key = k := by
      obtain ⟨d, t, hd, ht⟩ := params_start params val
      rw [List.append_assoc, List.append_assoc, ht]
      exact named_key ⟨hkc, hks⟩ (name_plain h.1.1.name).1 hd
    by_cases hkey : key = k
    · refine ⟨bl ++ bl', s', blank_append hb hb', by rw [withoutNamed, if_pos hkey]; exact hs', fun t => ?_⟩
      have := hline (bl ++ (s2 ++ t))
      rw [if_pos (hnamed.2 hkey), withoutLines_blank hk1 hk2 hb, e] at this
      simp only [Item.text, List.append_assoc, List.nil_append] at this ⊢
      exact this
    · refine ⟨[], (Item.prop key params val).text br ++ (bl ++ bl') ++ s', blank_nil, ?_, fun t => ?_⟩
      · rw [withoutNamed, if_neg hkey]
        simp only [SpacedAll, Spaced]
        exact ⟨_, s', ⟨bl ++ bl', blank_append hb hb', rfl⟩, hs', rfl⟩
      · have := hline (bl ++ (s2 ++ t))
        rw [if_neg (fun h => hkey (hnamed.1 h)), withoutLines_blank hk1 hk2 hb, e] at this
        simp only [Item.text, List.append_assoc, List.nil_append] at this ⊢
        exact this
  | .comp b e' name items :: l, h, hu, s, hs => by
    obtain ⟨⟨hkc, hks⟩, hk1, hk2, -⟩ := name_plain hk.name
    simp only [SpacedAll, Spaced] at hs
    obtain ⟨s1, s2, ⟨bl, body, bl', hb, hb', hbody, rfl⟩, h2, rfl⟩ := hs
    simp only [ItemsOk, Item.Ok] at h
    simp only [ItemsUnbroken, Item.Unbroken] at hu
    obtain ⟨blr, sr, hbr, hsr, er⟩ := spaced_without hk l h.2 hu.2 h2
    obtain ⟨bli, si, hbi, hsi, ei⟩ := spaced_without hk items h.1.2.2.2 hu.1 hbody
    have hbn : NoLf (b ++ name) := by
      have := (keyword_unbroken h.1.1 (by decide) (by decide)).2
      simpa [NoLf] using ⟨this, (name_plain h.1.2.2.1).2.1⟩
    have hen : NoLf (e' ++ name) := by
      have := (keyword_unbroken h.1.2.1 (by decide) (by decide)).2
      simpa [NoLf] using ⟨this, (name_plain h.1.2.2.1).2.1⟩
    have hbnm : ¬ NamedLine k (b ++ name) := by simpa using keyword_not_named (name := name) hk (.inl h.1.1) []
    have henm : ¬ NamedLine k (e' ++ name) := by simpa using keyword_not_named (name := name) hk (.inr h.1.2.1) []
    refine ⟨[], b ++ (name ++ (br.text ++ (bl ++ bli) ++ (si ++ (e' ++ (name ++ (br.text ++ (bl' ++ blr))))))) ++ sr, blank_nil, ?_, fun t => ?_⟩
    · rw [withoutNamed]
      simp only [SpacedAll, Spaced]
      exact ⟨_, sr, ⟨bl ++ bli, si, bl' ++ blr, blank_append hb hbi, blank_append hb' hbr, hsi, rfl⟩, hsr, rfl⟩
    · have e1 := withoutLines_break hk1 hk2 hbn br (bl ++ (body ++ (e' ++ (name ++ (br.text ++ (bl' ++ (s2 ++ t)))))))
      have e2 := withoutLines_break hk1 hk2 hen br (bl' ++ (s2 ++ t))
      rw [if_neg henm, withoutLines_blank hk1 hk2 hb', er] at e2
      simp only [List.append_assoc] at e2
      rw [if_neg hbnm, withoutLines_blank hk1 hk2 hb, ei, e2] at e1
      simp only [List.append_assoc, List.nil_append] at e1 ⊢
      exact e1

theorem without_ok {k : Str} {br : Break} : (l : List Item) → ItemsOk br l → ItemsOk br (withoutNamed k l)
  | [], _ => by simp [withoutNamed, ItemsOk]
  | .prop key params val :: l, h => by
    simp only [ItemsOk] at h
    rw [withoutNamed]
    split
    · exact without_ok l h.2
    · simp only [ItemsOk]; exact ⟨h.1, without_ok l h.2⟩
  | .comp b e name items :: l, h => by
    simp only [ItemsOk, Item.Ok] at h
    rw [withoutNamed]
    simp only [ItemsOk, Item.Ok]
    exact ⟨⟨h.1.1, h.1.2.1, h.1.2.2.1, without_ok items h.1.2.2.2⟩, without_ok l h.2⟩

omit [Uni] in
theorem withoutLines_mem {k : Str} (hk : NoLf k) {c : Char} (n : Nat) (s : Str) (hs : s.length ≤ n) (h : c ∈ withoutLines k s) : c ∈ s := by
  induction n generalizing s with
  | zero =>
    obtain rfl : s = [] := List.length_eq_zero_iff.1 (by omega)
    exact h
  | succ n ih =>
    rcases cut_first s with hx | ⟨x, r, hx, rfl⟩
    · rw [withoutLines_last hx] at h
      split at h
      · cases h
      · exact h
    · rw [withoutLines_line hk hx] at h
      rcases List.mem_append.1 h with h | h
      · split at h
        · cases h
        · simp at h ⊢
          grind
      · have := ih r (by simp at hs; omega) h
        simp [this]

/-- a text that is unfolded to what is left of the unfolded file presents what is left of the document -/
theorem presents_redacted {k : Str} (hk : KeyOk k) {br : Break} {b e n : Str} {l : List Item} (h : (Item.comp b e n l).Ok br)
    (hu : (Item.comp b e n l).Unbroken) {file : Str} (hp : Presents br (.comp b e n l) file) {out : Str}
    (hunf : unfold out = withoutLines k (unfold file)) :
    (Item.comp b e n (withoutNamed k l)).Ok br ∧ Presents br (.comp b e n (withoutNamed k l)) out := by
  obtain ⟨-, hk1, hk2, -⟩ := name_plain hk.name
  simp only [Item.Ok] at h
  simp only [Item.Unbroken] at hu
  simp only [Presents] at hp
  obtain ⟨lead, bl, body, tail, hl, hb, ht, hbody, hcr, hfold⟩ := hp
  obtain ⟨bli, si, hbi, hsi, ei⟩ := spaced_without hk l h.2.2.2 hu hbody
  have hfu := foldedForm_unfold hfold
  rw [hfu, unfold_eq_spec] at hunf
  have hbn : NoLf (b ++ n) := by
    have := (keyword_unbroken h.1 (by decide) (by decide)).2
    simpa [NoLf] using ⟨this, (name_plain h.2.2.1).2.1⟩
  have hbnm : ¬ NamedLine k (b ++ n) := by simpa using keyword_not_named (name := n) hk (.inl h.1) []
  have hlast : withoutLines k (e ++ (n ++ tail)) = e ++ (n ++ tail) := by
    have hen : NoLf (e ++ n) := by
      have := (keyword_unbroken h.2.1 (by decide) (by decide)).2
      simpa [NoLf] using ⟨this, (name_plain h.2.2.1).2.1⟩
    have henm : ¬ NamedLine k (e ++ n) := by simpa using keyword_not_named (name := n) hk (.inr h.2.1) []
    obtain ⟨bs, rfl⟩ := ht
    cases bs with
    | nil => simpa [henm] using withoutLines_last (k := k) hen
    | cons br' bs =>
      have := withoutLines_break hk1 hk2 hen br' (bs.map Break.text).flatten
      have hbl := withoutLines_blank hk1 hk2 (k := k) ⟨bs, rfl⟩ []
      rw [List.append_nil, withoutLines_nil, List.append_nil] at hbl
      rw [if_neg henm, hbl] at this
      simpa using this
  have hbegin := withoutLines_break hk1 hk2 hbn br (bl ++ (body ++ (e ++ (n ++ tail))))
  rw [if_neg hbnm, withoutLines_blank hk1 hk2 hb, ei, hlast] at hbegin
  have hmem := hunf
  rw [withoutLines_blank hk1 hk2 hl] at hunf
  simp only [List.append_assoc] at hunf hbegin
  rw [hbegin] at hunf
  have hform := foldedForm_self out
  refine ⟨by simp only [Item.Ok]; exact ⟨h.1, h.2.1, h.2.2.1, without_ok l h.2.2.2⟩, ?_⟩
  simp only [Presents]
  refine ⟨lead, bl ++ bli, si, tail, hl, blank_append hb hbi, ht, hsi, fun hlf hc => ?_, ?_⟩
  · refine hcr hlf (withoutLines_mem hk1 _ _ (Nat.le_refl _) (k := k) ?_)
    rw [← hmem, hunf]
    simpa only [List.append_assoc] using hc
  · rw [hunf] at hform
    simpa only [List.append_assoc] using hform

/-- **C144.** Removing the lines of a name from a file that presents a document gives a file that presents the document
without the content lines of this name, at any depth. -/
theorem redacted_document {k : Str} (hk : KeyOk k) {br : Break} {b e n : Str} {l : List Item} (h : (Item.comp b e n l).Ok br)
    (hu : (Item.comp b e n l).Unbroken) {file : Str} (hp : Presents br (.comp b e n l) file) (hn : NotContinued k (cutLines file)) :
    (Item.comp b e n (withoutNamed k l)).Ok br ∧ Presents br (.comp b e n (withoutNamed k l)) (withoutLines k file) :=
  presents_redacted hk h hu hp (redacted_unfold (name_plain hk.name).2.2.2 hn)

/-! ### calendars -/

omit [Uni] in
theorem linesNamed_without (k x : Str) : (l : List Item) → linesNamed x (withoutNamed k l) = if x = k then [] else linesNamed x l
  | [] => by simp [withoutNamed, linesNamed]
  | .prop key params val :: l => by
    have ih := linesNamed_without k x l
    rw [withoutNamed]
    by_cases h : key = k
    · rw [if_pos h, ih, linesNamed]
      by_cases hx : x = k
      · rw [if_pos hx, if_pos hx]
      · rw [if_neg hx, if_neg hx, if_neg (by rw [h]; exact fun e => hx e.symm)]
    · rw [if_neg h, linesNamed, linesNamed, ih]
      by_cases hx : x = k
      · rw [if_pos hx, if_neg (by rw [hx]; exact h), if_pos hx]
      · rw [if_neg hx, if_neg hx]
  | .comp b e n items :: l => by
    rw [withoutNamed, linesNamed, linesNamed, linesNamed_without k x l]

omit [Uni] in
theorem counting_without (k x : Str) (l : List Item) : counting x (withoutNamed k l) = if x = k then [] else counting x l := by
  unfold counting
  rw [linesNamed_without]
  by_cases hx : x = k
  · simp [hx]
  · simp only [if_neg hx]

omit [Uni] in
theorem props_without (k : Str) (l : List Item) :
    (itemsProps (withoutNamed k l)).map PProp.toProperty = ((itemsProps l).map PProp.toProperty).filter (·.key ≠ k) := by
  induction l with
  | nil => simp [withoutNamed, itemsProps]
  | cons i l ih =>
    cases i with
    | prop key params val =>
      have e : (meaningProp key params val).toProperty.key = key := rfl
      rw [withoutNamed]
      by_cases h : key = k
      · rw [if_pos h, ih, itemsProps, List.map_cons, List.filter_cons_of_neg]
        simpa [e] using h
      · rw [if_neg h, itemsProps, itemsProps, List.map_cons, List.map_cons, List.filter_cons_of_pos, ih]
        simpa [e] using h
    | comp b e n items => rw [withoutNamed, itemsProps_comp, itemsProps_comp, ih]

omit [Uni] in
theorem read_without (k b e n : Str) (l : List Item)
    (h : WithoutAll k (toOthers (itemsComps l)) (toOthers (itemsComps (withoutNamed k l)))) :
    Without k (readAs (.comp b e n l)).toOther (readAs (.comp b e n (withoutNamed k l))).toOther := by
  rw [toOther_readAs, toOther_readAs]
  simp only [Without]
  refine ⟨trivial, fun x => ?_, fun x => ?_, h⟩
  · simp only [lookup_eq_get, inner_props_counting, counting_without]
    by_cases hx : x = k
    · simp [hx]
    · simp only [if_neg hx]
  · simp only [lookup_eq_get, inner_multi_counting, counting_without]
    by_cases hx : x = k
    · simp [hx]
    · simp only [if_neg hx]

omit [Uni] in
theorem comps_without (k : Str) : (l : List Item) → WithoutAll k (toOthers (itemsComps l)) (toOthers (itemsComps (withoutNamed k l)))
  | [] => by simp [withoutNamed, itemsComps, toOthers, WithoutAll]
  | .prop key params val :: l => by
    rw [withoutNamed]
    split
    · rw [itemsComps]; exact comps_without k l
    · rw [itemsComps, itemsComps]; exact comps_without k l
  | .comp b e n items :: l => by
    rw [withoutNamed, itemsComps_comp, itemsComps_comp, toOthers, toOthers]
    simp only [WithoutAll]
    exact ⟨read_without k b e n items (comps_without k items), comps_without k l⟩

omit [Uni] in
theorem kinds_without (k : Str) : (l : List Item) →
    CompsWithout k ((itemsComps l).map PComp.toCalComp) ((itemsComps (withoutNamed k l)).map PComp.toCalComp)
  | [] => by simp [withoutNamed, itemsComps, CompsWithout]
  | .prop key params val :: l => by
    rw [withoutNamed]
    split
    · rw [itemsComps]; exact kinds_without k l
    · rw [itemsComps, itemsComps]; exact kinds_without k l
  | .comp b e n items :: l => by
    rw [withoutNamed, itemsComps_comp, itemsComps_comp, List.map_cons, List.map_cons]
    simp only [CompsWithout]
    refine ⟨⟨n, kindFor_toCalComp (readAs (.comp b e n items)), kindFor_toCalComp (readAs (.comp b e n (withoutNamed k items)))⟩, ?_,
      kinds_without k l⟩
    rw [toOther_toCalComp, toOther_toCalComp]
    exact read_without k b e n items (comps_without k items)

/-- **C144.** Removing the lines of a name from a file removes the properties of this name from the calendar that is read,
at any depth, and changes nothing else. -/
theorem redacted_calendar {k : Str} (hk : KeyOk k) {br : Break} {b e : Str} {l : List Item} (h : (Item.comp b e c!"VCALENDAR" l).Ok br)
    (hu : (Item.comp b e c!"VCALENDAR" l).Unbroken) {file : Str} (hp : Presents br (.comp b e c!"VCALENDAR" l) file)
    (hn : NotContinued k (cutLines file)) :
    ∃ c d, Calendar.fromStr file = some c ∧ Calendar.fromStr (withoutLines k file) = some d ∧ CalendarWithout k c d := by
  obtain ⟨h', hp'⟩ := redacted_document hk h hu hp hn
  exact ⟨_, _, calendar_presented h hp, calendar_presented h' hp', props_without k l, kinds_without k l⟩

/-- **C144.** A written calendar is read, without the lines of a name, as the calendar without the properties of this
name. -/
theorem redacted_written {k : Str} (hk : KeyOk k) {c : Calendar} (hc : CalendarOk c) (hs : CalendarSafe c)
    (hst : ∀ x ∈ c.comps, HasStamps x.toOther) (hu : UnbrokenCal c) {w : World} (hw : World.Ok w) {out : Str}
    (h : c.fmtWrite w = .ok out) (hn : NotContinued k (cutLines out)) :
    ∃ d, Calendar.fromStr (withoutLines k out) = some d ∧ CalendarWithout k c d := by
  have hok := calendar_item_ok (calendarOk_writable hc) hw
  have hi := calendar_unbroken hc hu hw
  have hp := presents_written hc hw h
  unfold Calendar.item at hok hi hp
  obtain ⟨c', d, e1, e2, e3⟩ := redacted_calendar hk hok hi hp hn
  rw [calendar_roundtrip c hc hs hst w hw out h] at e1
  cases e1
  exact ⟨d, e2, e3⟩

omit [Uni] in
theorem withoutLines_append {k : Str} (hk : NoLf k) {pre : Str} (hp : pre = [] ∨ ['\n'] <:+ pre) (s : Str) :
    withoutLines k (pre ++ s) = withoutLines k pre ++ withoutLines k s := by
  suffices H : ∀ n, ∀ pre : Str, pre.length ≤ n → (pre = [] ∨ ['\n'] <:+ pre) →
      withoutLines k (pre ++ s) = withoutLines k pre ++ withoutLines k s from H _ pre (Nat.le_refl _) hp
  intro n
  induction n with
  | zero =>
    intro pre hl _
    obtain rfl : pre = [] := List.length_eq_zero_iff.1 (by omega)
    rfl
  | succ n ih =>
    intro pre hl hp
    rcases cut_first pre with hx | ⟨x, r, hx, rfl⟩
    · rcases hp with rfl | ⟨t, rfl⟩
      · rfl
      · exact absurd (by simp) hx
    · have hr : r = [] ∨ ['\n'] <:+ r := by
        rcases List.eq_nil_or_concat r with rfl | ⟨r', d, rfl⟩
        · exact .inl rfl
        · right
          rcases hp with h | ⟨t, ht⟩
          · simp at h
          · rw [List.concat_eq_append] at ht ⊢
            have e : t ++ ['\n'] = (x ++ '\n' :: r') ++ [d] := by rw [ht]; simp
            rw [(List.append_inj' e rfl).2]
            exact ⟨r', rfl⟩
      rw [List.append_assoc, List.cons_append, withoutLines_line hk hx, withoutLines_line hk hx, ih r (by simp at hl; omega) hr]
      simp

omit [Uni] in
theorem withoutLines_end {k : Str} (hk : NoLf k) {pre : Str} (hp : pre = [] ∨ ['\n'] <:+ pre) :
    withoutLines k pre = [] ∨ ['\n'] <:+ withoutLines k pre := by
  rcases hp with rfl | ⟨t, rfl⟩
  · exact .inl rfl
  · suffices H : ∀ n, ∀ t : Str, t.length ≤ n → withoutLines k (t ++ ['\n']) = [] ∨ ['\n'] <:+ withoutLines k (t ++ ['\n']) from
      H _ t (Nat.le_refl _)
    intro n
    induction n with
    | zero =>
      intro t ht
      obtain rfl : t = [] := List.length_eq_zero_iff.1 (by omega)
      have := withoutLines_line hk (x := []) (by decide) []
      rw [List.nil_append] at this
      rw [List.nil_append, this]
      split
      · exact .inl rfl
      · exact .inr ⟨[], rfl⟩
    | succ n ih =>
      intro t ht
      rcases cut_first t with hx | ⟨x, r, hx, rfl⟩
      · rw [withoutLines_line hk hx]
        split
        · exact .inl rfl
        · exact .inr ⟨t, by simp [withoutLines_nil]⟩
      · rw [List.append_assoc, List.cons_append, withoutLines_line hk hx]
        rcases ih r (by simp at ht; omega) with h | ⟨u, h⟩
        · rw [h]
          split
          · exact .inl rfl
          · exact .inr ⟨x, by simp⟩
        · rw [← h]
          exact .inr ⟨_, List.append_assoc ..⟩

omit [Uni] in
/-- **C144.** What happens if a line of the name is continued: what continued it is left, and continues the line before
it. -/
theorem redacted_leak {k : Str} (hk : ∀ c ∈ k, c ≠ '\n' ∧ c ≠ ' ' ∧ c ≠ '\t') {pre x y r : Str} {b : Char}
    (hp : pre = [] ∨ ['\n'] <:+ pre) (hx : NoLf x) (hxn : ¬ NamedLine k x) (hy : NoLf y) (hyn : NamedLine k y)
    (hb : b = ' ' ∨ b = '\t') :
    ∃ r', withoutLines k (b :: r) = b :: r' ∧
      unfold (withoutLines k (pre ++ (x ++ '\n' :: (y ++ '\n' :: b :: r)))) =
        unfold (withoutLines k pre ++ lineContent (x ++ ['\n'])) ++ unfold r' := by
  have hk1 : NoLf k := fun h => (hk _ h).1 rfl
  have hi : NoIndent k := by
    constructor
    · intro h; exact (hk _ (List.mem_of_mem_head? (by rw [h]; rfl))).2.1 rfl
    · intro h; exact (hk _ (List.mem_of_mem_head? (by rw [h]; rfl))).2.2 rfl
  have hnb : ∀ z, ¬ NamedLine k (b :: z) := by
    intro z hz
    have := named_noIndent hi hz
    rcases hb with rfl | rfl <;> simp [NoIndent] at this
  obtain ⟨r', e⟩ : ∃ r', withoutLines k (b :: r) = b :: r' := by
    have hbx : ∀ {z}, NoLf z → NoLf (b :: z) := by
      intro z hz
      rcases hb with rfl | rfl <;> simpa [NoLf] using hz
    rcases cut_first r with hz | ⟨z, r, hz, rfl⟩
    · exact ⟨r, by rw [withoutLines_last (hbx hz), if_neg (hnb _)]⟩
    · refine ⟨z ++ ['\n'] ++ withoutLines k r, ?_⟩
      rw [← List.cons_append, withoutLines_line hk1 (hbx hz), if_neg (hnb _)]
      rfl
  refine ⟨r', e, ?_⟩
  rw [withoutLines_append hk1 hp, withoutLines_line hk1 hx, if_neg hxn, withoutLines_line hk1 hy, if_pos hyn, e,
    List.nil_append, unfold_eq_spec, unfold_eq_spec, unfold_eq_spec]
  have key : ∀ (P z : Str) (m : Marker), (m.isLf = true → ¬ ['\r'] <:+ z) → (m.isLf = true → z = [] → ¬ ['\r'] <:+ P) →
      unfoldSpec (P ++ (z ++ (m.text ++ r'))) = unfoldSpec (P ++ z) ++ unfoldSpec r' := by
    intro P z m h1 h2
    rw [← List.append_assoc, unfoldSpec_append_marker]
    intro hm hs
    rcases List.eq_nil_or_concat z with rfl | ⟨z', d, rfl⟩
    · exact h2 hm rfl (by simpa using hs)
    · obtain ⟨t, ht⟩ := hs
      rw [List.concat_eq_append, ← List.append_assoc] at ht
      have := (List.append_inj' ht rfl).2
      exact h1 hm ⟨z', by rw [List.concat_eq_append, this]⟩
  have hP : ¬ ['\r'] <:+ withoutLines k pre := by
    rintro ⟨t, ht⟩
    rcases withoutLines_end hk1 hp with h | ⟨u, h⟩
    · rw [h] at ht; simp at ht
    · rw [← h] at ht
      have := (List.append_inj' ht rfl).2
      simp at this
  by_cases hr : ['\r'] <:+ x
  · obtain ⟨z, rfl⟩ := hr
    rw [lineContent_crlf]
    rcases hb with rfl | rfl
    · have := key (withoutLines k pre) z .crlfSp (by simp [Marker.isLf]) (by simp [Marker.isLf])
      simpa [Marker.text] using this
    · have := key (withoutLines k pre) z .crlfTab (by simp [Marker.isLf]) (by simp [Marker.isLf])
      simpa [Marker.text] using this
  · rw [lineContent_lf hr]
    rcases hb with rfl | rfl
    · have := key (withoutLines k pre) x .lfSp (fun _ => hr) (fun _ _ => hP)
      simpa [Marker.text] using this
    · have := key (withoutLines k pre) x .lfTab (fun _ => hr) (fun _ _ => hP)
      simpa [Marker.text] using this

/-! ### written calendars -/

omit [Uni] in
/-- **C144.** Folding never cuts a line within its name: names of up to 74 ASCII letters and other characters that are
not blanks stand in one piece. -/
theorem name_not_cut {key rest out : Str} {d : Char} (h : foldLine (key ++ d :: rest) = .ok out) (ha : ∀ c ∈ key, IsAscii c)
    (hl : key.length ≤ 74) (hd : isWhitespace d = false) :
    ∃ q qs, key ++ d :: rest = (q :: qs).flatten ∧ out = joinFold (q :: qs) ∧ key <+: q := by
  generalize hline : key ++ d :: rest = line at h
  have hkb := blen_ascii (fun c hc => utf8Size_ascii (ha c hc))
  unfold foldLine at h
  cases hr : foldRun line (blen line + 2) (foldInit line) with
  | none => rw [hr] at h; cases h
  | some r =>
    rw [hr] at h
    cases h
    unfold foldRun at hr
    cases hs : foldStep line (foldInit line) with
    | done o =>
      rw [hs] at hr
      cases hr
      obtain ⟨e, -⟩ := foldInv_done (foldInv_init line) hs
      refine ⟨line, [], by simp, by rw [e]; simp [folded, joinFold], ?_⟩
      exact ⟨d :: rest, hline⟩
    | panic => rw [hs] at hr; cases hr
    | more st' =>
      rw [hs] at hr
      obtain ⟨u, v, e, hi, hpos⟩ := foldInv_step (foldInv_init line) hs
      obtain ⟨-, m, hm, u', -, est⟩ := foldStep_more hs
      have hge : key.length ≤ m := by
        have hb : isBoundary line key.length = true := isBoundary_iff.2 ⟨key, d :: rest, hline.symm, hkb⟩
        have hw : wsAt line key.length = false := by rw [← hline, wsAt_append]; exact hd
        have hn : key.length ≤ if wsAt line (foldInit line).next then (foldInit line).next - 1 else (foldInit line).next := by
          have : (foldInit line).next = 75 := rfl
          rw [this]
          split <;> omega
        obtain ⟨m', h1, h2⟩ := backoff_ge hb hw hn
        rw [hm] at h1
        cases h1
        exact h2
      have hu : blen u = m := by
        have h0 : (foldInit line).pos = 0 := rfl
        rw [est, h0] at hpos
        simp only at hpos
        omega
      obtain ⟨qs, v', e1, e2, -⟩ := foldRun_ok hi hr
      refine ⟨u, qs ++ [v'], by rw [e, e1]; simp, ?_, ?_⟩
      · rw [e2, folded_joinFold]; rfl
      · have hpre : key <+: line := ⟨d :: rest, hline⟩
        have hpre' : u <+: line := ⟨v, e.symm⟩
        rcases List.prefix_or_prefix_of_prefix hpre hpre' with h | h
        · exact h
        · obtain ⟨t, rfl⟩ := h
          have hle : blen (u ++ t) = (u ++ t).length := hkb
          rw [blen_append] at hle
          have ht : blen t = 0 := by omega
          have : t = [] := by
            cases t with
            | nil => rfl
            | cons c t =>
              have := Char.utf8Size_pos c
              rw [blen] at ht
              omega
          subst this
          simp

omit [Uni] in
/-- a text in which no line of the name is continued, whatever follows -/
def Uncut (k out : Str) : Prop :=
  ∀ t, NoIndent t → NotContinued k (cutLines t) → NotContinued k (cutLines (out ++ t)) ∧ NoIndent (out ++ t)

omit [Uni] in
theorem uncut_nil (k : Str) : Uncut k [] := fun _ h h' => ⟨h', h⟩

omit [Uni] in
theorem uncut_append {k a b : Str} (ha : Uncut k a) (hb : Uncut k b) : Uncut k (a ++ b) := by
  intro t ht hn
  obtain ⟨h1, h2⟩ := hb t ht hn
  rw [List.append_assoc]
  exact ha _ h2 h1

omit [Uni] in
theorem notContinued_cons {k x t : Str} (hx : NoLf x) (ht : NoIndent t) (hn : NotContinued k (cutLines t)) :
    NotContinued k (cutLines (x ++ '\n' :: t)) := by
  rw [cutLines_line hx]
  cases t with
  | nil => trivial
  | cons c t =>
    obtain ⟨line, l, e⟩ := cutLines_head (b := c) (r := t)
    rw [e] at hn ⊢
    refine ⟨fun hc => ?_, hn⟩
    have := continues_iff.1 hc
    exact absurd ht this

omit [Uni] in
theorem uncut_line {k l : Str} (hn : NoLf l) (hi : NoIndent (l ++ crlf)) : Uncut k (l ++ crlf) := by
  intro t ht hc
  refine ⟨?_, ?_⟩
  · have := notContinued_cons (k := k) (x := l ++ ['\r']) (by simpa [NoLf] using hn) ht hc
    simpa [crlf] using this
  · cases l with
    | nil => exact noIndent_cons (by decide) (by decide)
    | cons c l => simpa [NoIndent] using hi

omit [Uni] in
theorem uncut_folded {k : Str} (hk : ∀ c ∈ k, c ≠ '\n' ∧ c ≠ ' ' ∧ c ≠ '\t') (hr : '\r' ∉ k) (q : Str) (qs : List Str)
    (hl : NoLf (q :: qs).flatten) (hq : qs ≠ [] → ¬ NamedLine k q ∧ ¬ q <+: k) {t : Str} (ht : NoIndent t)
    (hn : NotContinued k (cutLines t)) : NotContinued k (cutLines (joinFold (q :: qs) ++ (crlf ++ t))) := by
  have hk1 : NoLf k := fun h => (hk _ h).1 rfl
  induction qs generalizing q with
  | nil =>
    have := notContinued_cons (k := k) (x := q ++ ['\r']) (by simpa [NoLf] using hl) ht hn
    simpa [joinFold, crlf] using this
  | cons x qs ih =>
    have e : joinFold (q :: x :: qs) ++ (crlf ++ t) = (q ++ ['\r']) ++ '\n' :: (joinFold ((' ' :: x) :: qs) ++ (crlf ++ t)) := by
      cases qs <;> simp [joinFold]
    have hq1 : NoLf (q ++ ['\r']) := by
      simp [NoLf] at hl ⊢
      exact hl.1
    have hsp : ¬ NamedLine k (' ' :: x) := by
      intro hc
      have : NoIndent k := by
        constructor
        · intro h; exact (hk _ (List.mem_of_mem_head? (by rw [h]; rfl))).2.1 rfl
        · intro h; exact (hk _ (List.mem_of_mem_head? (by rw [h]; rfl))).2.2 rfl
      have := named_noIndent this hc
      simp [NoIndent] at this
    have hsk : ¬ ' ' :: x <+: k := by
      rintro ⟨u, rfl⟩
      exact (hk ' ' (by simp)).2.1 rfl
    have hrec := ih (' ' :: x) (by simp [NoLf] at hl ⊢; exact hl.2) (fun _ => ⟨hsp, hsk⟩)
    rw [e, cutLines_line hq1]
    obtain ⟨h1, h2⟩ := hq (by simp)
    have e2 : ∃ z, joinFold ((' ' :: x) :: qs) ++ (crlf ++ t) = ' ' :: z := by
      cases qs <;> exact ⟨_, rfl⟩
    obtain ⟨z, e2⟩ := e2
    rw [e2] at hrec ⊢
    obtain ⟨line, l, e3⟩ := cutLines_head (b := ' ') (r := z)
    rw [e3] at hrec ⊢
    refine ⟨fun _ => ⟨fun hc => h1 ?_, ?_⟩, hrec⟩
    · rw [named_line hk1] at hc
      unfold NamedLine at hc ⊢
      rwa [prefix_before (by simpa using hr), prefix_before (by simpa using hr)] at hc
    · rw [lineContent_crlf]; exact h2

theorem uncut_property {k : Str} (hk : KeyOk k) {p : Property} (hp : PropOk p) (hu : UnbrokenProp p) (hs : ShortNamed k p)
    {w : World} (hw : World.Ok w) {out : Str} (h : p.fmtWrite w = .ok out) : Uncut k out := by
  obtain ⟨hk0, hk1, hk2, hk3⟩ := name_plain hk.name
  obtain ⟨hp0, hp1, hp2, hp3⟩ := name_plain hp.key.name
  unfold Property.fmtWrite at h
  cases hf : foldLine (p.line w) with
  | error e => rw [hf] at h; cases h
  | ok s =>
    rw [hf] at h
    cases h
    have hpar := noLf_params (w.order [] p.params) (fun x hx => by
      have hx := (hw.order [] p.params).mem_iff.1 hx
      exact ⟨(name_plain (hp.params.name x hx)).2.1, (hu.params x hx).2⟩)
    have hn : NoLf (p.line w) := by
      have := valueText_unbroken hu
      unfold Property.line NoLf at *
      simp only [List.mem_append, not_or]
      exact ⟨⟨⟨hp1, hpar⟩, by decide⟩, this.2⟩
    have hshape : ∃ d t, (d = ':' ∨ d = ';') ∧ p.line w = p.key ++ d :: t := by
      unfold Property.line
      cases w.order [] p.params with
      | nil => exact ⟨':', p.valueText, .inl rfl, by simp [paramsText]⟩
      | cons x l =>
        obtain ⟨a, b⟩ := x
        exact ⟨';', _, .inr rfl, by simp only [paramsText, List.append_assoc, List.cons_append, List.nil_append]; rfl⟩
    obtain ⟨d, t, hd, hline⟩ := hshape
    have hi : ∀ r, NoIndent (p.line w ++ r) := by
      intro r
      rw [hline]
      cases hkey : p.key with
      | nil => rcases hd with rfl | rfl <;> exact noIndent_cons (by decide) (by decide)
      | cons c key => exact noIndent_cons (hp3 c (by simp [hkey])).2.1 (hp3 c (by simp [hkey])).2.2
    intro r hr hc
    unfold ShortNamed at hs
    by_cases hkey : p.key = k
    · rw [if_pos hkey] at hs
      rw [fold_short _ (hs _ (line_contentLine p hw))] at hf
      cases hf
      exact uncut_line hn (hi _) r hr hc
    · rw [if_neg hkey] at hs
      obtain ⟨ha, hl, hne⟩ := hs
      rw [hline] at hf hn
      obtain ⟨q, qs, e1, rfl, hq⟩ := name_not_cut hf ha hl (by rcases hd with rfl | rfl <;> decide)
      rw [e1] at hn
      refine ⟨?_, ?_⟩
      · rw [List.append_assoc]
        refine uncut_folded hk3 hk2 q qs hn (fun _ => ⟨fun hc => hkey ?_, fun hc => hne (hq.trans hc)⟩) hr hc
        have : NamedLine k (p.key ++ d :: t) := by
          rw [e1, List.flatten_cons]
          exact named_append _ hc
        exact (named_key hk0 hp0 hd).1 this
      · obtain ⟨u, rfl⟩ := hq
        have key : ∀ z, ∃ z', joinFold ((p.key ++ u) :: qs) ++ z = p.key ++ (u ++ z') := by
          intro z
          cases qs with
          | nil => exact ⟨z, by simp [joinFold]⟩
          | cons x qs => exact ⟨['\r', '\n', ' '] ++ joinFold (x :: qs) ++ z, by simp [joinFold]⟩
        obtain ⟨z, hz⟩ := key (crlf ++ r)
        rw [List.append_assoc, hz]
        cases hkey' : p.key with
        | cons c key => exact noIndent_cons (hp3 c (by simp [hkey'])).2.1 (hp3 c (by simp [hkey'])).2.2
        | nil => exact absurd (by rw [hkey']; exact List.nil_prefix) hne

theorem uncut_props {k : Str} (hk : KeyOk k) {l : List Property} (hl : ∀ p ∈ l, PropOk p ∧ UnbrokenProp p ∧ ShortNamed k p)
    {w : World} (hw : World.Ok w) {out : Str} (h : fmtProps l w = .ok out) : Uncut k out := by
  induction l generalizing w out with
  | nil => cases h; exact uncut_nil k
  | cons p l ih =>
    unfold fmtProps at h
    cases ha : p.fmtWrite (w.sub 0) with
    | error e => rw [ha] at h; cases h
    | ok a =>
      rw [ha] at h
      cases hb : fmtProps l (w.sub 1) with
      | error e => rw [hb] at h; cases h
      | ok b =>
        rw [hb] at h
        cases h
        obtain ⟨h1, h2, h3⟩ := hl p (by simp)
        exact uncut_append (uncut_property hk h1 h2 h3 (worldOk_sub hw 0) ha)
          (ih (fun q hq => hl q (by simp [hq])) (worldOk_sub hw 1) hb)

omit [Uni] in
theorem uncut_component {k name body : Str} (hn : NoLf name) (hb : Uncut k body) :
    Uncut k (c!"BEGIN:" ++ name ++ crlf ++ body ++ (c!"END:" ++ name ++ crlf)) := by
  have e1 : Uncut k (c!"BEGIN:" ++ name ++ crlf) :=
    uncut_line (by simpa [NoLf] using hn) (noIndent_cons (by decide) (by decide))
  have e2 : Uncut k (c!"END:" ++ name ++ crlf) :=
    uncut_line (by simpa [NoLf] using hn) (noIndent_cons (by decide) (by decide))
  exact uncut_append (uncut_append e1 hb) e2

mutual
theorem uncut_other {k : Str} (hk : KeyOk k) (o : Other) (ho : OtherOk o) (hu : UnbrokenOther o)
    (hs : ∀ p ∈ propsWithin o, ShortNamed k p) {w : World} (hw : World.Ok w) {out : Str} (h : o.fmtWrite w = .ok out) :
    Uncut k out := by
  match o, ho, hu, hs with
  | .mk name props multi comps, ho, hu, hs =>
    obtain ⟨hn, hi, hc⟩ := ho
    obtain ⟨hu1, hu2, hu3⟩ := hu
    have hi := innerOk_writable hi
    simp only [propsWithin, List.mem_append] at hs
    unfold Other.fmtWrite at h
    cases hps : fmtProps props.values (w.sub 0) with
    | error e => simp only [hps] at h; cases h
    | ok ps =>
      cases hms : fmtProps multi.values.flatten (w.sub 1) with
      | error e => simp only [hps, hms] at h; cases h
      | ok ms =>
        cases hcs : fmtOthers comps (w.sub 2) with
        | error e => simp only [hps, hms, hcs] at h; cases h
        | ok cs =>
          simp only [hps, hms, hcs] at h
          cases h
          have b1 : Uncut k ps := by
            refine uncut_props hk ?_ (worldOk_sub hw 0) hps
            intro p hp
            refine ⟨(values_ok hi).1 p hp, ?_, hs p (.inl hp)⟩
            obtain ⟨x, hx, rfl⟩ := List.mem_map.1 hp
            exact hu1 x hx
          have b2 : Uncut k ms := by
            refine uncut_props hk ?_ (worldOk_sub hw 1) hms
            intro p hp
            refine ⟨(values_ok hi).2 p hp, ?_, hs p (.inr (.inl (by rw [List.flatMap_def]; exact hp)))⟩
            obtain ⟨g, hg, hpg⟩ := List.mem_flatten.1 hp
            obtain ⟨x, hx, rfl⟩ := List.mem_map.1 hg
            exact hu2 x hx p hpg
          have b3 := uncut_others hk comps hc hu3 (fun p hp => hs p (.inr (.inr hp))) (worldOk_sub hw 2) hcs
          have b4 : Uncut k (if props.containsKey c!"DTSTAMP" then [] else c!"DTSTAMP:" ++ fmtUtc (w.now []) ++ crlf) := by
            split
            · exact uncut_nil k
            · refine uncut_line ?_ (noIndent_cons (by decide) (by decide))
              have := fmtUtc_not_mem (w.now []) (x := '\n') (by decide) (by decide)
              simpa [NoLf] using this
          have b5 : Uncut k (if props.containsKey c!"UID" then [] else c!"UID:" ++ w.uuid [] ++ crlf) := by
            split
            · exact uncut_nil k
            · refine uncut_line ?_ (noIndent_cons (by decide) (by decide))
              have := uuid_not_mem hw (x := '\n') (by decide) []
              simpa [NoLf] using this
          have := uncut_component (k := k) (name_plain hn).2.1
            (uncut_append (uncut_append (uncut_append (uncut_append b4 b1) b5) b2) b3)
          simpa only [List.append_assoc, List.nil_append, List.append_nil] using this
theorem uncut_others {k : Str} (hk : KeyOk k) (l : List Other) (hl : OthersOk l) (hu : UnbrokenOthers l)
    (hs : ∀ p ∈ propsWithinAll l, ShortNamed k p) {w : World} (hw : World.Ok w) {out : Str} (h : fmtOthers l w = .ok out) :
    Uncut k out := by
  match l, hl, hu, hs with
  | [], _, _, _ =>
    simp only [fmtOthers] at h
    cases h
    exact uncut_nil k
  | o :: l, hl, hu, hs =>
    obtain ⟨ho, hl⟩ := hl
    obtain ⟨hu1, hu2⟩ := hu
    simp only [propsWithinAll, List.mem_append] at hs
    unfold fmtOthers at h
    cases ha : o.fmtWrite (w.sub 0) with
    | error e => rw [ha] at h; cases h
    | ok a =>
      rw [ha] at h
      cases hb : fmtOthers l (w.sub 1) with
      | error e => rw [hb] at h; cases h
      | ok b =>
        rw [hb] at h
        cases h
        exact uncut_append (uncut_other hk o ho hu1 (fun p hp => hs p (.inl hp)) (worldOk_sub hw 0) ha)
          (uncut_others hk l hl hu2 (fun p hp => hs p (.inr hp)) (worldOk_sub hw 1) hb)
end

theorem uncut_comps {k : Str} (hk : KeyOk k) (l : List CalComp) (hl : ∀ x ∈ l, CalCompOk x) (hu : ∀ x ∈ l, UnbrokenOther x.toOther)
    (hs : ∀ p ∈ propsWithinAll (l.map CalComp.toOther), ShortNamed k p) {w : World} (hw : World.Ok w) {out : Str}
    (h : fmtComps l w = .ok out) : Uncut k out := by
  induction l generalizing w out with
  | nil => cases h; exact uncut_nil k
  | cons x l ih =>
    simp only [List.map_cons, propsWithinAll, List.mem_append] at hs
    unfold fmtComps at h
    rw [calComp_fmtWrite] at h
    cases ha : x.toOther.fmtWrite (w.sub 0) with
    | error e => rw [ha] at h; cases h
    | ok a =>
      rw [ha] at h
      cases hb : fmtComps l (w.sub 1) with
      | error e => rw [hb] at h; cases h
      | ok b =>
        rw [hb] at h
        cases h
        exact uncut_append (uncut_other hk _ (calCompOk_other (hl x (by simp))) (hu x (by simp)) (fun p hp => hs p (.inl hp)) (worldOk_sub hw 0) ha)
          (ih (fun y hy => hl y (by simp [hy])) (fun y hy => hu y (by simp [hy])) (fun p hp => hs p (.inr hp)) (worldOk_sub hw 1) hb)

/-- **C144.** In a written calendar no line of the name is continued if the lines of its properties of this name have at
most 75 octets. -/
theorem written_notContinued {k : Str} (hk : KeyOk k) {c : Calendar} (hc : CalendarOk c) (hu : UnbrokenCal c)
    (hs : ∀ p ∈ calendarProps c, ShortNamed k p) {w : World} (hw : World.Ok w) {out : Str} (h : c.fmtWrite w = .ok out) :
    NotContinued k (cutLines out) := by
  simp only [calendarProps, List.mem_append] at hs
  unfold Calendar.fmtWrite at h
  cases hps : fmtProps c.props (w.sub 0) with
  | error e => simp only [hps] at h; cases h
  | ok ps =>
    cases hcs : fmtComps c.comps (w.sub 1) with
    | error e => simp only [hps, hcs] at h; cases h
    | ok cs =>
      simp only [hps, hcs] at h
      cases h
      have b1 : Uncut k ps := uncut_props hk (fun p hp => ⟨hc.props p hp, hu.props p hp, hs p (.inl hp)⟩) (worldOk_sub hw 0) hps
      have b2 : Uncut k cs := uncut_comps hk _ hc.comps hu.comps (fun p hp => hs p (.inr hp)) (worldOk_sub hw 1) hcs
      have := (uncut_component (k := k) (name := c!"VCALENDAR") (by decide) (uncut_append b1 b2) [] noIndent_nil trivial).1
      simpa only [List.append_assoc, List.append_nil, List.cons_append, List.nil_append] using this

/-- **C144.** So a calendar whose lines of a name have at most 75 octets is read, if these lines are removed from what
is written, as the calendar without the properties of this name. -/
theorem redacted_short {k : Str} (hk : KeyOk k) {c : Calendar} (hc : CalendarOk c) (hs : CalendarSafe c)
    (hst : ∀ x ∈ c.comps, HasStamps x.toOther) (hu : UnbrokenCal c) (hn : ∀ p ∈ calendarProps c, ShortNamed k p) {w : World}
    (hw : World.Ok w) {out : Str} (h : c.fmtWrite w = .ok out) :
    ∃ d, Calendar.fromStr (withoutLines k out) = some d ∧ CalendarWithout k c d :=
  redacted_written hk hc hs hst hu hw h (written_notContinued hk hc hu hn hw h)

/-- a calendar with a title and a note that is to be kept private -/
def privateNote : Calendar :=
  ⟨[⟨c!"SUMMARY", c!"Closed today", []⟩,
    ⟨c!"DESCRIPTION", c!"We are away for the whole week and the key is where it always is: under the mat", []⟩], []⟩

/-- what is written for it -/
def privateNoteText : Str :=
  c!"BEGIN:VCALENDAR\r\nSUMMARY:Closed today\r\nDESCRIPTION:We are away for the whole week and the key is where it always i\r\n s: under the mat\r\nEND:VCALENDAR\r\n"

omit [Uni] in
/-- **C144 (violated).** Removing the lines of a name does not always remove the property: what continued a folded line is
left in the file and becomes part of the value before. -/
theorem redacted_violated : letI := Uni.ascii
    CalendarOk privateNote ∧ CalendarSafe privateNote ∧ KeyOk c!"DESCRIPTION" ∧
    (∃ w, World.Ok w ∧ privateNote.fmtWrite w = .ok privateNoteText) ∧
    ∃ d, Calendar.fromStr (withoutLines c!"DESCRIPTION" privateNoteText) = some d ∧
      d.props.map (·.val) = [c!"Closed todays: under the mat"] := by
  letI := Uni.ascii
  let w : World := ⟨fun _ => ⟨⟨⟨2026, 1, 1⟩, 0, 0, 0, 0⟩⟩, fun _ => c!"01234567-89ab-cdef-0123-456789abcdef", fun _ l => l⟩
  have hw : World.Ok w := ⟨fun _ _ => .refl _, fun _ => by simp only [w]; decide, fun _ => by simp only [w]; decide⟩
  have ht : privateNote.fmtWrite w = .ok privateNoteText := by decide +kernel
  refine ⟨⟨?_, fun _ h => by cases h⟩, ⟨by decide +kernel, fun _ h => by cases h⟩, by decide +kernel, ⟨w, hw, ht⟩, ?_⟩
  · intro p hp
    simp only [privateNote, List.mem_cons, List.not_mem_nil, or_false] at hp
    rcases hp with rfl | rfl <;> decide +kernel
  · have : (Calendar.fromStr (withoutLines c!"DESCRIPTION" privateNoteText)).map (fun c => c.props.map (·.val)) =
      some [c!"Closed todays: under the mat"] := by decide +kernel
    cases h : Calendar.fromStr (withoutLines c!"DESCRIPTION" privateNoteText) with
    | none => rw [h] at this; cases this
    | some d => rw [h] at this; exact ⟨d, rfl, by simpa using this⟩

end Ical
