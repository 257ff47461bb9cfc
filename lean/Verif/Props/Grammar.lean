import Verif.Spec.Grammar
import Verif.Props.Presentation

/-!
C71: whatever the reader accepts, it neither invents nor drops anything.
-/

namespace Ical

open Nom Spec

/-- what a parser consumed stands for what it returned, given what it left -/
def Reads {α : Type} (p : P α) (R : α → Str → Str → Prop) : Prop :=
  ∀ i r a, p i = .ok r a → ∃ t, i = t ++ r ∧ R a t r

section
variable {α β γ : Type}

theorem reads_mono {p : P α} {R S : α → Str → Str → Prop} (h : Reads p R) (hi : ∀ a t f, R a t f → S a t f) :
    Reads p S := by
  intro i r a ha
  obtain ⟨t, h1, h2⟩ := h i r a ha
  exact ⟨t, h1, hi a t r h2⟩

theorem reads_map {p : P α} {g : α → β} {R : β → Str → Str → Prop} (h : Reads p (fun a t f => R (g a) t f)) :
    Reads (map g p) R := by
  intro i r a hr
  unfold map at hr
  cases hp : p i with
  | ok r' a' => rw [hp] at hr; cases hr; exact h _ _ _ hp
  | error => rw [hp] at hr; cases hr
  | failure => rw [hp] at hr; cases hr

theorem reads_cut {p : P α} {R : α → Str → Str → Prop} (h : Reads p R) : Reads (cut p) R := by
  intro i r a hr
  unfold cut at hr
  cases hp : p i with
  | ok r' a' => rw [hp] at hr; cases hr; exact h _ _ _ hp
  | error => rw [hp] at hr; cases hr
  | failure => rw [hp] at hr; cases hr

theorem reads_alt {p q : P α} {R : α → Str → Str → Prop} (hp : Reads p R)
    (hq : ∀ i r a, p i = .error → q i = .ok r a → ∃ t, i = t ++ r ∧ R a t r) : Reads (alt p q) R := by
  intro i r a hr
  unfold alt at hr
  cases h : p i with
  | ok r' a' => rw [h] at hr; cases hr; exact hp _ _ _ h
  | error => rw [h] at hr; exact hq _ _ _ h hr
  | failure => rw [h] at hr; cases hr

theorem reads_pair {p : P α} {q : P β} {R : α → Str → Str → Prop} {S : β → Str → Str → Prop} (hp : Reads p R)
    (hq : Reads q S) :
    Reads (pair p q) (fun x t f => ∃ a b, R x.1 a (b ++ f) ∧ S x.2 b f ∧ t = a ++ b) := by
  intro i r a hr
  unfold pair at hr
  cases h : p i with
  | error => rw [h] at hr; cases hr
  | failure => rw [h] at hr; cases hr
  | ok r1 x =>
    rw [h] at hr
    cases h2 : q r1 with
    | error => simp [h2] at hr
    | failure => simp [h2] at hr
    | ok r2 y =>
      simp only [h2] at hr
      cases hr
      obtain ⟨t2, rfl, h4⟩ := hq _ _ _ h2
      obtain ⟨t1, rfl, h3⟩ := hp _ _ _ h
      exact ⟨t1 ++ t2, by simp, t1, t2, h3, h4, rfl⟩

theorem reads_preceded {p : P α} {q : P β} {R : α → Str → Str → Prop} {S : β → Str → Str → Prop} (hp : Reads p R)
    (hq : Reads q S) :
    Reads (preceded p q) (fun x t f => ∃ y a b, R y a (b ++ f) ∧ S x b f ∧ t = a ++ b) :=
  reads_map (reads_mono (reads_pair hp hq) (fun x _ _ ⟨a, b, h⟩ => ⟨x.1, a, b, h⟩))

theorem reads_delimited {p : P α} {q : P β} {s : P γ} {R : α → Str → Str → Prop} {S : β → Str → Str → Prop}
    {T : γ → Str → Str → Prop} (hp : Reads p R) (hq : Reads q S) (hs : Reads s T) :
    Reads (delimited p q s)
      (fun x t f => ∃ y z a b c, R y a (b ++ (c ++ f)) ∧ S x b (c ++ f) ∧ T z c f ∧ t = a ++ b ++ c) := by
  refine reads_map (reads_mono (reads_pair hp (reads_pair hq hs)) ?_)
  rintro ⟨x, y, z⟩ t f ⟨a, b, h1, ⟨c, d, h2, h3, rfl⟩, rfl⟩
  exact ⟨x, z, a, c, d, by simpa using h1, h2, h3, by simp⟩

theorem reads_separatedPair {p : P α} {s : P γ} {q : P β} {R : α → Str → Str → Prop} {S : β → Str → Str → Prop}
    {T : γ → Str → Str → Prop} (hp : Reads p R) (hs : Reads s T) (hq : Reads q S) :
    Reads (separatedPair p s q)
      (fun x t f => ∃ y a b c, R x.1 a (b ++ (c ++ f)) ∧ T y b (c ++ f) ∧ S x.2 c f ∧ t = a ++ b ++ c) := by
  refine reads_map (reads_mono (reads_pair hp (reads_pair hs hq)) ?_)
  rintro ⟨x, y, z⟩ t f ⟨a, b, h1, ⟨c, d, h2, h3, rfl⟩, rfl⟩
  exact ⟨y, a, c, d, by simpa using h1, h2, h3, by simp⟩

theorem reads_opt {p : P α} {R : α → Str → Str → Prop} (h : Reads p R) :
    Reads (opt p) (fun o t f => match o with | none => t = [] ∧ p f = .error | some a => R a t f) := by
  intro i r a hr
  unfold opt at hr
  cases hp : p i with
  | ok r' a' => rw [hp] at hr; cases hr; exact h _ _ _ hp
  | error => rw [hp] at hr; cases hr; exact ⟨[], rfl, rfl, hp⟩
  | failure => rw [hp] at hr; cases hr

theorem reads_tag (t : Str) : Reads (tag t) (fun _ s _ => s = t) := by
  intro i r a h
  unfold tag at h
  split at h
  · rename_i hp
    cases h
    exact ⟨t, (List.prefix_iff_eq_append.1 (List.isPrefixOf_iff_prefix.1 hp)).symm, rfl⟩
  · cases h

theorem mem_takeWhile_imp' {f : Char → Bool} {s : Str} {c : Char} (h : c ∈ s.takeWhile f) : f c = true := by
  induction s with
  | nil => simp at h
  | cons d s ih =>
    rw [List.takeWhile_cons] at h
    split at h
    · rcases List.mem_cons.1 h with rfl | h
      · assumption
      · exact ih h
    · simp at h

theorem head_dropWhile' {f : Char → Bool} {s : Str} {c : Char} (h : c ∈ (s.dropWhile f).head?) : f c = false := by
  induction s with
  | nil => simp at h
  | cons d s ih =>
    rw [List.dropWhile_cons] at h
    split at h
    · exact ih h
    · rename_i hd
      simp only [List.head?_cons, Option.mem_some_iff] at h
      subst h
      simpa using hd

theorem reads_takeWhile (g : Char → Bool) :
    Reads (takeWhile g) (fun a t f => a = t ∧ (∀ c ∈ t, g c = true) ∧ ∀ c ∈ f.head?, g c = false) := by
  intro i r a h
  unfold Nom.takeWhile at h
  cases h
  exact ⟨i.takeWhile g, (List.takeWhile_append_dropWhile).symm, rfl, fun c hc => mem_takeWhile_imp' hc,
    fun c hc => head_dropWhile' hc⟩

theorem reads_takeTill1 (g : Char → Bool) :
    Reads (takeTill1 g) (fun a t f => a = t ∧ t ≠ [] ∧ (∀ c ∈ t, g c = false) ∧ ∀ c ∈ f.head?, g c = true) := by
  intro i r a h
  unfold takeTill1 at h
  split at h
  · cases h
  · rename_i hne
    cases h
    refine ⟨i.takeWhile (fun c => !g c), (List.takeWhile_append_dropWhile).symm, rfl, by simpa using hne, ?_, ?_⟩
    · intro c hc
      simpa using mem_takeWhile_imp' hc
    · intro c hc
      simpa using head_dropWhile' hc

theorem reads_lineEnding : Reads lineEnding (fun _ t _ => t = ['\n'] ∨ t = ['\r', '\n']) := by
  intro i r a h
  unfold lineEnding at h
  split at h
  · cases h; exact ⟨['\n'], rfl, .inl rfl⟩
  · cases h; exact ⟨['\r', '\n'], rfl, .inr rfl⟩
  · cases h

/-- concatenation of the texts of a list -/
def AllRead (R : α → Str → Str → Prop) : List α → Str → Str → Prop
  | [], t, _ => t = []
  | a :: l, t, f => ∃ x y, R a x (y ++ f) ∧ AllRead R l y f ∧ t = x ++ y

theorem reads_many0 {p : P α} {R : α → Str → Str → Prop} (h : Reads p R) : Reads (many0 p) (AllRead R) := by
  suffices ∀ n i r l, many0F p n i = .ok r l → ∃ t, i = t ++ r ∧ AllRead R l t r from fun i r l => this _ i r l
  intro n
  induction n with
  | zero => intro i r l hl; simp [many0F] at hl
  | succ n ih =>
    intro i r l hl
    unfold many0F at hl
    cases hp : p i with
    | error => rw [hp] at hl; cases hl; exact ⟨[], rfl, rfl⟩
    | failure => rw [hp] at hl; cases hl
    | ok r1 a =>
      simp only [hp] at hl
      split at hl
      · cases hl
      · cases hm : many0F p n r1 with
        | error => simp [hm] at hl
        | failure => simp [hm] at hl
        | ok r2 l2 =>
          simp only [hm] at hl
          cases hl
          obtain ⟨t2, rfl, h2⟩ := ih _ _ _ hm
          obtain ⟨t1, rfl, h1⟩ := h _ _ _ hp
          exact ⟨t1 ++ t2, by simp, t1, t2, h1, h2, rfl⟩

theorem reads_manyTill {p : P α} {g : P β} {R : α → Str → Str → Prop} {S : β → Str → Str → Prop} (hf : Reads p R)
    (hg : Reads g S) :
    Reads (manyTill p g) (fun x t f => ∃ a b, AllRead R x.1 a (b ++ f) ∧ S x.2 b f ∧ t = a ++ b) := by
  suffices ∀ n i r x, manyTillF p g n i = .ok r x →
      ∃ t, i = t ++ r ∧ ∃ a b, AllRead R x.1 a (b ++ r) ∧ S x.2 b r ∧ t = a ++ b
    from fun i r x => this _ i r x
  intro n
  induction n with
  | zero => intro i r l hl; simp [manyTillF] at hl
  | succ n ih =>
    intro i r x hl
    unfold manyTillF at hl
    cases hp : g i with
    | failure => rw [hp] at hl; cases hl
    | ok r1 b =>
      rw [hp] at hl
      cases hl
      obtain ⟨t, h1, h2⟩ := hg _ _ _ hp
      exact ⟨t, h1, [], t, rfl, h2, rfl⟩
    | error =>
      simp only [hp] at hl
      cases hq : p i with
      | error => simp [hq] at hl
      | failure => simp [hq] at hl
      | ok r1 a =>
        simp only [hq] at hl
        split at hl
        · cases hl
        · cases hm : manyTillF p g n r1 with
          | error => simp [hm] at hl
          | failure => simp [hm] at hl
          | ok r2 y =>
            obtain ⟨l2, b⟩ := y
            simp only [hm] at hl
            cases hl
            obtain ⟨t2, rfl, x, y, h2, h3, rfl⟩ := ih _ _ _ hm
            obtain ⟨t1, rfl, h1⟩ := hf _ _ _ hq
            exact ⟨t1 ++ (x ++ y), by simp, t1 ++ x, y, ⟨t1, x, by simpa using h1, h2, rfl⟩, h3, by simp⟩

theorem allRead_blank {l : List Str} {t f : Str}
    (h : AllRead (fun _ t _ => t = ['\n'] ∨ t = ['\r', '\n']) l t f) : Blank t := by
  induction l generalizing t with
  | nil => exact ⟨[], h⟩
  | cons a l ih =>
    obtain ⟨x, y, h1, h2, rfl⟩ := h
    obtain ⟨bs, rfl⟩ := ih h2
    rcases h1 with rfl | rfl
    · exact ⟨.lf :: bs, rfl⟩
    · exact ⟨.crlf :: bs, rfl⟩

theorem allRead_mono {R S : α → Str → Str → Prop} (hi : ∀ a t f, R a t f → S a t f) {l : List α} {t f : Str}
    (h : AllRead R l t f) : AllRead S l t f := by
  induction l generalizing t with
  | nil => exact h
  | cons a l ih =>
    obtain ⟨x, y, h1, h2, rfl⟩ := h
    exact ⟨x, y, hi _ _ _ h1, ih h2, rfl⟩

theorem blank_append {a b : Str} (ha : Blank a) (hb : Blank b) : Blank (a ++ b) := by
  obtain ⟨x, rfl⟩ := ha
  obtain ⟨y, rfl⟩ := hb
  exact ⟨x ++ y, by simp⟩

theorem reads_breaks : Reads (many0 lineEnding) (fun _ t _ => Blank t) :=
  reads_mono (reads_many0 reads_lineEnding) (fun _ _ _ h => allRead_blank h)

theorem reads_lfs : Reads (many0 (tag ['\n'])) (fun _ t _ => Blank t) :=
  reads_mono (reads_many0 (reads_mono (reads_tag _) (fun _ _ _ h => Or.inl h))) (fun _ _ _ h => allRead_blank h)

theorem reads_lineSeparated {p : P α} {R : α → Str → Str → Prop} (h : Reads p R) :
    Reads (lineSeparated p) (fun x t f => ∃ a b c, Blank a ∧ R x b (c ++ f) ∧ Blank c ∧ t = a ++ b ++ c) :=
  reads_mono (reads_delimited reads_breaks h reads_breaks) (fun _ _ _ ⟨_, _, a, b, c, h⟩ => ⟨a, b, c, h⟩)

theorem prefixNoCase_append {t i : Str} (h : prefixNoCase t i = true) :
    ∃ b r, i = b ++ r ∧ b.length = t.length ∧ b.map lowerAscii = t.map lowerAscii := by
  induction t generalizing i with
  | nil => exact ⟨[], i, rfl, rfl, rfl⟩
  | cons c t ih =>
    cases i with
    | nil => simp [prefixNoCase] at h
    | cons d i =>
      simp only [prefixNoCase, Bool.and_eq_true, beq_iff_eq] at h
      obtain ⟨b, r, rfl, h1, h2⟩ := ih h.2
      exact ⟨d :: b, r, rfl, by simp [h1], by simp [h2, h.1]⟩

theorem reads_tagNoCase (t : Str) : Reads (tagNoCase t) (fun _ s _ => s.map lowerAscii = t.map lowerAscii) := by
  intro i r a h
  unfold tagNoCase at h
  split at h
  · rename_i hp
    obtain ⟨b, r', rfl, h1, h2⟩ := prefixNoCase_append hp
    cases h
    exact ⟨b, by rw [← h1, List.drop_left], h2⟩
  · cases h

theorem reads_line {t : Str} {p : P α} {R : α → Str → Str → Prop} (h : Reads p R) :
    Reads (line t p) (fun x s f => ∃ a k b c, Blank a ∧ k.map lowerAscii = t.map lowerAscii ∧ R x b (c ++ f) ∧ Blank c ∧
      s = a ++ k ++ b ++ c) := by
  refine reads_mono
    (reads_lineSeparated (p := complete (preceded (tagNoCase t) p)) (reads_preceded (reads_tagNoCase t) h)) ?_
  rintro x s f ⟨a, b, c, h1, ⟨_, k, d, h2, h3, rfl⟩, h4, rfl⟩
  exact ⟨a, k, d, c, h1, h2, h3, h4, by simp⟩

/-! Values. -/

theorem takeUntil_error {t i : Str} (h : takeUntil t i = .error) : ¬ t <:+: i := by
  unfold takeUntil at h
  split at h
  · cases h
  · rename_i hf
    exact findSub_none hf

theorem findSub_lf_free {i a b : Str} (h : findSub ['\n'] i = some (a, b)) : '\n' ∉ a := by
  induction i generalizing a b with
  | nil => simp [findSub] at h
  | cons c s ih =>
    unfold findSub at h
    split at h
    · cases h; simp
    · rename_i hnp
      cases h' : findSub ['\n'] s with
      | none => rw [h'] at h; cases h
      | some x =>
        obtain ⟨a', b'⟩ := x
        rw [h'] at h
        cases h
        simp only [List.mem_cons, not_or]
        refine ⟨?_, ih h'⟩
        rintro rfl
        simp at hnp

/-- the value of a line and the line break after it -/
theorem reads_rest : Reads (pair propertyRest (opt lineEnding)) (fun x t f => ∃ br, t = x.1 ++ br ∧
    ¬ ['\r', '\n'] <:+: x.1 ∧
    (br = ['\r', '\n'] ∨ br = ['\n'] ∧ '\n' ∉ x.1 ∨ br = [] ∧ '\n' ∉ x.1 ∧ f = [])) := by
  intro i r x h
  unfold pair at h
  cases h1 : propertyRest i with
  | error => rw [h1] at h; cases h
  | failure => rw [h1] at h; cases h
  | ok r1 raw =>
    have hraw := gives_propertyRest _ _ _ h1
    rw [h1] at h
    simp only at h
    have key : (∃ s, r1 = '\r' :: '\n' :: s ∧ i = raw ++ r1) ∨ (∃ s, r1 = '\n' :: s ∧ '\n' ∉ raw ∧ i = raw ++ r1) ∨
        (r1 = [] ∧ '\n' ∉ raw ∧ i = raw) := by
      unfold propertyRest alt at h1
      cases h2 : takeUntil ['\r', '\n'] i with
      | failure => rw [h2] at h1; cases h1
      | ok r2 a2 =>
        rw [h2] at h1
        cases h1
        unfold takeUntil at h2
        split at h2
        · rename_i hf
          cases h2
          obtain ⟨h3, s, h4⟩ := findSub_some hf
          exact .inl ⟨s, h4.symm, h3⟩
        · cases h2
      | error =>
        rw [h2] at h1
        simp only at h1
        cases h3 : takeUntil ['\n'] i with
        | failure => rw [h3] at h1; cases h1
        | ok r2 a2 =>
          rw [h3] at h1
          cases h1
          unfold takeUntil at h3
          split at h3
          · rename_i hf
            cases h3
            obtain ⟨h3, s, h4⟩ := findSub_some hf
            exact .inr (.inl ⟨s, h4.symm, findSub_lf_free hf, h3⟩)
          · cases h3
        | error =>
          rw [h3] at h1
          have hn := takeUntil_error h3
          have ht : i.takeWhile (fun _ => true) = i := by
            clear h h1 h2 h3 hn; induction i with
            | nil => rfl
            | cons c s ih => simp [ih]
          have hd : i.dropWhile (fun _ => true) = [] := by
            clear h h1 h2 h3 hn ht; induction i with
            | nil => rfl
            | cons c s ih => simpa using ih
          unfold Nom.takeWhile at h1
          simp only [ht, hd] at h1
          cases h1
          refine .inr (.inr ⟨rfl, ?_, rfl⟩)
          intro hc
          obtain ⟨a, b, hab⟩ := List.append_of_mem hc
          exact hn ⟨a, b, by rw [hab]; simp⟩
    rcases key with ⟨s, rfl, rfl⟩ | ⟨s, rfl, h2, rfl⟩ | ⟨rfl, h2, rfl⟩
    · cases h
      exact ⟨raw ++ ['\r', '\n'], by simp, _, rfl, hraw, .inl rfl⟩
    · cases h
      exact ⟨raw ++ ['\n'], by simp, _, rfl, hraw, .inr (.inl ⟨rfl, h2⟩)⟩
    · cases h
      exact ⟨i, by simp, [], by simp, hraw, .inr (.inr ⟨rfl, h2, rfl⟩)⟩

/-! Parameters. -/

/-- the form of a parameter value -/
def ValueForm (v form f : Str) : Prop :=
  v ≠ [] ∧ ((form = '"' :: v ++ ['"'] ∧ '"' ∉ v) ∨
    (form = v ∧ ':' ∉ v ∧ ';' ∉ v ∧ ∀ w, w ≠ [] → '"' ∉ w → ¬ '"' :: w ++ ['"'] <+: v ++ f))

theorem quoted_reads {w r : Str} (hw : w ≠ []) (hq : '"' ∉ w) :
    delimited (tag ['"']) (isNot '"') (tag ['"']) ('"' :: w ++ ['"'] ++ r) = .ok r w := by
  have h : isNot '"' (w ++ '"' :: r) = .ok ('"' :: r) w := by
    apply takeTill1_ok hw
    · intro c hc
      have : c ≠ '"' := fun h => hq (h ▸ hc)
      simpa using this
    · simp
  simp [delimited, pair, map, tag, h]

theorem reads_paramValue : Reads paramValue (fun v t f => (v = [] ∧ t = [] ∧ f = []) ∨ ValueForm v t f) := by
  refine reads_alt ?_ (fun i r a _ h => reads_alt (R := fun v t f => (v = [] ∧ t = [] ∧ f = []) ∨ ValueForm v t f)
    ?_ ?_ i r a h)
  · intro i r a h
    unfold eof at h
    split at h
    · rename_i hi
      cases h
      exact ⟨[], by simpa using hi, .inl ⟨rfl, rfl, rfl⟩⟩
    · cases h
  · refine reads_mono (reads_delimited (reads_tag _) (reads_takeTill1 _) (reads_tag _)) ?_
    rintro v t f ⟨_, _, a, b, c, rfl, ⟨rfl, h1, h2, _⟩, rfl, rfl⟩
    refine .inr ⟨h1, .inl ⟨by simp, ?_⟩⟩
    intro hc
    simpa using h2 _ hc
  · intro i r a he h
    obtain ⟨t, rfl, rfl, h2, h3, _⟩ := reads_takeTill1 _ _ _ _ h
    refine ⟨a, rfl, .inr ⟨h2, .inr ⟨rfl, ?_, ?_, ?_⟩⟩⟩
    · intro hc; simpa using h3 _ hc
    · intro hc; simpa using h3 _ hc
    · rintro w hw hq ⟨s, hs⟩
      rw [← hs, quoted_reads hw hq] at he
      cases he

end

variable [Uni]

theorem reads_validKeySequence :
    Reads validKeySequence (fun a t f => a = t ∧ IsName t ∧ ∀ c ∈ f.head?, ¬ NameChar c) :=
  reads_mono (reads_takeWhile isKeyChar) (fun _ _ _ h => ⟨h.1, fun c hc => (isKeyChar_iff c).1 (h.2.1 c hc),
    fun c hc hn => by have := h.2.2 c hc; rw [(isKeyChar_iff c).2 hn] at this; cases this⟩)

omit [Uni] in
theorem reads_semicolon : Reads (pair (tag [';']) space0)
    (fun _ t _ => ∃ blanks, (∀ c ∈ blanks, c = ' ' ∨ c = '\t') ∧ t = ';' :: blanks) := by
  refine reads_mono (reads_pair (reads_tag _) (reads_takeWhile _)) ?_
  rintro x t f ⟨a, b, rfl, ⟨_, h, _⟩, rfl⟩
  exact ⟨b, fun c hc => by simpa using h c hc, rfl⟩

theorem reads_parameter : Reads parameter ParamReads := by
  refine reads_alt ?_ (fun i r a _ h => ?_)
  · apply reads_map
    refine reads_mono (reads_preceded reads_semicolon (reads_separatedPair reads_validKeySequence (reads_tag _)
      (reads_map (R := fun o t f => match o with | none => t = [] | some v => ValueForm v t f)
        (reads_mono (reads_opt reads_paramValue) ?_)))) ?_
    · rintro (_ | v) t f h
      · exact h.1
      · rcases h with ⟨rfl, rfl, rfl⟩ | h
        · rfl
        · simp only [removeEmpty, List.isEmpty_iff]
          rw [if_neg h.1]
          exact h
    · rintro ⟨k, v⟩ t f ⟨_, a, b, ⟨blanks, h1, rfl⟩, ⟨_, x, y, z, ⟨rfl, h2, _⟩, rfl, h4, rfl⟩, rfl⟩
      refine ⟨h2, blanks, '=' :: z, h1, by simp, ?_⟩
      cases v with
      | none => simp only at h4; subst h4; exact .inr rfl
      | some v =>
        obtain ⟨h5, h6⟩ := h4
        refine ⟨h5, ?_⟩
        rcases h6 with ⟨rfl, h6⟩ | ⟨rfl, h6⟩
        · exact .inl ⟨by simp, h6⟩
        · exact .inr ⟨rfl, h6⟩
  · refine reads_map (R := ParamReads) (reads_mono (reads_pair (reads_preceded reads_semicolon reads_validKeySequence)
      (reads_map (R := fun o t f => match o with | none => t = [] ∨ t = ['='] | some v => ∃ z, t = '=' :: z ∧ ValueForm v z f)
        (reads_mono (reads_opt (reads_preceded (reads_tag _) reads_paramValue)) ?_))) ?_) i r a h
    · rintro (_ | v) t f h
      · exact .inl h.1
      · rcases h with ⟨_, x, z, rfl, h | h, rfl⟩
        · obtain ⟨rfl, rfl, rfl⟩ := h
          exact .inr rfl
        · simp only [removeEmpty, List.isEmpty_iff]
          rw [if_neg h.1]
          exact ⟨z, rfl, h⟩
    · rintro ⟨k, v⟩ t f ⟨a, b, ⟨_, x, y, ⟨blanks, h1, rfl⟩, ⟨rfl, h2, _⟩, rfl⟩, h4, rfl⟩
      refine ⟨h2, blanks, b, h1, by simp, ?_⟩
      cases v with
      | none => exact h4
      | some v =>
        obtain ⟨z, rfl, h5, h6⟩ := h4
        refine ⟨h5, ?_⟩
        rcases h6 with ⟨rfl, h6⟩ | ⟨rfl, h6⟩
        · exact .inl ⟨by simp, h6⟩
        · exact .inr ⟨rfl, h6⟩

theorem reads_parameters : Reads parameters ParamsRead := by
  refine reads_mono (reads_many0 reads_parameter) ?_
  intro l
  induction l with
  | nil => exact fun t f h => h
  | cons p l ih =>
    rintro t f ⟨x, y, h1, h2, rfl⟩
    exact ⟨x, y, h1, ih _ _ h2, rfl⟩

/-! Properties. -/

theorem valueReads_mkProperty (k : Str) (ps : List PParam) (raw : Str) : ValueReads (mkProperty ((k, ps), raw)) raw := by
  have hd : determineValueType k ps =
      (((ps.find? (fun q => q.key == c!"VALUE")).bind PParam.val).bind ValueType.fromStr).or (ValueType.byName k) := by
    unfold determineValueType
    cases ((ps.find? (fun q => q.key == c!"VALUE")).bind PParam.val).bind ValueType.fromStr <;> rfl
  unfold ValueReads
  simp only [isTextFor_iff, mkProperty, ← hd]
  refine ⟨fun h => ?_, fun h => ?_⟩
  · cases hv : determineValueType k ps with
    | none => rfl
    | some vt =>
      rw [hv] at h
      cases vt <;> first | rfl | exact absurd rfl h
  · rw [h]
    exact ⟨unescapeText_unescaped raw, (unescape_rfc_partial raw).2⟩

theorem propertyKey_name {i r k : Str} (h : propertyKey i = .ok r k) :
    ∃ t, i = t ++ r ∧ k = t ∧ IsName k ∧ ¬ c!"END" <+: k ∧ ¬ c!"BEGIN" <+: k := by
  unfold propertyKey at h
  split at h
  · cases h
  · rename_i hn
    simp only [Bool.or_eq_true, List.isPrefixOf_iff_prefix, not_or] at hn
    obtain ⟨t, rfl, rfl, h2, _⟩ := reads_validKeySequence _ _ _ h
    exact ⟨k, rfl, rfl, h2, fun h => hn.1 (h.trans (List.prefix_append _ _)),
      fun h => hn.2 (h.trans (List.prefix_append _ _))⟩

omit [Uni] in
theorem separatedPair_ok {α β γ : Type} {p : P α} {s : P γ} {q : P β} {i r : Str} {x : α × β}
    (h : separatedPair p s q i = .ok r x) : ∃ r0 y, pair p s i = .ok r0 (x.1, y) ∧ q r0 = .ok r x.2 := by
  simp only [separatedPair, map, pair] at h ⊢
  cases h1 : p i with
  | error => simp [h1] at h
  | failure => simp [h1] at h
  | ok r1 a =>
    cases h2 : s r1 with
    | error => simp [h1, h2] at h
    | failure => simp [h1, h2] at h
    | ok r2 b =>
      cases h3 : q r2 with
      | error => simp [h1, h2, h3] at h
      | failure => simp [h1, h2, h3] at h
      | ok r3 c =>
        simp only [h1, h2, h3] at h
        cases h
        exact ⟨r2, b, by simp [h2], h3⟩

omit [Uni] in
theorem propertyRest_total (i : Str) : ∃ r a, propertyRest i = .ok r a := by
  unfold propertyRest alt
  cases h1 : takeUntil ['\r', '\n'] i with
  | ok r a => exact ⟨r, a, rfl⟩
  | failure => unfold takeUntil at h1; split at h1 <;> cases h1
  | error =>
    simp only
    cases h2 : takeUntil ['\n'] i with
    | ok r a => exact ⟨r, a, rfl⟩
    | failure => unfold takeUntil at h2; split at h2 <;> cases h2
    | error => exact ⟨_, _, rfl⟩

theorem multispace0_name {k b : Str} (h : IsName k) (hb : k = [] → ∀ c ∈ b.head?, c = ':') :
    multispace0 (k ++ b) = .ok (k ++ b) [] := by
  refine takeWhile_ok (a := []) (by simp) ?_
  intro c hc
  have hcase : isKeyChar c = true ∨ c = ':' := by
    cases k with
    | nil => exact .inr (hb rfl c (by simpa using hc))
    | cons d k =>
      have : d = c := by simpa using hc
      exact .inl (this ▸ name_keyChar h d (by simp))
  rcases hcase with hk | rfl
  · have h1 : c ≠ ' ' := fun h => by rw [h, isKeyChar_sp] at hk; cases hk
    have h2 : c ≠ '\t' := fun h => by rw [h, isKeyChar_tab] at hk; cases hk
    have h3 : c ≠ '\r' := fun h => by rw [h, isKeyChar_cr] at hk; cases hk
    have h4 : c ≠ '\n' := fun h => by rw [h, isKeyChar_lf] at hk; cases hk
    simp [h1, h2, h3, h4]
  · rfl

/-- a line that is not `name parameters : value` and not the start or end of a component -/
theorem bare_name {k b : Str} (h : IsName k)
    (he : separatedPair (pair (cut (preceded multispace0 propertyKey)) parameters) (tag [':']) propertyRest (k ++ b)
      = .error) : ¬ c!"END" <+: k ∧ ¬ c!"BEGIN" <+: k ∧ ∀ c ∈ b.head?, c ≠ ':' := by
  have hpre : ∀ {t : Str}, t ≠ [] → t <+: k → (∀ s, t <+: s → propertyKey s = .error) → False := by
    intro t ht hk hs
    have hm := multispace0_name (b := b) h (fun h => by
      subst h
      exact absurd (List.prefix_nil.1 hk) ht)
    have := hs (k ++ b) (hk.trans (List.prefix_append _ _))
    simp [separatedPair, pair, preceded, map, cut, hm, this] at he
  have h1 : ¬ c!"END" <+: k := fun hk => hpre (by simp) hk (fun s hs => by
    simp [propertyKey, List.isPrefixOf_iff_prefix.2 hs])
  have h2 : ¬ c!"BEGIN" <+: k := fun hk => hpre (by simp) hk (fun s hs => by
    simp [propertyKey, List.isPrefixOf_iff_prefix.2 hs])
  refine ⟨h1, h2, ?_⟩
  rintro c hc rfl
  cases b with
  | nil => simp at hc
  | cons d b =>
    simp only [List.head?_cons, Option.mem_some_iff] at hc
    subst hc
    have hm := multispace0_name (b := ':' :: b) h (fun _ => by simp)
    have hk := propertyKey_ok h h1 h2 (stopsAt_colon (s := b))
    have hp : parameters (':' :: b) = .ok (':' :: b) [] := many0_error (by rfl)
    obtain ⟨r, a, hr⟩ := propertyRest_total b
    simp [separatedPair, pair, preceded, map, cut, hm, hk, hp, tag, hr] at he

theorem reads_property : Reads property PropReads := by
  apply reads_cut
  apply reads_map
  intro i r x h
  unfold pair at h
  cases h1 : propertyParts i with
  | error => rw [h1] at h; cases h
  | failure => rw [h1] at h; cases h
  | ok r1 y =>
    rw [h1] at h
    simp only at h
    cases h2 : opt lineEnding r1 with
    | error => rw [h2] at h; cases h
    | failure => rw [h2] at h; cases h
    | ok r2 z =>
      rw [h2] at h
      cases h
      dsimp only
      unfold propertyParts alt at h1
      cases h3 : separatedPair (pair (cut (preceded multispace0 propertyKey)) parameters) (tag [':']) propertyRest i with
      | failure => rw [h3] at h1; cases h1
      | ok r3 y3 =>
        rw [h3] at h1
        cases h1
        obtain ⟨r0, y0, h4, h5⟩ := separatedPair_ok h3
        obtain ⟨⟨k, ps⟩, raw⟩ := y
        have h6 : pair propertyRest (opt lineEnding) r0 = .ok r (raw, z) := by
          simp [pair, h5, h2]
        obtain ⟨t2, rfl, br, h7, h8, h9⟩ := reads_rest _ _ _ h6
        simp only at h7 h8 h9
        subst h7
        have hkey : Reads propertyKey (fun k t _ => k = t ∧ IsName k ∧ ¬ c!"END" <+: k ∧ ¬ c!"BEGIN" <+: k) :=
          fun i r a h => propertyKey_name h
        obtain ⟨t1, rfl, a, b, ⟨c, d, ⟨_, e, g, ⟨_, hw, _⟩, ⟨hk, hk1, hk2, hk3⟩, rfl⟩, hps, rfl⟩, rfl, rfl⟩ :=
          reads_pair (reads_pair (reads_cut (reads_preceded (reads_takeWhile _) hkey)) reads_parameters)
            (reads_tag [':']) _ _ _ h4
        simp only at hk hps
        subst hk
        refine ⟨e ++ k ++ d ++ ':' :: raw ++ br, by simp, hk1, hk2, hk3, .inl ⟨e, d, raw, br, ?_, ?_, h8, h9,
          valueReads_mkProperty k ps raw, rfl⟩⟩
        · intro c hc
          simpa [or_assoc] using hw c hc
        · simpa [mkProperty] using hps
      | error =>
        rw [h3] at h1
        obtain ⟨t1, rfl, h5⟩ := reads_map (R := fun x t f => x = ((t, []), []) ∧ IsName t ∧ ∀ c ∈ f.head?, ¬ NameChar c)
          (reads_mono reads_validKeySequence (fun a t f ⟨h1, h2⟩ => ⟨by rw [h1], h2⟩)) _ _ _ h1
        obtain ⟨rfl, h6, h7⟩ := h5
        obtain ⟨h8, h9, h10⟩ := bare_name h6 h3
        have hb : ∃ br, (br = ['\r', '\n'] ∨ br = ['\n'] ∨ br = []) ∧ r1 = br ++ r := by
          obtain ⟨br, rfl, hbr⟩ := reads_opt reads_lineEnding _ _ _ h2
          refine ⟨br, ?_, rfl⟩
          cases z with
          | none => exact .inr (.inr hbr.1)
          | some z => rcases hbr with h | h <;> simp [h]
        obtain ⟨br, hbr, rfl⟩ := hb
        refine ⟨t1 ++ br, by simp, h6, h8, h9, .inr ⟨rfl, ?_, br, hbr, rfl, fun c hc => ⟨h7 c hc, h10 c hc⟩⟩⟩
        simp only [mkProperty]
        cases determineValueType t1 [] with
        | none => rfl
        | some vt => cases vt <;> rfl

/-! Components. -/

/-- the text of a property or component with the blank lines around it -/
def ChildReads (x : Child) (t f : Str) : Prop := ∃ a b c, Blank a ∧ Blank c ∧ t = a ++ b ++ c ∧
  match x with | .prop p => PropReads p b (c ++ f) | .comp p => CompReads p b (c ++ f)

theorem reads_componentBody {rec : P PComp} (hrec : Reads rec CompReads) : Reads (componentBody rec) CompReads := by
  intro i r c h
  unfold componentBody at h
  cases h1 : line c!"BEGIN:" validKeySequence i with
  | error => rw [h1] at h; cases h
  | failure => rw [h1] at h; cases h
  | ok r1 n =>
    rw [h1] at h
    simp only at h
    cases h2 : manyTill (componentChild rec) (componentEnd n) r1 with
    | error => rw [h2] at h; cases h
    | failure => rw [h2] at h; cases h
    | ok r2 x =>
      obtain ⟨children, y⟩ := x
      rw [h2] at h
      simp only at h
      cases h3 : many0 (tag ['\n']) r2 with
      | error => rw [h3] at h; cases h
      | failure => rw [h3] at h; cases h
      | ok r3 z =>
        rw [h3] at h
        cases h
        obtain ⟨trail, rfl, ht⟩ := reads_lfs _ _ _ h3
        have hchild : Reads (componentChild rec) ChildReads := by
          refine reads_cut (reads_alt (reads_map (reads_mono (reads_lineSeparated hrec) ?_))
            (fun i r a _ h => reads_map (R := ChildReads) (reads_mono (reads_lineSeparated reads_property) ?_) i r a h))
          · rintro p t f ⟨a, b, c, h1, h2, h3, h4⟩
            exact ⟨a, b, c, h1, h3, h4, h2⟩
          · rintro p t f ⟨a, b, c, h1, h2, h3, h4⟩
            exact ⟨a, b, c, h1, h3, h4, h2⟩
        obtain ⟨t2, rfl, body, b2, hbody, ⟨last, e, n', tr, hl, he, rfl, htr, rfl⟩, rfl⟩ :=
          reads_manyTill hchild (reads_line (t := c!"END:") (reads_cut (reads_tag n))) _ _ _ h2
        obtain ⟨t1, rfl, lead, b, n'', gap, hlead, hb, ⟨rfl, hn, hstop⟩, hgap, rfl⟩ :=
          reads_line (t := c!"BEGIN:") reads_validKeySequence _ _ _ h1
        have hb2 : ∀ (l : List Child) (t f : Str), AllRead ChildReads l t f →
            BodyReads (childProps l) (childComps l) t f := by
          intro l
          induction l with
          | nil => rintro t f rfl; exact .nil
          | cons x l ih =>
            rintro t f ⟨u, v, ⟨a, b, c, h1, h2, rfl, h3⟩, h4, rfl⟩
            cases x with
            | prop p => exact .prop h1 (by simpa using h3) h2 (ih _ _ h4)
            | comp p => exact .comp h1 (by simpa using h3) h2 (ih _ _ h4)
        have key := CompReads.mk (f := r) (n := n') (props := childProps children) (comps := childComps children)
          (lead := lead) (b := b) (gap := gap) (body := body) (last := last) (e := e) (trail := tr ++ trail)
          hlead hb hn (by simpa using hstop) hgap (by simpa using hb2 _ _ _ hbody) hl he (blank_append htr ht)
        exact ⟨_, by simp, key⟩

theorem reads_component : Reads component CompReads := by
  suffices ∀ n, Reads (componentF n) CompReads from fun i r c h => this _ i r c h
  intro n
  induction n with
  | zero => intro i r c h; cases h
  | succ n ih => exact reads_componentBody ih

/-! ### C71 -/

/-- **C71.** Whatever text a component is read from, up to the text that is left: it stands for that component and
for nothing else. -/
theorem read_component_sound {i : Str} {c : PComp} (h : readComponent i = some c) :
    ∃ t rest, i = t ++ rest ∧ CompReads c t rest := by
  unfold readComponent at h
  cases hc : component i with
  | error => rw [hc] at h; cases h
  | failure => rw [hc] at h; cases h
  | ok r d =>
    rw [hc] at h
    cases h
    obtain ⟨t, h1, h2⟩ := reads_component _ _ _ hc
    exact ⟨t, r, h1, h2⟩

/-- **C71.** If a list of components is read, it is empty or the whole text stands for its only element. -/
theorem read_components_sound {i : Str} {l : List PComp} (h : readComponents i = some l) (hne : l ≠ []) :
    ∃ c, l = [c] ∧ CompReads c i [] := by
  unfold readComponents at h
  rcases components_cases i with ⟨c, hc, hl⟩ | ⟨-, hl⟩ | ⟨-, hl⟩
  · rw [hl] at h
    cases h
    obtain ⟨t, rfl, h2⟩ := reads_component _ _ _ hc
    exact ⟨c, rfl, by simpa using h2⟩
  · rw [hl] at h; cases h; exact absurd rfl hne
  · rw [hl] at h; cases h

/-- **C71.** A calendar that is read from a text and is not empty is what the whole text stands for: the properties and
components of a `VCALENDAR`, or one component of another name. -/
theorem read_calendar_sound {i : Str} {c : PCal} (h : readCalendar i = some c) (hne : ¬ (c.props = [] ∧ c.comps = [])) :
    CompReads (.mk c!"VCALENDAR" c.props c.comps) i [] ∨
    ∃ d, d.name ≠ c!"VCALENDAR" ∧ c.props = [] ∧ c.comps = [d] ∧ CompReads d i [] := by
  unfold readCalendar at h
  split at h
  · cases h
  · cases h; exact absurd ⟨rfl, rfl⟩ hne
  · rename_i root rest hl
    obtain ⟨d, hd, hr⟩ := read_components_sound (i := i) hl (by simp)
    cases hd
    split at h
    · rename_i hn
      cases h
      obtain ⟨n, ps, cs⟩ := root
      simp only [PComp.name] at hn
      subst hn
      exact .inl hr
    · rename_i hn
      cases h
      exact .inr ⟨root, hn, rfl, rfl, hr⟩

/-- **C71.** A property is read from the text that stands for it. -/
theorem read_property_sound {i : Str} {p : PProp} (h : readProperty i = some p) :
    ∃ t rest, i = t ++ rest ∧ PropReads p t rest := by
  unfold readProperty at h
  cases hc : property i with
  | error => rw [hc] at h; cases h
  | failure => rw [hc] at h; cases h
  | ok r d =>
    rw [hc] at h
    cases h
    obtain ⟨t, h1, h2⟩ := reads_property _ _ _ hc
    exact ⟨t, r, h1, h2⟩

end Ical

namespace Ical
open Spec

/-- an untidy document: keywords in lower case, blank lines, blanks before names, a line without colon, an empty
parameter and a nested component are read, so the theorem speaks about it -/
example : (@readCalendar Uni.ascii
    c!"\nbegin:VCALENDAR\r\n\r\n  SUMMARY;X=;Y=\"a;b\":v\\,w\r\nSTATUS\nbegin:VEVENT\nUID:1\r\nend:VEVENT\n\nEND:VCALENDAR\n\n").map
      (fun c => (c.props, c.comps.map (fun d => (d.name, d.props)))) =
    some ([⟨c!"SUMMARY", c!"v,w", [⟨c!"X", none⟩, ⟨c!"Y", some c!"a;b"⟩]⟩, ⟨c!"STATUS", [], []⟩],
      [(c!"VEVENT", [⟨c!"UID", c!"1", []⟩])]) := by
  decide +kernel

end Ical

namespace Ical

open Nom Spec

/-! ### C72 -/

variable [Uni]

/-- a text with blank lines at most before a keyword BEGIN -/
def Opens (i : Str) : Prop := ∃ lead b rest, i = lead ++ b ++ rest ∧ Blank lead ∧ b.map lowerAscii = c!"begin:"

theorem component_opens {i r : Str} {c : PComp} (h : component i = .ok r c) : Opens i := by
  obtain ⟨t, rfl, h2⟩ := reads_component _ _ _ h
  cases h2 with
  | @mk n _ _ lead b gap body last e trail f hl hb _ _ _ _ _ _ _ =>
    exact ⟨lead, b, n ++ gap ++ body ++ last ++ e ++ n ++ trail ++ r, by simp, hl, hb⟩

omit [Uni] in
theorem many0_breaks_ok (i : Str) : ∃ r l, many0 lineEnding i = .ok r l := by
  suffices ∀ n i, i.length < n → ∃ r l, many0F lineEnding n i = .ok r l from this _ i (Nat.lt_succ_self _)
  intro n
  induction n with
  | zero => intro i h; omega
  | succ n ih =>
    intro i h
    unfold many0F
    cases hi : lineEnding i with
    | error => exact ⟨i, [], rfl⟩
    | failure => unfold lineEnding at hi; split at hi <;> cases hi
    | ok r a =>
      obtain ⟨t, rfl, ht⟩ := reads_lineEnding _ _ _ hi
      have hl : r.length < (t ++ r).length := by rcases ht with rfl | rfl <;> simp <;> omega
      obtain ⟨r', l, hr⟩ := ih r (by omega)
      simp only [hr]
      rw [if_neg (by omega)]
      exact ⟨r', _, rfl⟩

theorem component_not_opens {i : Str} (h : ¬ Opens i) : component i = .error := by
  obtain ⟨r, l, hr⟩ := many0_breaks_ok i
  obtain ⟨lead, rfl, hl⟩ := reads_breaks _ _ _ hr
  have ht : tagNoCase c!"BEGIN:" r = .error := by
    cases hc : tagNoCase c!"BEGIN:" r with
    | error => rfl
    | failure => unfold tagNoCase at hc; split at hc <;> cases hc
    | ok r' a =>
      obtain ⟨b, rfl, hb⟩ := reads_tagNoCase _ _ _ _ hc
      exact absurd ⟨lead, b, r', by simp, hl, hb⟩ h
  rw [component_eq]
  simp [componentBody, line, lineSeparated, delimited, complete, preceded, map, pair, hr, ht]

/-- **C72 (partial).** A text that does not open a component is rejected as a component. -/
theorem not_calendar_partial {s : Str} (h : ¬ Opens (unfold s)) : CalComp.fromStr s = none := by
  simp [CalComp.fromStr, readComponent, component_not_opens h, finish]

/-- **C72 (violated).** Every text that does not open a component is read as an empty calendar, without an error. -/
theorem not_calendar_violated {s : Str} (h : ¬ Opens (unfold s)) : Calendar.fromStr s = some ⟨[], []⟩ := by
  have : components (unfold s) = .ok (unfold s) [] := components_none (.inl (component_not_opens h))
  simp [Calendar.fromStr, readCalendar, this, finish, PCal.toCalendar]

/-- **C72 (violated).** So is a component that is followed by other text. -/
theorem trailing_text_violated {s r : Str} {c : PComp} (h : component (unfold s) = .ok r c) (hr : r ≠ []) :
    Calendar.fromStr s = some ⟨[], []⟩ := by
  have : components (unfold s) = .ok (unfold s) [] := components_none (.inr ⟨r, c, hr, h⟩)
  simp [Calendar.fromStr, readCalendar, this, finish, PCal.toCalendar]

end Ical

namespace Ical
open Spec

/-- a text that is no calendar, and one with a text after it -/
example : ¬ Opens (unfold c!"hello") ∧ @Calendar.fromStr Uni.ascii c!"hello" = some ⟨[], []⟩ ∧
    (@Calendar.fromStr Uni.ascii c!"BEGIN:VCALENDAR\r\nVERSION:2.0\r\nEND:VCALENDAR\r\n").map (fun c => c.props.length)
      = some 1 ∧
    (@Calendar.fromStr Uni.ascii c!"BEGIN:VCALENDAR\r\nVERSION:2.0\r\nEND:VCALENDAR\r\nhello").map
      (fun c => c.props.length) = some 0 := by
  refine ⟨?_, ?_, by decide +kernel, by decide +kernel⟩
  · rintro ⟨lead, b, rest, h1, ⟨bs, rfl⟩, h2⟩
    have hl : b.length = 6 := by simpa using congrArg List.length h2
    have : (unfold c!"hello").length = 5 := by decide +kernel
    have := congrArg List.length h1
    simp only [List.length_append] at this
    omega
  · apply @not_calendar_violated Uni.ascii
    rintro ⟨lead, b, rest, h1, ⟨bs, rfl⟩, h2⟩
    have hl : b.length = 6 := by simpa using congrArg List.length h2
    have : (unfold c!"hello").length = 5 := by decide +kernel
    have := congrArg List.length h1
    simp only [List.length_append] at this
    omega

end Ical

namespace Ical

open Nom Spec

/-! ### C73 -/

/-- **C73 (partial).** For a name that is not repeatable and occurs at most once, `find_prop` on the parsed component finds
what the component converted from it holds. -/
theorem find_prop_partial (c : PComp) (k : Str) (hk : k ∉ repeatable)
    (h1 : (c.props.filter (fun p => p.name == k)).length ≤ 1) :
    (c.findProp k).map PProp.toProperty = c.toCalComp.toOther.inner.props.get k := by
  rw [repeated_single c k hk]
  unfold PComp.findProp
  generalize c.props = l at h1
  rw [← List.head?_filter, ← List.head?_filter, List.filter_reverse]
  congr 1
  generalize l.filter (fun p => p.name == k) = m at h1
  match m, h1 with
  | [], _ => rfl
  | [_], _ => rfl
  | _ :: _ :: _, h => simp at h

/-- **C73 (partial).** For a name that is not repeatable `find_prop` agrees with the converted component if and
only if the first and the last property of that name are converted to the same. -/
theorem find_prop_iff_partial (c : PComp) (k : Str) (hk : k ∉ repeatable) :
    (c.findProp k).map PProp.toProperty = c.toCalComp.toOther.inner.props.get k ↔
      (c.props.filter (fun p => p.name == k)).head?.map PProp.toProperty =
        (c.props.filter (fun p => p.name == k)).getLast?.map PProp.toProperty := by
  rw [repeated_single c k hk]
  unfold PComp.findProp
  rw [← List.head?_filter, ← List.head?_filter, List.filter_reverse, List.head?_reverse]

/-- **C73 (violated).** With two summaries `find_prop` finds the first and the component holds the last. -/
theorem find_prop_violated :
    let c := PComp.mk c!"VEVENT" [⟨c!"SUMMARY", c!"a", []⟩, ⟨c!"SUMMARY", c!"b", []⟩] []
    (c.findProp c!"SUMMARY").map PProp.toProperty = some ⟨c!"SUMMARY", c!"a", []⟩ ∧
    c.toCalComp.toOther.inner.props.get c!"SUMMARY" = some ⟨c!"SUMMARY", c!"b", []⟩ := by
  decide +kernel

/-- the hypotheses hold for a component with several properties -/
example : let c := PComp.mk c!"VEVENT" [⟨c!"UID", c!"a", []⟩, ⟨c!"SUMMARY", c!"b", [⟨c!"X", none⟩]⟩, ⟨c!"COMMENT", c!"c", []⟩] []
    (c.props.filter (fun p => p.name == c!"SUMMARY")).length ≤ 1 ∧ c!"SUMMARY" ∉ repeatable ∧
    (c.findProp c!"SUMMARY").map PProp.toProperty = some ⟨c!"SUMMARY", c!"b", [(c!"X", [])]⟩ := by
  decide +kernel

end Ical
