import Verif.Props.Built

/-!
C60: writing finishes for every calendar that is plain ASCII or in which no property has many whitespace
characters; with that, the round trip needs no assumption about the writer.
-/

namespace Ical

open Nom Spec

namespace Spec

mutual
/-- A statement holds for all properties of a component, at any depth. -/
def AllProps (P : Property → Prop) : Other → Prop
  | .mk _ props multi comps => (∀ x ∈ props, P x.2) ∧ (∀ x ∈ multi, ∀ p ∈ x.2, P p) ∧ AllPropss P comps
/-- see `AllProps` -/
def AllPropss (P : Property → Prop) : List Other → Prop
  | [] => True
  | o :: l => AllProps P o ∧ AllPropss P l
end

/-- A statement holds for all properties of a calendar and its components, at any depth. -/
def EveryProp (P : Property → Prop) (c : Calendar) : Prop :=
  (∀ p ∈ c.props, P p) ∧ ∀ x ∈ c.comps, AllProps P x.toOther

/-- All texts of a property are ASCII. -/
def AsciiProp (p : Property) : Prop :=
  (∀ c ∈ p.key, IsAscii c) ∧ (∀ c ∈ p.val, IsAscii c) ∧ ∀ x ∈ p.params, (∀ c ∈ x.1, IsAscii c) ∧ ∀ c ∈ x.2, IsAscii c

/-- The number of whitespace characters in the name and the parameters of a property. -/
def headSpaces (p : Property) : Nat :=
  p.key.countP isWhitespace + (p.params.map fun x => x.1.countP isWhitespace + x.2.countP isWhitespace).sum

/-- No 74 consecutive characters of a text include `n` or more whitespace characters. -/
def SparseText (n : Nat) (s : Str) : Prop :=
  ∀ a w b, s = a ++ w ++ b → w.length ≤ 74 → w.countP isWhitespace < n

/-- All characters of a property have at most `k` octets. -/
def Narrow (k : Nat) (p : Property) : Prop :=
  (∀ c ∈ p.key, c.utf8Size ≤ k) ∧ (∀ c ∈ p.val, c.utf8Size ≤ k) ∧
    ∀ x ∈ p.params, (∀ c ∈ x.1, c.utf8Size ≤ k) ∧ ∀ c ∈ x.2, c.utf8Size ≤ k

/-- A property of which folding is known to finish: ASCII, or with characters of at most `k` octets and less than
`74 / k` whitespace characters in any 74 consecutive characters, counting those in the name and the parameters
always. -/
def Foldable (p : Property) : Prop :=
  AsciiProp p ∨ ∃ k ∈ [2, 3, 4], Narrow k p ∧ SparseText (74 / k - headSpaces p) p.val

theorem sparseText_iff (n : Nat) (s : Str) :
    SparseText n s ↔ ∀ i < s.length + 1, ((s.drop i).take 74).countP isWhitespace < n := by
  constructor
  · intro h i _
    exact h (s.take i) _ ((s.drop i).drop 74) (by rw [List.append_assoc, List.take_append_drop, List.take_append_drop])
      (by rw [List.length_take]; omega)
  · rintro h a w b rfl hw
    have h1 := h a.length (by simp; omega)
    have h2 : ((a ++ w ++ b).drop a.length).take 74 = w ++ b.take (74 - w.length) := by
      rw [List.append_assoc, List.drop_left, List.take_append, List.take_of_length_le hw]
    rw [h2, List.countP_append] at h1
    omega

instance (n : Nat) (s : Str) : Decidable (SparseText n s) := decidable_of_iff _ (sparseText_iff n s).symm

instance (p : Property) : Decidable (Foldable p) := by unfold Foldable AsciiProp IsAscii Narrow; infer_instance

end Spec

theorem escape_chars {Q : Char → Prop} (hq : ∀ c, IsAscii c → Q c) {s : Str} (h : ∀ c ∈ s, Q c) :
    ∀ c ∈ escapeText s, Q c := by
  rw [escapeText_eq]
  intro c hc
  obtain ⟨d, hd, hc⟩ := List.mem_flatMap.1 hc
  have := h d hd
  unfold escChar at hc
  repeat' split at hc
  all_goals simp only [List.mem_cons, List.not_mem_nil, or_false] at hc
  all_goals (try rcases hc with rfl | rfl)
  all_goals first | (subst hc; exact this) | exact this | (exact hq _ (by unfold IsAscii; decide)) | skip

theorem escChar_spaces (c : Char) : (escChar c).countP isWhitespace ≤ if isWhitespace c then 1 else 0 := by
  unfold escChar
  repeat' split
  all_goals first | (subst_vars; decide) | simp_all

/-- what is left of the escaped form of a character without its beginning has no whitespace -/
theorem escChar_tail {c : Char} {u v : Str} (h : escChar c = u ++ v) (hu : u ≠ []) : v.countP isWhitespace = 0 := by
  unfold escChar at h
  cases u with
  | nil => exact absurd rfl hu
  | cons a u =>
    repeat' split at h
    all_goals simp only [List.cons_append, List.cons.injEq] at h
    all_goals obtain ⟨-, h⟩ := h
    all_goals cases u with
      | nil => rw [← show _ = v from h]; simp [isWhitespace]
      | cons d u =>
        have : v = [] := by simp_all
        subst this; rfl

/-- whitespace in the beginning of an escaped text -/
theorem escape_prefix (s : Str) : ∀ w b, s.flatMap escChar = w ++ b →
    ∃ w' b', s = w' ++ b' ∧ w'.length ≤ w.length ∧ w.countP isWhitespace ≤ w'.countP isWhitespace := by
  induction s with
  | nil =>
    intro w b h
    simp only [List.flatMap_nil, List.nil_eq, List.append_eq_nil_iff] at h
    obtain ⟨rfl, rfl⟩ := h
    exact ⟨[], [], rfl, Nat.le_refl _, Nat.le_refl _⟩
  | cons c s ih =>
    intro w b h
    rw [List.flatMap_cons] at h
    cases w with
    | nil => exact ⟨[], c :: s, rfl, Nat.le_refl _, Nat.le_refl _⟩
    | cons d w =>
      have hc := escChar_spaces c
      rcases List.append_eq_append_iff.1 h with ⟨t, h1, h2⟩ | ⟨t, h1, h2⟩
      · obtain ⟨w', b', rfl, e2, e3⟩ := ih t b h2
        refine ⟨c :: w', b', rfl, ?_, ?_⟩
        · have : 0 < (escChar c).length := by unfold escChar; repeat' split
                                              all_goals simp
          rw [h1, List.length_append, List.length_cons]
          omega
        · rw [h1, List.countP_append, List.countP_cons]
          omega
      · refine ⟨[c], s, rfl, by simp, ?_⟩
        rw [h1, List.countP_append] at hc
        simp only [List.countP_cons, List.countP_nil]
        simp only [List.countP_cons] at hc
        omega

/-- every window of an escaped text has at most the whitespace of some window of the text -/
theorem escape_window (s : Str) : ∀ a w b, s.flatMap escChar = a ++ w ++ b →
    ∃ a' w' b', s = a' ++ w' ++ b' ∧ w'.length ≤ w.length ∧ w.countP isWhitespace ≤ w'.countP isWhitespace := by
  induction s with
  | nil =>
    intro a w b h
    simp only [List.flatMap_nil, List.nil_eq, List.append_eq_nil_iff] at h
    obtain ⟨⟨rfl, rfl⟩, rfl⟩ := h
    exact ⟨[], [], [], rfl, Nat.le_refl _, Nat.le_refl _⟩
  | cons c s ih =>
    intro a w b h
    cases a with
    | nil =>
      obtain ⟨w', b', h1, h2, h3⟩ := escape_prefix (c :: s) w b h
      exact ⟨[], w', b', h1, h2, h3⟩
    | cons d a =>
      rw [List.flatMap_cons, List.append_assoc] at h
      rcases List.append_eq_append_iff.1 h with ⟨t, h1, h2⟩ | ⟨t, h1, h2⟩
      · obtain ⟨a', w', b', rfl, e2, e3⟩ := ih t w b (by rw [h2, List.append_assoc])
        exact ⟨c :: a', w', b', by simp, e2, e3⟩
      · have ht := escChar_tail h1 (by simp)
        rcases List.append_eq_append_iff.1 h2 with ⟨u, h3, h4⟩ | ⟨u, h3, h4⟩
        · refine ⟨[], [], c :: s, rfl, by simp, ?_⟩
          rw [h3, List.countP_append] at ht
          omega
        · obtain ⟨w', b', e1, e2, e3⟩ := escape_prefix s u b h4
          refine ⟨[c], w', b', by simp [e1], ?_, ?_⟩
          · rw [h3, List.length_append]; omega
          · rw [h3, List.countP_append]; omega

theorem quote_spaces (s : Str) : (quoteIfContainsColon s).countP isWhitespace = s.countP isWhitespace := by
  unfold quoteIfContainsColon
  split
  · simp [List.countP_append, isWhitespace]
  · rfl

theorem params_spaces (l : List (Str × Str)) : (paramsText l).countP isWhitespace =
    (l.map fun x => x.1.countP isWhitespace + x.2.countP isWhitespace).sum := by
  induction l with
  | nil => rfl
  | cons x l ih =>
    obtain ⟨k, v⟩ := x
    simp only [paramsText, List.countP_append, quote_spaces, ih, List.map_cons, List.sum_cons]
    have h1 : [';'].countP isWhitespace = 0 := by decide
    have h2 : ['='].countP isWhitespace = 0 := by decide
    omega

theorem params_chars {Q : Char → Prop} (hq : ∀ c, IsAscii c → Q c) (l : List (Str × Str))
    (h : ∀ x ∈ l, (∀ c ∈ x.1, Q c) ∧ ∀ c ∈ x.2, Q c) : ∀ c ∈ paramsText l, Q c := by
  induction l with
  | nil => simp [paramsText]
  | cons x l ih =>
    obtain ⟨k, v⟩ := x
    have h1 := h (k, v) (by simp)
    intro c hc
    simp only [paramsText, List.mem_append, List.mem_singleton] at hc
    rcases hc with (((rfl | hc) | rfl) | hc) | hc
    · exact hq _ (by unfold IsAscii; decide)
    · exact h1.1 c hc
    · exact hq _ (by unfold IsAscii; decide)
    · unfold quoteIfContainsColon at hc
      split at hc
      · simp only [List.mem_append, List.mem_singleton] at hc
        rcases hc with (rfl | hc) | rfl
        · exact hq _ (by unfold IsAscii; decide)
        · exact h1.2 c hc
        · exact hq _ (by unfold IsAscii; decide)
      · exact h1.2 c hc
    · exact ih (fun y hy => h y (by simp [hy])) c hc

variable [Uni]

theorem line_chars {Q : Char → Prop} (hq : ∀ c, IsAscii c → Q c) {p : Property} (h1 : ∀ c ∈ p.key, Q c)
    (h2 : ∀ c ∈ p.val, Q c) (h3 : ∀ x ∈ p.params, (∀ c ∈ x.1, Q c) ∧ ∀ c ∈ x.2, Q c) {w : World} (hw : World.Ok w) :
    ∀ c ∈ p.line w, Q c := by
  intro c hc
  unfold Property.line at hc
  simp only [List.mem_append, List.mem_singleton] at hc
  rcases hc with ((hc | hc) | rfl) | hc
  · exact h1 c hc
  · exact params_chars hq _ (fun x hx => h3 x ((hw.order [] p.params).mem_iff.1 hx)) c hc
  · exact hq _ (by unfold IsAscii; decide)
  · by_cases ht : IsText p
    · rw [valueText_of_text ((isText_iff p).1 ht)] at hc
      exact escape_chars hq h2 c hc
    · rw [valueText_of_not (fun hc => ht ((isText_iff p).2 hc))] at hc
      exact h2 c hc

theorem valueText_sparse {p : Property} {n : Nat} (h : SparseText n p.val) : SparseText n p.valueText := by
  by_cases ht : IsText p
  · rw [valueText_of_text ((isText_iff p).1 ht), escapeText_eq]
    intro a w b e hl
    obtain ⟨a', w', b', e1, e2, e3⟩ := escape_window _ a w b e
    have := h a' w' b' e1 (by omega)
    omega
  · rw [valueText_of_not (fun hc => ht ((isText_iff p).2 hc))]
    exact h

omit [Uni] in
/-- a window of a text and another one after it -/
theorem window_append {x y a w b : Str} {n : Nat} (h : x ++ y = a ++ w ++ b) (hw : w.length ≤ 74)
    (hy : SparseText n y) : w.countP isWhitespace < x.countP isWhitespace + n := by
  rw [List.append_assoc] at h
  have hn : ([] : Str).countP isWhitespace < n := hy [] [] y (by simp) (by simp)
  simp only [List.countP_nil] at hn
  rcases List.append_eq_append_iff.1 h with ⟨t, h1, h2⟩ | ⟨t, h1, h2⟩
  · have := hy t w b (by rw [h2, List.append_assoc]) hw
    omega
  · rcases List.append_eq_append_iff.1 h2 with ⟨u, h3, h4⟩ | ⟨u, h3, h4⟩
    · rw [h1, h3]
      simp only [List.countP_append]
      omega
    · have := hy [] u b (by simpa using h4) (by rw [h3, List.length_append] at hw; omega)
      rw [h1, h3]
      simp only [List.countP_append]
      omega

theorem foldable_writes {p : Property} (hp : Foldable p) {w : World} (hw : World.Ok w) : ∃ out, p.fmtWrite w = .ok out := by
  have hperm := hw.order [] p.params
  have : ∃ s, foldLine (p.line w) = .ok s := by
    rcases hp with ⟨h1, h2, h3⟩ | ⟨k, hk, ⟨h1, h2, h3⟩, hs⟩
    · exact fold_finishes_ascii_partial _ (line_chars (fun _ h => h) h1 h2 h3 hw)
    · have hk1 : 0 < k := by rcases List.mem_cons.1 hk with rfl | hk <;> simp_all <;> omega
      refine fold_finishes_width_partial k _ hk1
        (line_chars (fun c hc => by rw [utf8Size_ascii hc]; exact hk1) h1 h2 h3 hw) ?_
      intro a x b hl hx
      unfold Property.line at hl
      have h := window_append hl hx (valueText_sparse hs)
      simp only [List.countP_append, params_spaces] at h
      have e1 : [':'].countP isWhitespace = 0 := by decide
      have e3 := (hperm.map (fun x => x.1.countP isWhitespace + x.2.countP isWhitespace)).sum_nat
      have hn : ([] : Str).countP isWhitespace < 74 / k - headSpaces p := hs [] [] p.val (by simp) (by simp)
      unfold headSpaces at h hn
      omega
  obtain ⟨s, hs⟩ := this
  exact ⟨s ++ crlf, by unfold Property.fmtWrite; rw [hs]⟩

theorem props_write {l : List Property} (hl : ∀ p ∈ l, Foldable p) {w : World} (hw : World.Ok w) :
    ∃ out, fmtProps l w = .ok out := by
  induction l generalizing w with
  | nil => exact ⟨_, rfl⟩
  | cons p l ih =>
    obtain ⟨a, ha⟩ := foldable_writes (hl p (by simp)) (worldOk_sub hw 0)
    obtain ⟨b, hb⟩ := ih (fun q hq => hl q (by simp [hq])) (worldOk_sub hw 1)
    exact ⟨a ++ b, by unfold fmtProps; rw [ha, hb]⟩

mutual
theorem other_writes (o : Other) (ho : AllProps Foldable o) {w : World} (hw : World.Ok w) : ∃ out, o.fmtWrite w = .ok out := by
  match o, ho with
  | .mk name props multi comps, ho =>
    obtain ⟨hp, hm, hc⟩ := ho
    obtain ⟨ps, hps⟩ := props_write (l := props.values) (by
      intro p hp'
      obtain ⟨x, hx, rfl⟩ := List.mem_map.1 hp'
      exact hp x hx) (worldOk_sub hw 0)
    obtain ⟨ms, hms⟩ := props_write (l := multi.values.flatten) (by
      intro p hp'
      obtain ⟨g, hg, hpg⟩ := List.mem_flatten.1 hp'
      obtain ⟨x, hx, rfl⟩ := List.mem_map.1 hg
      exact hm x hx p hpg) (worldOk_sub hw 1)
    obtain ⟨cs, hcs⟩ := others_write comps hc (worldOk_sub hw 2)
    unfold Other.fmtWrite
    simp only [hps, hms, hcs]
    exact ⟨_, rfl⟩
theorem others_write (l : List Other) (hl : AllPropss Foldable l) {w : World} (hw : World.Ok w) :
    ∃ out, fmtOthers l w = .ok out := by
  match l, hl with
  | [], _ => exact ⟨[], by simp [fmtOthers]⟩
  | o :: l, hl =>
    obtain ⟨a, ha⟩ := other_writes o hl.1 (worldOk_sub hw 0)
    obtain ⟨b, hb⟩ := others_write l hl.2 (worldOk_sub hw 1)
    exact ⟨a ++ b, by unfold fmtOthers; rw [ha, hb]⟩
end

theorem comps_write (l : List CalComp) (hl : ∀ x ∈ l, AllProps Foldable x.toOther) {w : World} (hw : World.Ok w) :
    ∃ out, fmtComps l w = .ok out := by
  induction l generalizing w with
  | nil => exact ⟨_, rfl⟩
  | cons x l ih =>
    obtain ⟨a, ha⟩ := other_writes _ (hl x (by simp)) (worldOk_sub hw 0)
    obtain ⟨b, hb⟩ := ih (fun y hy => hl y (by simp [hy])) (worldOk_sub hw 1)
    exact ⟨a ++ b, by unfold fmtComps; rw [calComp_fmtWrite, ha, hb]⟩

/-- **C60.** Serializing a calendar finishes, without panic, if every property is ASCII or, with characters of at most
`k` octets, has less than `74 / k` whitespace characters in any 74 consecutive characters. -/
theorem writing_finishes_partial (c : Calendar) (hc : EveryProp Foldable c) (w : World) (hw : World.Ok w) :
    ∃ out, c.fmtWrite w = .ok out := by
  obtain ⟨ps, hps⟩ := props_write hc.1 (worldOk_sub hw 0)
  obtain ⟨cs, hcs⟩ := comps_write c.comps hc.2 (worldOk_sub hw 1)
  unfold Calendar.fmtWrite
  simp only [hps, hcs]
  exact ⟨_, rfl⟩

/-- **C25, C26, C60.** Such a calendar, if well-formed, is written, and reading gives it back with DTSTAMP and
UID generated where they were missing. -/
theorem total_roundtrip (c : Calendar) (hf : EveryProp Foldable c) (hc : CalendarOk c) (hs : CalendarSafe c)
    (w : World) (hw : World.Ok w) :
    ∃ out c', c.fmtWrite w = .ok out ∧ Calendar.fromStr out = some c' ∧ CalStamped c c' := by
  obtain ⟨out, h⟩ := writing_finishes_partial c hf w hw
  obtain ⟨c', h1, h2⟩ := missing_stamps c hc hs w hw out h
  exact ⟨out, c', h, h1, h2⟩

end Ical

namespace Ical

open Nom Spec

/-- **C60, what is missing.** There are two texts such that serializing an event with the first as its summary
never finishes and serializing one with the second panics. -/
theorem writing_finishes_violated : ∃ s t : Str, ∀ w : World, World.Ok w →
    @Calendar.fmtWrite Uni.ascii (Calendar.empty.push (.event (Component.summary Event.new s))) w = .error .hang ∧
    @Calendar.fmtWrite Uni.ascii (Calendar.empty.push (.event (Component.summary Event.new t))) w = .error .panic := by
  refine ⟨(List.replicate 60 [Char.ofNat 0xA0, 'é']).flatten,
    List.replicate 22 'a' ++ List.replicate 120 (Char.ofNat 0xA0), fun w hw => ?_⟩
  have key : ∀ v e, foldLine (c!"SUMMARY:" ++ @escapeText v) = .error e →
      @Calendar.fmtWrite Uni.ascii (Calendar.empty.push (.event (Component.summary Event.new v))) w = .error e := by
    intro v e h
    have hp : ∀ w' : World, World.Ok w' → @Property.fmtWrite Uni.ascii ⟨c!"SUMMARY", v, []⟩ w' = .error e := by
      intro w' hw'
      unfold Property.fmtWrite Property.line
      rw [List.perm_nil.1 (hw'.order [] [])]
      have : @Property.valueText Uni.ascii ⟨c!"SUMMARY", v, []⟩ = escapeText v := rfl
      rw [this]
      simp only [paramsText, List.append_nil]
      have h' : foldLine (c!"SUMMARY" ++ [':'] ++ escapeText v) = .error e := h
      rw [h']
    have ho : @CalComp.fmtWrite Uni.ascii (.event (Component.summary Event.new v)) ((w.sub 1).sub 0) = .error e := by
      show @Other.fmtWrite Uni.ascii (.mk c!"VEVENT" [(c!"SUMMARY", ⟨c!"SUMMARY", v, []⟩)] [] []) ((w.sub 1).sub 0) = .error e
      unfold Other.fmtWrite
      simp only [BMap.values, List.map_cons, List.map_nil, fmtProps, hp _ (worldOk_sub (worldOk_sub (worldOk_sub (worldOk_sub hw 1) 0) 0) 0)]
    simp only [Calendar.fmtWrite, Calendar.push, Calendar.empty, fmtProps, List.nil_append, fmtComps, ho]
  exact ⟨key _ _ (by decide +kernel), key _ _ (by decide +kernel)⟩

/-- The theorem applies to a long text in Greek with words of two letters and to any ASCII text. -/
example : Foldable ⟨c!"SUMMARY", (List.replicate 40 c!"αβ ").flatten, [(c!"LANGUAGE", c!"el")]⟩ ∧
    Foldable ⟨c!"SUMMARY", (List.replicate 100 c!"a b ").flatten, [(c!"LANGUAGE", c!"en")]⟩ := by
  decide +kernel

end Ical
