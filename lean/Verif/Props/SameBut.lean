import Verif.Spec.SameBut
import Verif.Props.Octets

/-!
Documents and calendars that are the same except for the characters of the values: what is needed for C139 and C140.
-/

namespace Ical

open Nom Spec

/-! ### Documents -/

/-- What is needed of a relation of texts, of names that are kept, and of values of parameters. -/
structure Replaces (R R' : Str → Str → Prop) (K : Str → Prop) (T : Str → Str → Prop) : Prop where
  /-- names and the characters between values are kept -/
  join : ∀ {a b}, K a → K b → K (a ++ b)
  /-- delimiters -/
  delim : K [':'] ∧ K [';'] ∧ K ['='] ∧ K ['"'] ∧ K []
  /-- line breaks and keywords -/
  breaks : ∀ {s}, (∀ c ∈ s, c = '\r' ∨ c = '\n') → K s
  keyword : ∀ {s}, s.map lowerAscii = c!"begin:" ∨ s.map lowerAscii = c!"end:" → K s
  /-- parts of a text are related to parts -/
  append : ∀ {a b t}, R (a ++ b) t → ∃ a' b', t = a' ++ b' ∧ R a a' ∧ R b b'
  /-- they stay the same -/
  kept : ∀ {a t}, K a → R a t → t = a
  /-- no value of a parameter becomes empty -/
  nil : ∀ {s t}, R s t → ∀ {k}, T k s → (t = [] ↔ s = [])
  /-- no delimiter appears -/
  mem : ∀ {s t}, R s t → ∀ {x}, x ∈ ['"', ':', ';', '\r', '\n'] → x ∈ t → x ∈ s
  /-- no quotation mark appears at the start -/
  quote : ∀ {s t}, R s t → ∀ {k}, T k s → ['"'] <+: t → ['"'] <+: s
  /-- no line break appears -/
  crlf : ∀ {s t}, R s t → ['\r', '\n'] <:+: t → ['\r', '\n'] <:+: s
  /-- the empty text is kept -/
  empty : R [] []
  /-- reading it as TEXT -/
  read : ∀ {s t}, R s t → R' (unescaped s) (unescaped t)
  /-- reading it as it is -/
  raw : ∀ {s t}, R s t → R' s t
  /-- the type a parameter names -/
  type : ∀ {s t}, R s t → T c!"VALUE" s → ∀ k, IsTextFor k (some s) ↔ IsTextFor k (some t)

theorem Replaces.front {R R' : Str → Str → Prop} {K : Str → Prop} {T : Str → Str → Prop} (hR : Replaces R R' K T) {a b t : Str} (ha : K a)
    (h : R (a ++ b) t) : ∃ b', t = a ++ b' ∧ R b b' := by
  obtain ⟨a', b', rfl, h1, h2⟩ := hR.append h
  rw [hR.kept ha h1]
  exact ⟨b', rfl, h2⟩


theorem ascii_append {a b : Str} (ha : Ascii a) (hb : Ascii b) : Ascii (a ++ b) := by
  intro x hx
  rcases List.mem_append.1 hx with hx | hx
  · exact ha x hx
  · exact hb x hx

theorem ascii_breaks {s : Str} (h : ∀ c ∈ s, c = '\r' ∨ c = '\n') : Ascii s := by
  intro x hx
  rcases h x hx with rfl | rfl <;> decide

theorem ascii_keyword {b t : Str} (h : b.map lowerAscii = t) (ht : Ascii t) : Ascii b := by
  intro x hx
  have := ht (lowerAscii x) (by rw [← h]; exact List.mem_map.2 ⟨x, hx, rfl⟩)
  unfold lowerAscii at this
  split at this
  · rename_i hr
    simp only [Bool.and_eq_true, decide_eq_true_eq] at hr
    omega
  · exact this

theorem ascii_keywords {s : Str} (h : s.map lowerAscii = c!"begin:" ∨ s.map lowerAscii = c!"end:") : Ascii s := by
  rcases h with h | h
  · exact ascii_keyword h (by decide)
  · exact ascii_keyword h (by decide)

theorem blank_breaks {s : Str} (h : Blank s) : ∀ c ∈ s, c = '\r' ∨ c = '\n' := by
  obtain ⟨bs, rfl⟩ := h
  intro x hx
  obtain ⟨t, ht, hx⟩ := List.mem_flatten.1 hx
  obtain ⟨b, -, rfl⟩ := List.mem_map.1 ht
  cases b <;> simp [Break.text] at hx <;> simp [hx]

section
variable {R R' : Str → Str → Prop} {K : Str → Prop} {T : Str → Str → Prop} (hR : Replaces R R' K T)
include hR

theorem Replaces.lines (br : Break) {s : Str} (h : Blank s) : K (br.text ++ s) :=
  hR.join (hR.breaks (by cases br <;> simp [Break.text])) (hR.breaks (blank_breaks h))

theorem same_params {ps : List DParam} (hk : ∀ p ∈ ps, K p.key ∧ T p.key p.value) {r t : Str}
    (h : R ((ps.map DParam.text).flatten ++ r) t) :
    ∃ qs r', OneByOne (SameButParam R) ps qs ∧ t = (qs.map DParam.text).flatten ++ r' ∧ R r r' := by
  induction ps generalizing t with
  | nil => exact ⟨[], t, trivial, rfl, h⟩
  | cons p ps ih =>
    obtain ⟨hp, hT⟩ := hk p (by simp)
    obtain ⟨hcol, hsem, heq, hquo, -⟩ := hR.delim
    rw [List.map_cons, List.flatten_cons, List.append_assoc] at h
    suffices H : ∃ q u, SameButParam R p q ∧ t = q.text ++ u ∧ R ((ps.map DParam.text).flatten ++ r) u by
      obtain ⟨q, u, h1, rfl, h2⟩ := H
      obtain ⟨qs, r', h3, rfl, h4⟩ := ih (fun x hx => hk x (by simp [hx])) h2
      exact ⟨q :: qs, r', ⟨h1, h3⟩, by simp, h4⟩
    obtain ⟨k, v⟩ := p
    rcases v with _ | ⟨_ | _, v⟩ <;> simp only [DParam.text, List.append_assoc] at h
    · obtain ⟨t1, rfl, h1⟩ := hR.front hsem h
      obtain ⟨t2, rfl, h2⟩ := hR.front hp h1
      exact ⟨⟨k, none⟩, t2, ⟨rfl, Iff.rfl, fun _ _ => Iff.rfl, trivial⟩, by simp [DParam.text], h2⟩
    · obtain ⟨t1, rfl, h1⟩ := hR.front hsem h
      obtain ⟨t2, rfl, h2⟩ := hR.front hp h1
      obtain ⟨t3, rfl, h3⟩ := hR.front heq h2
      obtain ⟨v', t4, rfl, h4, h5⟩ := hR.append h3
      exact ⟨⟨k, some (false, v')⟩, t4, ⟨rfl, hR.nil h4 hT, fun e => hR.type h4 (e ▸ hT), rfl, h4⟩, by simp [DParam.text], h5⟩
    · obtain ⟨t1, rfl, h1⟩ := hR.front hsem h
      obtain ⟨t2, rfl, h2⟩ := hR.front hp h1
      obtain ⟨t3, rfl, h3⟩ := hR.front heq h2
      obtain ⟨t4, rfl, h4⟩ := hR.front hquo h3
      obtain ⟨v', t5, rfl, h5, h6⟩ := hR.append h4
      obtain ⟨t6, rfl, h7⟩ := hR.front hquo h6
      exact ⟨⟨k, some (true, v')⟩, t6, ⟨rfl, hR.nil h5 hT, fun e => hR.type h5 (e ▸ hT), rfl, h5⟩, by simp [DParam.text], h7⟩

end

theorem oneByOne_mem {α β : Type} {R : α → β → Prop} {l : List α} {m : List β} (h : OneByOne R l m) {b : β} (hb : b ∈ m) :
    ∃ a ∈ l, R a b := by
  induction l generalizing m with
  | nil =>
    cases m with
    | nil => cases hb
    | cons => cases h
  | cons a l ih =>
    cases m with
    | nil => cases hb
    | cons c m =>
      rcases List.mem_cons.1 hb with rfl | hb
      · exact ⟨a, by simp, h.1⟩
      · obtain ⟨x, hx, hr⟩ := ih h.2 hb
        exact ⟨x, by simp [hx], hr⟩

theorem replaces_valOk {R R' : Str → Str → Prop} {K : Str → Prop} {T : Str → Str → Prop} (hR : Replaces R R' K T) {br : Break} {v v' : Str} (h : R v v')
    (hv : ValOk br v) : ValOk br v' := by
  cases br
  · exact fun hi => hv (hR.crlf h hi)
  · exact fun hi => hv (hR.mem h (by simp) hi)

section
variable [Uni]
variable {R R' : Str → Str → Prop} {K : Str → Prop} {T : Str → Str → Prop} (hR : Replaces R R' K T)
include hR

theorem same_paramOk {p q : DParam} (h : SameButParam R p q) (hT : T p.key p.value) (hp : p.Ok) : q.Ok := by
  obtain ⟨k, v⟩ := p
  obtain ⟨k', v'⟩ := q
  obtain ⟨h1, -, -, h2⟩ := h
  obtain ⟨h3, h4⟩ := hp
  simp only at h1 h2 h3 h4
  subst h1
  refine ⟨h3, ?_⟩
  rcases v with _ | ⟨b, v⟩ <;> rcases v' with _ | ⟨b', v'⟩ <;> simp only at h2 ⊢
  obtain ⟨rfl, h2⟩ := h2
  cases b
  · simp only at h4 ⊢
    exact ⟨fun hi => h4.1 (hR.mem h2 (by simp) hi), fun hi => h4.2.1 (hR.mem h2 (by simp) hi),
      fun hi => h4.2.2 (hR.quote h2 hT hi)⟩
  · simp only at h4 ⊢
    exact ⟨fun e => h4.1 ((hR.nil h2 hT).1 e), fun hi => h4.2 (hR.mem h2 (by simp) hi)⟩

mutual
theorem spaced_same {br : Break} : (i : Item) → i.Ok br → i.NamesAre K T → {s t : Str} → Spaced br i s → R s t →
    ∃ i', SameButItem R i i' ∧ i'.Ok br ∧ Spaced br i' t
  | .prop k ps v, h, ha, s, t, hs, hd => by
    simp only [Spaced] at hs
    obtain ⟨bl, hb, rfl⟩ := hs
    simp only [Item.Ok, Item.NamesAre] at h ha
    simp only [Item.text, List.append_assoc] at hd
    obtain ⟨t1, rfl, h1⟩ := hR.front ha.1 hd
    obtain ⟨qs, t2, h2, rfl, h3⟩ := same_params hR ha.2 h1
    obtain ⟨t3, rfl, h4⟩ := hR.front hR.delim.1 h3
    obtain ⟨v', t4, rfl, h5, h6⟩ := hR.append h4
    obtain rfl := hR.kept (hR.lines br hb) h6
    refine ⟨.prop k qs v', ⟨rfl, h2, h5⟩, ⟨h.1, fun q hq => ?_, replaces_valOk hR h5 h.2.2⟩, bl, hb, ?_⟩
    · obtain ⟨p, hp, hpq⟩ := oneByOne_mem h2 hq
      exact same_paramOk hR hpq (ha.2 p hp).2 (h.2.1 p hp)
    · simp [Item.text]
  | .comp b e n l, h, ha, s, t, hs, hd => by
    simp only [Spaced] at hs
    obtain ⟨bl, body, bl', hb, hb', hbody, rfl⟩ := hs
    simp only [Item.Ok, Item.NamesAre] at h ha
    obtain ⟨t1, rfl, h1⟩ := hR.front (hR.keyword (.inl h.1)) hd
    obtain ⟨t2, rfl, h2⟩ := hR.front ha.1 h1
    obtain ⟨t3, rfl, h3⟩ := hR.front (hR.lines br hb) h2
    obtain ⟨body', t4, rfl, h4, h5⟩ := hR.append h3
    obtain rfl := hR.kept (hR.join (hR.keyword (.inr h.2.1)) (hR.join ha.1 (hR.lines br hb'))) h5
    obtain ⟨l', h6, h7, h8⟩ := spacedAll_same l h.2.2.2 ha.2 hbody h4
    exact ⟨.comp b e n l', ⟨rfl, rfl, rfl, h6⟩, ⟨h.1, h.2.1, h.2.2.1, h7⟩, bl, body', bl', hb, hb', h8, rfl⟩
theorem spacedAll_same {br : Break} : (l : List Item) → ItemsOk br l → ItemsNamesAre K T l → {s t : Str} → SpacedAll br l s →
    R s t → ∃ l', SameButItems R l l' ∧ ItemsOk br l' ∧ SpacedAll br l' t
  | [], _, _, s, t, hs, hd => by
    simp only [SpacedAll] at hs
    subst hs
    obtain rfl := hR.kept hR.delim.2.2.2.2 hd
    exact ⟨[], trivial, trivial, rfl⟩
  | i :: l, h, ha, s, t, hs, hd => by
    simp only [SpacedAll] at hs
    obtain ⟨s1, s2, h1, h2, rfl⟩ := hs
    obtain ⟨t1, t2, rfl, h3, h4⟩ := hR.append hd
    obtain ⟨i', h5, h6, h7⟩ := spaced_same i h.1 ha.1 h1 h3
    obtain ⟨l', h8, h9, h10⟩ := spacedAll_same l h.2 ha.2 h2 h4
    exact ⟨i' :: l', ⟨h5, h8⟩, ⟨h6, h9⟩, t1, t2, h7, h10, rfl⟩
end

/-- a file whose text is replaced presents the document with replaced values -/
theorem presents_same {br : Break} {b e n : Str} {l : List Item} (h : (Item.comp b e n l).Ok br)
    (ha : (Item.comp b e n l).NamesAre K T) {file t : Str} (hp : Presents br (.comp b e n l) file)
    (h1 : R (unfold file) (unfold t)) :
    ∃ l', SameButItems R l l' ∧ (Item.comp b e n l').Ok br ∧ Presents br (.comp b e n l') t := by
  simp only [Presents] at hp
  obtain ⟨lead, bl, body, tail, hl, hb, htl, hbody, hcr, hfold⟩ := hp
  have hu := foldedForm_unfold hfold
  rw [hu] at h1
  have hcr' : br = .lf → '\r' ∉ unfold t := fun e hc => hcr e (hR.mem h1 (by simp) hc)
  simp only [Item.Ok, Item.NamesAre] at h ha
  obtain ⟨t1, e1, h2⟩ := hR.front (hR.breaks (blank_breaks hl)) h1
  obtain ⟨t2, rfl, h3⟩ := hR.front (hR.keyword (.inl h.1)) h2
  obtain ⟨t3, rfl, h4⟩ := hR.front ha.1 h3
  obtain ⟨t4, rfl, h5⟩ := hR.front (hR.lines br hb) h4
  obtain ⟨body', t5, rfl, h6, h7⟩ := hR.append h5
  obtain rfl := hR.kept (hR.join (hR.keyword (.inr h.2.1)) (hR.join ha.1 (hR.breaks (blank_breaks htl)))) h7
  obtain ⟨l', h8, h9, h10⟩ := spacedAll_same hR l h.2.2.2 ha.2 hbody h6
  refine ⟨l', h8, ⟨h.1, h.2.1, h.2.2.1, h9⟩, lead, bl, body', tail, hl, hb, htl, h10, ?_, ?_⟩
  · rw [← e1]; exact hcr'
  · rw [← e1, unfold_eq_spec]; exact foldedForm_self t

end

mutual
theorem sameButItem_mono {R R' : Str → Str → Prop} (h : ∀ s t, R s t → R' s t) : {i i' : Item} → SameButItem R i i' → SameButItem R' i i'
  | .prop _ ps _, .prop _ ps' _, hi => by
    refine ⟨hi.1, ?_, h _ _ hi.2.2⟩
    have hps := hi.2.1
    clear hi
    induction ps generalizing ps' with
    | nil =>
      cases ps' with
      | nil => trivial
      | cons => cases hps
    | cons p ps ih =>
      cases ps' with
      | nil => cases hps
      | cons q ps' =>
        refine ⟨⟨hps.1.1, hps.1.2.1, hps.1.2.2.1, ?_⟩, ih _ hps.2⟩
        have := hps.1.2.2.2
        rcases hp : p.val with _ | ⟨b, v⟩ <;> rcases hq : q.val with _ | ⟨b', v'⟩ <;> rw [hp, hq] at this <;> simp only at this ⊢
        exact ⟨this.1, h _ _ this.2⟩
  | .comp _ _ _ _, .comp _ _ _ _, hi => ⟨hi.1, hi.2.1, hi.2.2.1, sameButItems_mono h hi.2.2.2⟩
theorem sameButItems_mono {R R' : Str → Str → Prop} (h : ∀ s t, R s t → R' s t) : {l l' : List Item} → SameButItems R l l' →
    SameButItems R' l l'
  | [], [], _ => trivial
  | _ :: _, _ :: _, hl => ⟨sameButItem_mono h hl.1, sameButItems_mono h hl.2⟩
end

/-! ### Calendars -/

section
variable {α β : Type}

theorem oneByOne_map {γ δ : Type} {R : α → β → Prop} {S : γ → δ → Prop} {f : α → γ} {g : β → δ} (hfg : ∀ a b, R a b → S (f a) (g b))
    {l : List α} {m : List β} (h : OneByOne R l m) : OneByOne S (l.map f) (m.map g) := by
  induction l generalizing m with
  | nil =>
    cases m with
    | nil => trivial
    | cons => cases h
  | cons a l ih =>
    cases m with
    | nil => cases h
    | cons b m => exact ⟨hfg a b h.1, ih h.2⟩

theorem oneByOne_filter {R : α → β → Prop} {f : α → Bool} {g : β → Bool} (hfg : ∀ a b, R a b → f a = g b)
    {l : List α} {m : List β} (h : OneByOne R l m) : OneByOne R (l.filter f) (m.filter g) := by
  induction l generalizing m with
  | nil =>
    cases m with
    | nil => trivial
    | cons => cases h
  | cons a l ih =>
    cases m with
    | nil => cases h
    | cons b m =>
      rw [List.filter_cons, List.filter_cons, hfg a b h.1]
      split
      · exact ⟨h.1, ih h.2⟩
      · exact ih h.2

theorem oneByOne_append {R : α → β → Prop} {l l' : List α} {m m' : List β} (h : OneByOne R l m) (h' : OneByOne R l' m') :
    OneByOne R (l ++ l') (m ++ m') := by
  induction l generalizing m with
  | nil =>
    cases m with
    | nil => exact h'
    | cons => cases h
  | cons a l ih =>
    cases m with
    | nil => cases h
    | cons b m => exact ⟨h.1, ih h.2⟩

theorem oneByOne_find {R : α → β → Prop} {f : α → Bool} {g : β → Bool} (hfg : ∀ a b, R a b → f a = g b)
    {l : List α} {m : List β} (h : OneByOne R l m) :
    (l.find? f = none ∧ m.find? g = none) ∨ ∃ a b, l.find? f = some a ∧ m.find? g = some b ∧ R a b := by
  induction l generalizing m with
  | nil =>
    cases m with
    | nil => exact .inl ⟨rfl, rfl⟩
    | cons => cases h
  | cons a l ih =>
    cases m with
    | nil => cases h
    | cons b m =>
      rw [List.find?_cons, List.find?_cons, ← hfg a b h.1]
      split
      · exact .inr ⟨a, b, rfl, rfl, h.1⟩
      · exact ih h.2

/-- the same keys, and values that are related -/
def SameKeys (R : α → β → Prop) : BMap α → BMap β → Prop := OneByOne (fun x y => x.1 = y.1 ∧ R x.2 y.2)

theorem sameKeys_insert {R : α → β → Prop} {m : BMap α} {m' : BMap β} (h : SameKeys R m m') (k : Str) {v : α} {v' : β} (hv : R v v') :
    SameKeys R (m.insert k v) (m'.insert k v') := by
  induction m generalizing m' with
  | nil =>
    cases m' with
    | nil => exact ⟨⟨rfl, hv⟩, trivial⟩
    | cons => cases h
  | cons x m ih =>
    cases m' with
    | nil => cases h
    | cons y m' =>
      obtain ⟨k1, x⟩ := x
      obtain ⟨k2, y⟩ := y
      obtain ⟨⟨h1, h2⟩, h3⟩ := h
      simp only at h1 h2
      subst h1
      unfold BMap.insert
      cases strCmp k k1
      · exact ⟨⟨rfl, hv⟩, ⟨rfl, h2⟩, h3⟩
      · exact ⟨⟨rfl, hv⟩, h3⟩
      · exact ⟨⟨rfl, h2⟩, ih h3⟩

theorem sameKeys_get {R : α → β → Prop} {m : BMap α} {m' : BMap β} (h : SameKeys R m m') (k : Str) :
    (m.get k = none ∧ m'.get k = none) ∨ ∃ v v', m.get k = some v ∧ m'.get k = some v' ∧ R v v' := by
  induction m generalizing m' with
  | nil =>
    cases m' with
    | nil => exact .inl ⟨rfl, rfl⟩
    | cons => cases h
  | cons x m ih =>
    cases m' with
    | nil => cases h
    | cons y m' =>
      obtain ⟨k1, x⟩ := x
      obtain ⟨k2, y⟩ := y
      obtain ⟨⟨h1, h2⟩, h3⟩ := h
      simp only at h1 h2
      subst h1
      unfold BMap.get
      split
      · exact .inr ⟨x, y, rfl, rfl, h2⟩
      · exact ih h3

theorem sameKeys_ofList {R : α → β → Prop} {l : List (Str × α)} {l' : List (Str × β)}
    (h : OneByOne (fun x y => x.1 = y.1 ∧ R x.2 y.2) l l') : SameKeys R (BMap.ofList l) (BMap.ofList l') := by
  unfold BMap.ofList
  have : ∀ (m : BMap α) (m' : BMap β), SameKeys R m m' →
      SameKeys R (l.foldl (fun m kv => BMap.insert kv.1 kv.2 m) m) (l'.foldl (fun m kv => BMap.insert kv.1 kv.2 m) m') := by
    induction l generalizing l' with
    | nil =>
      cases l' with
      | nil => exact fun m m' h => h
      | cons => cases h
    | cons x l ih =>
      cases l' with
      | nil => cases h
      | cons y l' =>
        intro m m' hm
        rw [List.foldl_cons, List.foldl_cons, ← h.1.1]
        exact ih h.2 _ _ (sameKeys_insert hm _ h.1.2)
  exact this [] [] trivial

end

/-- the same parameter as read, with a related value -/
def SamePParam (R' : Str → Str → Prop) (p q : PParam) : Prop :=
  p.key = q.key ∧ R' (p.val.getD []) (q.val.getD []) ∧ (p.val = none ↔ q.val = none) ∧
  (p.key = c!"VALUE" → ∀ k, IsTextFor k (some (p.val.getD [])) ↔ IsTextFor k (some (q.val.getD [])))

/-- the same property as read, with related values -/
def SamePProp (R' : Str → Str → Prop) (p q : PProp) : Prop := p.name = q.name ∧ SameButProp R' p.toProperty q.toProperty

section
variable {R R' : Str → Str → Prop} {K : Str → Prop} {T : Str → Str → Prop} (hR : Replaces R R' K T)
include hR

theorem same_meaning {p q : DParam} (h : SameButParam R p q) : SamePParam R' p.meaning q.meaning := by
  obtain ⟨k, v⟩ := p
  obtain ⟨k', v'⟩ := q
  obtain ⟨h1, hn, h0, h2⟩ := h
  simp only at h0 h1 h2 hn
  subst h1
  rcases v with _ | ⟨b, v⟩ <;> rcases v' with _ | ⟨b', v'⟩ <;> simp only at h2
  · exact ⟨rfl, hR.raw hR.empty, Iff.rfl, fun _ _ => Iff.rfl⟩
  · obtain ⟨rfl, h2⟩ := h2
    simp only [DParam.value] at h0 hn
    unfold SamePParam
    simp only [DParam.meaning]
    by_cases hv : v = []
    · rw [if_pos hv, if_pos (hn.2 hv)]; exact ⟨trivial, hR.raw hR.empty, Iff.rfl, fun _ _ => Iff.rfl⟩
    · rw [if_neg hv, if_neg (fun e => hv (hn.1 e))]; exact ⟨trivial, hR.raw h2, by simp, h0⟩

theorem same_line {k : Str} {ps qs : List DParam} {v v' : Str} (h : OneByOne (SameButParam R) ps qs) (hv : R v v') :
    SameButProp R' (meaningProp k ps v).toProperty (meaningProp k qs v').toProperty := by
  have hm := oneByOne_map (S := (SamePParam R')) (f := DParam.meaning) (g := DParam.meaning) (fun _ _ => same_meaning hR) h
  refine ⟨rfl, ?_, ?_⟩
  · have ht : IsTextFor k (((ps.map DParam.meaning).find? (fun p => p.key == c!"VALUE")).bind PParam.val) ↔
        IsTextFor k (((qs.map DParam.meaning).find? (fun p => p.key == c!"VALUE")).bind PParam.val) := by
      rcases oneByOne_find (f := fun p : PParam => p.key == c!"VALUE") (g := fun p : PParam => p.key == c!"VALUE")
        (fun a b hab => by rw [hab.1]) hm with ⟨h1, h2⟩ | ⟨a, b, h1, h2, h3⟩
      · rw [h1, h2]
      · rw [h1, h2]
        obtain ⟨-, -, h5, h4⟩ := h3
        have hV : a.key = c!"VALUE" := by simpa using List.find?_some h1
        simp only [Option.bind_some]
        cases ha : a.val with
        | none => rw [h5.1 ha]
        | some x =>
          cases hb : b.val with
          | none => rw [h5.2 hb] at ha; cases ha
          | some y =>
            rw [ha, hb] at h4
            exact h4 hV k
    simp only [PProp.toProperty, meaningProp]
    by_cases hx : IsTextFor k (((ps.map DParam.meaning).find? (fun p => p.key == c!"VALUE")).bind PParam.val)
    · rw [if_pos hx, if_pos (ht.1 hx)]
      exact hR.read hv
    · rw [if_neg hx, if_neg (fun e => hx (ht.2 e))]
      exact hR.raw hv
  · exact sameKeys_ofList (R := R') (oneByOne_map (fun a b hab => ⟨hab.1, hab.2.1⟩) hm)

omit hR in
theorem same_inner {l l' : List PProp} (h : OneByOne (SamePProp R') l l') (cs cs' : List Other) :
    SameKeys (SameButProp R') (innerOfProps l cs).props (innerOfProps l' cs').props ∧
    SameKeys (OneByOne (SameButProp R')) (innerOfProps l cs).multi (innerOfProps l' cs').multi := by
  have hmulti : ∀ a b, SamePProp R' a b → a.isMulti = b.isMulti := fun a b hab => by unfold PProp.isMulti; rw [hab.1]
  have hf := oneByOne_filter (f := fun p => p.isMulti) (g := fun p => p.isMulti) hmulti h
  have hg := oneByOne_filter (f := fun p => !p.isMulti) (g := fun p => !p.isMulti) (fun a b hab => by rw [hmulti a b hab]) h
  have step : ∀ (l l' : List PProp), OneByOne (SamePProp R') l l' → ∀ i i' : Inner, SameKeys (SameButProp R') i.props i'.props →
      SameKeys (OneByOne (SameButProp R')) i.multi i'.multi →
      SameKeys (SameButProp R') (l.foldl (fun c p => c.insertMulti p.toProperty) i).props
        (l'.foldl (fun c p => c.insertMulti p.toProperty) i').props ∧
      SameKeys (OneByOne (SameButProp R')) (l.foldl (fun c p => c.insertMulti p.toProperty) i).multi
        (l'.foldl (fun c p => c.insertMulti p.toProperty) i').multi := by
    intro l
    induction l with
    | nil =>
      intro l' h
      cases l' with
      | nil => exact fun i i' h1 h2 => ⟨h1, h2⟩
      | cons => cases h
    | cons p l ih =>
      intro l' h
      cases l' with
      | nil => cases h
      | cons q l' =>
        intro i i' h1 h2
        rw [List.foldl_cons, List.foldl_cons]
        refine ih l' h.2 _ _ h1 ?_
        have hk : p.toProperty.key = q.toProperty.key := h.1.2.key
        simp only [Inner.insertMulti, hk]
        rcases sameKeys_get h2 q.toProperty.key with ⟨h3, h4⟩ | ⟨v, v', h3, h4, h5⟩
        · rw [h3, h4]; exact sameKeys_insert h2 _ ⟨h.1.2, trivial⟩
        · rw [h3, h4]; exact sameKeys_insert h2 _ (oneByOne_append h5 ⟨h.1.2, trivial⟩)
  unfold innerOfProps
  exact step _ _ hf _ _ (sameKeys_ofList (oneByOne_map (fun a b hab => ⟨hab.1, hab.2⟩) hg)) trivial

omit hR in
theorem fold_comps (l : List PProp) (i : Inner) : (l.foldl (fun c p => c.insertMulti p.toProperty) i).comps = i.comps := by
  induction l generalizing i with
  | nil => rfl
  | cons p l ih => rw [List.foldl_cons, ih]; rfl

set_option linter.unusedSectionVars false in
mutual
theorem same_comp : {n : Str} → {l l' : List Item} → SameButItems R l l' →
    SameButOther R' (PComp.mk n (itemsProps l) (itemsComps l)).toOther (PComp.mk n (itemsProps l') (itemsComps l')).toOther
  | n, l, l', h => by
    obtain ⟨h1, h2⟩ := same_items h
    unfold PComp.toOther Other.ofInner
    simp only [SameButOther]
    refine ⟨trivial, (same_inner h1 _ _).1, (same_inner h1 _ _).2, ?_⟩
    unfold innerOfProps
    rw [fold_comps, fold_comps]
    exact h2
theorem same_items : {l l' : List Item} → SameButItems R l l' →
    OneByOne (SamePProp R') (itemsProps l) (itemsProps l') ∧ SameButOthers R' (toOthers (itemsComps l)) (toOthers (itemsComps l'))
  | [], [], _ => ⟨trivial, by simp only [itemsComps, toOthers]; trivial⟩
  | .prop k ps v :: l, .prop k' ps' v' :: l', h => by
    obtain ⟨h1, h2⟩ := same_items h.2
    obtain ⟨rfl, h3, h4⟩ := h.1
    simp only [itemsProps, itemsComps]
    exact ⟨⟨⟨rfl, same_line hR h3 h4⟩, h1⟩, h2⟩
  | .comp b e n m :: l, .comp b' e' n' m' :: l', h => by
    obtain ⟨h1, h2⟩ := same_items h.2
    obtain ⟨rfl, rfl, rfl, h3⟩ := h.1
    simp only [itemsProps, itemsComps, toOthers]
    exact ⟨h1, same_comp h3, h2⟩
end

omit hR in
theorem same_kind {x y : PComp} (h : x.name = y.name) (n : Str) : KindFor n x.toCalComp ↔ KindFor n y.toCalComp := by
  unfold KindFor PComp.toCalComp
  rw [h]
  by_cases h1 : y.name = c!"VEVENT"
  · rw [if_pos h1, if_pos h1]; simp
  · rw [if_neg h1, if_neg h1]
    by_cases h2 : y.name = c!"VTODO"
    · rw [if_pos h2, if_pos h2]; simp
    · rw [if_neg h2, if_neg h2]
      by_cases h3 : y.name = c!"VVENUE"
      · rw [if_pos h3, if_pos h3]; simp
      · rw [if_neg h3, if_neg h3]; simp

theorem same_calendar {l l' : List Item} (h : SameButItems R l l') :
    SameButCal R' { props := (itemsProps l).map PProp.toProperty, comps := (itemsComps l).map PComp.toCalComp }
      { props := (itemsProps l').map PProp.toProperty, comps := (itemsComps l').map PComp.toCalComp } := by
  refine ⟨oneByOne_map (fun a b hab => hab.2) (same_items hR h).1, ?_⟩
  simp only
  induction l generalizing l' with
  | nil =>
    cases l' with
    | nil => simp only [itemsComps]; trivial
    | cons => simp [SameButItems] at h
  | cons i l ih =>
    cases l' with
    | nil => simp [SameButItems] at h
    | cons i' l' =>
      cases i <;> cases i' <;> simp only [SameButItems, SameButItem, false_and] at h
      · simp only [itemsComps]
        exact ih h.2
      · obtain ⟨⟨rfl, rfl, rfl, h1⟩, h2⟩ := h
        simp only [itemsComps, List.map_cons]
        refine ⟨⟨?_, ?_⟩, ih h2⟩
        · rw [toOther_toCalComp, toOther_toCalComp]
          exact same_comp hR h1
        · exact same_kind rfl

/-- such files are read as calendars with replaced values -/
theorem presents_same_calendar [Uni] {br : Break} {b e : Str} {l : List Item} (h : (Item.comp b e c!"VCALENDAR" l).Ok br)
    (ha : (Item.comp b e c!"VCALENDAR" l).NamesAre K T) {file t : Str} (hp : Presents br (.comp b e c!"VCALENDAR" l) file)
    (h1 : R (unfold file) (unfold t)) :
    ∃ c d, Calendar.fromStr file = some c ∧ Calendar.fromStr t = some d ∧ SameButCal R' c d := by
  obtain ⟨l', h1, h2, h3⟩ := presents_same hR h ha hp h1
  have reads : ∀ {l : List Item} {file : Str}, (Item.comp b e c!"VCALENDAR" l).Ok br → Presents br (.comp b e c!"VCALENDAR" l) file →
      Calendar.fromStr file = some { props := (itemsProps l).map PProp.toProperty, comps := (itemsComps l).map PComp.toCalComp } := by
    intro l file h hf
    unfold Calendar.fromStr readCalendar
    rw [components_ok (presents_read h hf)]
    simp [finish, PComp.name, PCal.toCalendar, PComp.props, PComp.comps]
  exact ⟨_, _, reads h hp, reads h2 h3, same_calendar hR h1⟩

end

/-! ### Written calendars -/

section
variable [Uni] {K : Str → Prop} {T : Str → Str → Prop}

omit [Uni] in
theorem itemsNamesAre_append {a b : List Item} : ItemsNamesAre K T (a ++ b) ↔ ItemsNamesAre K T a ∧ ItemsNamesAre K T b := by
  induction a with
  | nil => simp [ItemsNamesAre]
  | cons i a ih => simp [ItemsNamesAre, ih, and_assoc]

theorem propItems_namesAre {l : List Property} (h : ∀ p ∈ l, NamesAreProp K T p) {w : World} (hw : World.Ok w) :
    ItemsNamesAre K T (propItems l w) := by
  induction l generalizing w with
  | nil => trivial
  | cons p l ih =>
    refine ⟨?_, ih (fun q hq => h q (by simp [hq])) (worldOk_sub hw 1)⟩
    have hp := h p (by simp)
    simp only [propItem, Item.NamesAre]
    refine ⟨hp.key, fun d hd => ?_⟩
    obtain ⟨y, hy, rfl⟩ := List.mem_map.1 hd
    have hy := ((worldOk_sub hw 0).order [] p.params).mem_iff.1 hy
    exact hp.params y hy

omit [Uni] in
theorem missing_namesAre (props : BMap Property) {k v : Str} (hk : K k) : ItemsNamesAre K T (missing props k v) := by
  unfold missing
  split
  · trivial
  · simp only [ItemsNamesAre, genItem, Item.NamesAre]
    simp [hk]

mutual
theorem other_namesAre (h1 : K c!"DTSTAMP") (h2 : K c!"UID") : (o : Other) → NamesAreOther K T o → {w : World} → World.Ok w → (o.item w).NamesAre K T
  | .mk n props multi comps, hu, w, hw => by
    have h1' := h1
    have h2' := h2
    obtain ⟨h0, h1, h2, h3⟩ := hu
    simp only [Other.item, Item.NamesAre, itemsNamesAre_append]
    refine ⟨h0, ⟨⟨⟨missing_namesAre _ h1', propItems_namesAre ?_ (worldOk_sub hw 0)⟩,
      missing_namesAre _ h2'⟩, propItems_namesAre ?_ (worldOk_sub hw 1)⟩, others_namesAre h1' h2' comps h3 (worldOk_sub hw 2)⟩
    · intro p hp
      obtain ⟨x, hx, rfl⟩ := List.mem_map.1 hp
      exact h1 x hx
    · intro p hp
      obtain ⟨ps, hps, hp⟩ := List.mem_flatten.1 hp
      obtain ⟨x, hx, rfl⟩ := List.mem_map.1 hps
      exact h2 x hx p hp
theorem others_namesAre (h1 : K c!"DTSTAMP") (h2 : K c!"UID") : (l : List Other) → NamesAreOthers K T l → {w : World} → World.Ok w → ItemsNamesAre K T (otherItems l w)
  | [], _, _, _ => trivial
  | o :: l, hu, _, hw => ⟨other_namesAre h1 h2 o hu.1 (worldOk_sub hw 0), others_namesAre h1 h2 l hu.2 (worldOk_sub hw 1)⟩
end

theorem calendar_namesAre (k1 : K c!"DTSTAMP") (k2 : K c!"UID") (k3 : K c!"VCALENDAR") {c : Calendar} (hu : NamesAreCal K T c) {w : World} (hw : World.Ok w) : (c.item w).NamesAre K T := by
  simp only [Calendar.item, Item.NamesAre, itemsNamesAre_append]
  refine ⟨k3, propItems_namesAre hu.props (worldOk_sub hw 0), ?_⟩
  have h2 := hu.comps
  have h3 := worldOk_sub hw 1
  generalize c.comps = l at h2
  generalize w.sub 1 = w' at h3
  induction l generalizing w' with
  | nil => trivial
  | cons x l ih =>
    exact ⟨other_namesAre k1 k2 _ (h2 x (by simp)) (worldOk_sub h3 0), ih (fun y hy => h2 y (by simp [hy])) (w'.sub 1) (worldOk_sub h3 1)⟩

end

end Ical
