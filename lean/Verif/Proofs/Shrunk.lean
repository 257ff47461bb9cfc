import Verif.Props.OwnLine
import Verif.Props.Written
import Verif.Spec.Told

/-!
What is left of written lines after unfolding, if values look like folded lines.
-/

namespace Ical

open Nom Spec

/-- the second text is the first without some of its fold markers -/
inductive Shrunk : Str → Str → Prop
  | nil : Shrunk [] []
  | keep {c : Char} {a b : Str} : Shrunk a b → Shrunk (c :: a) (c :: b)
  | drop (m : Marker) {a b : Str} : Shrunk a b → Shrunk (m.text ++ a) b

theorem shrunk_refl : (a : Str) → Shrunk a a
  | [] => .nil
  | _ :: a => .keep (shrunk_refl a)

theorem shrunk_append {a b a' b' : Str} (h : Shrunk a b) (h' : Shrunk a' b') : Shrunk (a ++ a') (b ++ b') := by
  induction h with
  | nil => exact h'
  | keep _ ih => exact .keep ih
  | drop m _ ih => rw [List.append_assoc]; exact .drop m ih

theorem shrunk_unfold (s : Str) : Shrunk s (unfoldSpec s) := by
  fun_induction unfoldSpec s with
  | case1 => exact .nil
  | case2 s ih => exact .drop .crlfSp ih
  | case3 s ih => exact .drop .crlfTab ih
  | case4 s ih => exact .drop .lfSp ih
  | case5 s ih => exact .drop .lfTab ih
  | case6 c s h1 h2 h3 h4 ih => exact .keep ih

theorem shrunk_folded (qs : List Str) (v : Str) : Shrunk (qs.flatten ++ v) (unfoldSpec (folded qs ++ v)) := by
  induction qs with
  | nil => exact shrunk_unfold v
  | cons q qs ih =>
    have e : folded (q :: qs) ++ v = q ++ (Marker.crlfSp.text ++ (folded qs ++ v)) := by
      simp [folded, Marker.text]
    rw [e, unfoldSpec_append_marker q .crlfSp _ (by intro h; simp [Marker.isLf] at h), List.flatten_cons, List.append_assoc]
    exact shrunk_append (shrunk_unfold q) ih

theorem marker_space (m : Marker) : ∀ c ∈ m.text, Space c := by
  cases m <;> simp [Marker.text, Space]

theorem shrunk_count {d : Char} (hd : ¬ Space d) {a b : Str} (h : Shrunk a b) : b.count d = a.count d := by
  induction h with
  | nil => rfl
  | keep _ ih => rw [List.count_cons, List.count_cons, ih]
  | drop m _ ih =>
    rw [List.count_append, ih, List.count_eq_zero.2 (fun hc => hd (marker_space m d hc)), Nat.zero_add]

theorem shrunk_mem {d : Char} (hd : ¬ Space d) {a b : Str} (h : Shrunk a b) : d ∈ b ↔ d ∈ a := by
  rw [← List.count_pos_iff, ← List.count_pos_iff, shrunk_count hd h]

theorem shrunk_noLf {a b : Str} (h : Shrunk a b) (hn : '\n' ∉ a) : b = a := by
  induction h with
  | nil => rfl
  | keep _ ih =>
    rw [ih (fun hc => hn (List.mem_cons_of_mem _ hc))]
  | drop m _ ih => exact absurd (List.mem_append_left _ (by cases m <;> simp [Marker.text])) hn

theorem shrunk_nil {b : Str} (h : Shrunk [] b) : b = [] := shrunk_noLf h (by simp)

theorem shrunk_head {a b : Str} (h : Shrunk a b) (hb : ['\n'] <+: b) : ['\n'] <+: a ∨ ['\r', '\n'] <+: a := by
  cases h with
  | nil => simp at hb
  | keep h =>
    rw [List.cons_prefix_cons] at hb
    rw [← hb.1]
    exact .inl ⟨_, rfl⟩
  | drop m h => cases m <;> simp [Marker.text]

theorem shrunk_noCrlf {a b : Str} (h : Shrunk a b) (hn : ¬ ['\r', '\n'] <:+: a) : ¬ ['\r', '\n'] <:+: b := by
  induction h with
  | nil => exact hn
  | @keep c a b h ih =>
    rw [List.infix_cons_iff, not_or] at hn ⊢
    refine ⟨?_, ih hn.2⟩
    intro hp
    rw [List.cons_prefix_cons] at hp
    rcases shrunk_head h hp.2 with h1 | h1
    · exact hn.1 (by rw [← hp.1, List.cons_prefix_cons]; exact ⟨rfl, h1⟩)
    · exact hn.2 h1.isInfix
  | drop m _ ih => exact ih (fun hc => hn (hc.trans (List.suffix_append _ _).isInfix))

/-- a character that is no white space stays where it is -/
theorem shrunk_split {d : Char} (hd : ¬ Space d) {x u : Str} (h : Shrunk x u) : ∀ a b, x = a ++ d :: b →
    ∃ a' b', u = a' ++ d :: b' ∧ Shrunk a a' ∧ Shrunk b b' := by
  induction h with
  | nil => intro a b h; simp at h
  | @keep c x u h ih =>
    intro a b he
    cases a with
    | nil =>
      simp only [List.nil_append, List.cons.injEq] at he
      obtain ⟨rfl, rfl⟩ := he
      exact ⟨[], u, rfl, .nil, h⟩
    | cons e a =>
      simp only [List.cons_append, List.cons.injEq] at he
      obtain ⟨rfl, he⟩ := he
      obtain ⟨a', b', h1, h2, h3⟩ := ih a b he
      exact ⟨c :: a', b', by rw [h1]; rfl, .keep h2, h3⟩
  | @drop m x u h ih =>
    intro a b he
    have hpre : ∃ a2, a = m.text ++ a2 := by
      rcases List.append_eq_append_iff.1 he with ⟨c, h1, h2⟩ | ⟨c, h1, h2⟩
      · exact ⟨c, h1⟩
      · cases c with
        | nil => exact ⟨[], by rw [h1]; simp⟩
        | cons e c =>
          exfalso
          simp only [List.cons_append, List.cons.injEq] at h2
          exact hd (marker_space m d (by rw [h1, h2.1]; simp))
    obtain ⟨a2, rfl⟩ := hpre
    rw [List.append_assoc] at he
    obtain ⟨a', b', h1, h2, h3⟩ := ih a2 b (List.append_cancel_left he)
    exact ⟨a', b', h1, .drop m h2, h3⟩

/-- parameters whose values have lost fold markers -/
def ShrunkParams : List (Str × Str) → List (Str × Str) → Prop
  | [], [] => True
  | x :: l, y :: m => y.1 = x.1 ∧ Shrunk x.2 y.2 ∧ ShrunkParams l m
  | _, _ => False

theorem shrunk_quote {v u : Str} (h : Shrunk (quoteIfContainsColon v) u) : ∃ v', u = quoteIfContainsColon v' ∧ Shrunk v v' := by
  rw [quote_eq] at h
  split at h
  · rename_i hc
    obtain ⟨a', b', rfl, h1, h2⟩ := shrunk_split (d := '"') (by simp [Space]) h [] (v ++ ['"']) rfl
    obtain ⟨v', b2, rfl, h3, h4⟩ := shrunk_split (d := '"') (by simp [Space]) h2 v [] rfl
    rw [shrunk_nil h1, shrunk_nil h4]
    refine ⟨v', ?_, h3⟩
    rw [quote_eq, if_pos]
    · rfl
    · rwa [shrunk_mem (by simp [Space]) h3, shrunk_mem (by simp [Space]) h3]
  · rename_i hc
    refine ⟨u, ?_, h⟩
    rw [quote_eq, if_neg]
    rwa [shrunk_mem (by simp [Space]) h, shrunk_mem (by simp [Space]) h]

variable [Uni]

theorem name_noLf {k : Str} (h : IsName k) : '\n' ∉ k := fun hc => nameChar_stops (by simp) (h _ hc)

theorem shrunk_params {l : List (Str × Str)} (hn : ∀ x ∈ l, IsName x.1) {r u : Str}
    (h : Shrunk (paramsText l ++ ':' :: r) u) :
    ∃ l' r', u = paramsText l' ++ ':' :: r' ∧ ShrunkParams l l' ∧ Shrunk r r' := by
  induction l generalizing u with
  | nil =>
    obtain ⟨a', b', rfl, h1, h2⟩ := shrunk_split (d := ':') (by simp [Space]) h [] r rfl
    rw [shrunk_nil h1]
    exact ⟨[], b', rfl, trivial, h2⟩
  | cons x l ih =>
    obtain ⟨k, v⟩ := x
    have hk := hn (k, v) (by simp)
    rw [paramsText] at h
    obtain ⟨a0, b0, rfl, h1, h2⟩ := shrunk_split (d := ';') (by simp [Space]) h []
      (k ++ ('=' :: (quoteIfContainsColon v ++ (paramsText l ++ ':' :: r)))) (by simp)
    obtain ⟨k', b1, rfl, h3, h4⟩ := shrunk_split (d := '=') (by simp [Space]) h2 k _ rfl
    rw [shrunk_nil h1, shrunk_noLf h3 (name_noLf hk)]
    have key : ∃ q z, b1 = q ++ z ∧ Shrunk (quoteIfContainsColon v) q ∧ Shrunk (paramsText l ++ ':' :: r) z := by
      rcases paramsText_head l r with ⟨y, hy⟩ | ⟨y, hy⟩ <;> rw [hy] at h4
      · obtain ⟨q, z, rfl, h5, h6⟩ := shrunk_split (d := ':') (by simp [Space]) h4 _ y rfl
        exact ⟨q, _, rfl, h5, by rw [hy]; exact .keep h6⟩
      · obtain ⟨q, z, rfl, h5, h6⟩ := shrunk_split (d := ';') (by simp [Space]) h4 _ y rfl
        exact ⟨q, _, rfl, h5, by rw [hy]; exact .keep h6⟩
    obtain ⟨q, z, rfl, h5, h6⟩ := key
    obtain ⟨v', rfl, h7⟩ := shrunk_quote h5
    obtain ⟨l', r', rfl, h8, h9⟩ := ih (fun y hy => hn y (by simp [hy])) h6
    exact ⟨(k, v') :: l', r', by simp [paramsText], ⟨rfl, h7, h8⟩, h9⟩

/-- the line of a property without some fold markers, and the line break -/
def ShrunkLine (p : Property) (l l' : List (Str × Str)) (r u : Str) : Prop :=
  l.Perm p.params ∧ ShrunkParams l l' ∧ Shrunk (rawText p) r ∧ u = p.key ++ (paramsText l' ++ ':' :: (r ++ ['\r', '\n']))

/-- lines of properties without some fold markers -/
inductive ShrunkLines : List Property → Str → Prop
  | nil : ShrunkLines [] []
  | cons {p : Property} {ps : List Property} {l l' : List (Str × Str)} {r u us : Str} :
    ShrunkLine p l l' r u → ShrunkLines ps us → ShrunkLines (p :: ps) (u ++ us)

omit [Uni] in
theorem shrunkLines_append {a b : List Property} {u v : Str} (h : ShrunkLines a u) (h' : ShrunkLines b v) :
    ShrunkLines (a ++ b) (u ++ v) := by
  induction h with
  | nil => exact h'
  | cons h1 _ ih => rw [List.cons_append, List.append_assoc]; exact .cons h1 ih

theorem line_noIndent {k : Str} (hk : IsName k) (l : List (Str × Str)) (r : Str) :
    NoIndent (k ++ (paramsText l ++ ':' :: r)) := by
  cases k with
  | nil =>
    rcases paramsText_head l r with ⟨y, hy⟩ | ⟨y, hy⟩ <;> rw [hy] <;> exact noIndent_cons (by decide) (by decide)
  | cons c k =>
    have hc := hk c (by simp)
    refine noIndent_cons ?_ ?_ <;> (rintro rfl; exact nameChar_stops (by simp) hc)

theorem shrunk_written {p : Property} (hk : IsName p.key) (hn : ∀ x ∈ p.params, IsName x.1) {w : World} (hw : World.Ok w)
    {out : Str} (h : p.fmtWrite w = .ok out) {t : Str} (ht : NoIndent t) :
    ∃ l l' r u, ShrunkLine p l l' r u ∧ unfoldSpec (out ++ t) = u ++ unfoldSpec t ∧ NoIndent (out ++ t) := by
  have hperm : (w.order [] p.params).Perm p.params := hw.order [] p.params
  have hline : p.line w = p.key ++ (paramsText (w.order [] p.params) ++ ':' :: rawText p) := by
    unfold Property.line
    rw [rawText_valueText]
    simp
  unfold Property.fmtWrite at h
  cases hf : foldLine (p.line w) with
  | error e => rw [hf] at h; cases h
  | ok s =>
    rw [hf] at h
    cases h
    obtain ⟨qs, v, h1, h2, -⟩ := foldLine_ok hf
    have hsh : Shrunk (p.line w) (unfoldSpec s) := by rw [h1, h2]; exact shrunk_folded qs v
    rw [hline] at hsh
    generalize w.order [] p.params = l at *
    have key : ∃ z, unfoldSpec s = p.key ++ z ∧ Shrunk (paramsText l ++ ':' :: rawText p) z := by
      rcases paramsText_head l (rawText p) with ⟨y, hy⟩ | ⟨y, hy⟩ <;> rw [hy] at hsh
      · obtain ⟨q, z, hq, h5, h6⟩ := shrunk_split (d := ':') (by simp [Space]) hsh _ y rfl
        exact ⟨_, by rw [hq, shrunk_noLf h5 (name_noLf hk)], by rw [hy]; exact .keep h6⟩
      · obtain ⟨q, z, hq, h5, h6⟩ := shrunk_split (d := ';') (by simp [Space]) hsh _ y rfl
        exact ⟨_, by rw [hq, shrunk_noLf h5 (name_noLf hk)], by rw [hy]; exact .keep h6⟩
    obtain ⟨z, hz, hz2⟩ := key
    obtain ⟨l', r', rfl, h3, h4⟩ := shrunk_params (fun x hx => hn x (hperm.mem_iff.1 hx)) hz2
    refine ⟨l, l', r', _, ⟨hperm, h3, h4, rfl⟩, ?_, ?_⟩
    · have := unfoldSpec_break s .crlf t ht
      rw [hz] at this
      rw [List.append_assoc]
      refine this.trans ?_
      simp [Break.text]
    · refine noIndent_of_unfold (l := unfoldSpec s ++ crlf) (unfoldSpec_end s) ?_ ht
      rw [hz]
      have := line_noIndent hk l' (r' ++ crlf ++ t)
      simpa using this

theorem shrunk_fmtProps {l : List Property} (hl : ∀ p ∈ l, IsName p.key ∧ ∀ x ∈ p.params, IsName x.1) {w : World}
    (hw : World.Ok w) {out : Str} (h : fmtProps l w = .ok out) {t : Str} (ht : NoIndent t) :
    ∃ u, ShrunkLines l u ∧ unfoldSpec (out ++ t) = u ++ unfoldSpec t ∧ NoIndent (out ++ t) := by
  induction l generalizing w out with
  | nil =>
    cases h
    exact ⟨[], .nil, rfl, ht⟩
  | cons p l ih =>
    unfold fmtProps at h
    cases ha : p.fmtWrite (w.sub 0) with
    | error e => rw [ha] at h; cases h
    | ok a =>
      rw [ha] at h
      cases hb : fmtProps l (w.sub 1) with
      | error e => rw [hb] at h; cases h
      | ok b =>
        rw [hb] at h
        cases h
        obtain ⟨us, h1, h2, h3⟩ := ih (fun q hq => hl q (by simp [hq])) (worldOk_sub hw 1) hb
        obtain ⟨l1, l2, r, u, h4, h5, h6⟩ := shrunk_written (hl p (by simp)).1 (hl p (by simp)).2 (worldOk_sub hw 0) ha h3
        rw [List.append_assoc]
        exact ⟨u ++ us, .cons h4 h1, by rw [h5, h2, List.append_assoc], h6⟩

/-! ### Components -/

/-- a property that is written if there is none of its name -/
def genProps (props : BMap Property) (k v : Str) : List Property := if props.containsKey k then [] else [⟨k, v, []⟩]

/-- the properties that are written for a component -/
def writtenProps (props : BMap Property) (multi : BMap (List Property)) (a b : Str) : List Property :=
  genProps props c!"DTSTAMP" a ++ props.values ++ genProps props c!"UID" b ++ multi.values.flatten

/-- a clock reading and a UUID -/
def Stamp (a b : Str) : Prop := (∃ now : UtcDateTime, now.naive.Valid ∧ a = fmtUtc now) ∧ ∀ c ∈ b, c ∈ c!"0123456789abcdef-"

omit [Uni] in
theorem stamp_ok {w : World} (hw : World.Ok w) : Stamp (fmtUtc (w.now [])) (w.uuid []) :=
  ⟨⟨_, hw.now [], rfl⟩, hw.uuid []⟩

omit [Uni] in
theorem stamp_not {a b : Str} (h : Stamp a b) {x : Char} (h1 : ¬ IsDigit x) (h2 : x ∉ c!"+-TZ")
    (h3 : x ∉ c!"0123456789abcdef-") : x ∉ a ∧ x ∉ b := by
  obtain ⟨⟨now, -, rfl⟩, hb⟩ := h
  exact ⟨fmtUtc_not_mem now h1 h2, fun hc => h3 (hb x hc)⟩

omit [Uni] in
theorem stamp_chars {a b : Str} (h : Stamp a b) : ∀ c ∈ a ++ b, c ≠ ';' ∧ c ≠ '\n' := by
  intro c hc
  rw [List.mem_append] at hc
  have h1 := stamp_not h (x := ';') (by decide) (by decide) (by decide)
  have h2 := stamp_not h (x := '\n') (by decide) (by decide) (by decide)
  refine ⟨?_, ?_⟩ <;> rintro rfl
  · exact hc.elim h1.1 h1.2
  · exact hc.elim h2.1 h2.2

mutual
/-- the text of a component without some fold markers -/
inductive ShrunkOther : Other → Str → Prop
  | mk {name : Str} {props : BMap Property} {multi : BMap (List Property)} {comps : List Other} {a b us vs : Str} :
    Stamp a b → ShrunkLines (writtenProps props multi a b) us → ShrunkOthers comps vs →
    ShrunkOther (.mk name props multi comps) (c!"BEGIN:" ++ (name ++ (['\r', '\n'] ++ (us ++ (vs ++ (c!"END:" ++ (name ++ ['\r', '\n'])))))))
/-- see `ShrunkOther` -/
inductive ShrunkOthers : List Other → Str → Prop
  | nil : ShrunkOthers [] []
  | cons {o : Other} {l : List Other} {u us : Str} : ShrunkOther o u → ShrunkOthers l us → ShrunkOthers (o :: l) (u ++ us)
end

/-- the name and those of the parameters are names -/
def Named (p : Property) : Prop := IsName p.key ∧ ∀ x ∈ p.params, IsName x.1

theorem shrunk_gen {props : BMap Property} {k v : Str} (hk : IsName k) (hv : '\n' ∉ v)
    (hr : rawText ⟨k, v, []⟩ = v) {t : Str} (ht : NoIndent t) :
    ∃ u, ShrunkLines (genProps props k v) u ∧
      unfoldSpec ((if props.containsKey k then [] else (k ++ [':']) ++ v ++ crlf) ++ t) = u ++ unfoldSpec t ∧
      NoIndent ((if props.containsKey k then [] else (k ++ [':']) ++ v ++ crlf) ++ t) := by
  unfold genProps
  split
  · exact ⟨[], .nil, rfl, ht⟩
  · have hm : MarkerFree ((k ++ [':']) ++ v) := by
      apply markerFree_of_noLf
      simp only [List.mem_append, not_or]
      exact ⟨⟨name_noLf hk, by simp⟩, hv⟩
    refine ⟨_, .cons (l := []) (l' := []) ⟨.refl _, trivial, shrunk_refl _, rfl⟩ .nil, ?_, ?_⟩
    · have := unfold_raw hm .crlf ht
      rw [List.append_assoc]
      refine this.trans ?_
      rw [hr]
      simp [Break.text, paramsText]
    · have := line_noIndent hk [] (v ++ crlf ++ t)
      simpa [paramsText] using this

omit [Uni] in
theorem rawText_plain (k v : Str) (h : ∀ c ∈ v, escaped c = [c]) : rawText ⟨k, v, []⟩ = v := by
  unfold rawText
  split
  · rename_i ht
    clear ht
    show v.flatMap escaped = v
    induction v with
    | nil => rfl
    | cons c v ih => rw [List.flatMap_cons, h c (by simp), ih (fun d hd => h d (by simp [hd]))]; rfl
  · rfl

theorem isName_dtstamp : IsName c!"DTSTAMP" := isName_upper _ (by decide)
theorem isName_uid : IsName c!"UID" := isName_upper _ (by decide)

omit [Uni] in
theorem escaped_plain {s : Str} (h : ∀ x ∈ ['\\', ';', ',', '\n', '\r'], x ∉ s) : ∀ c ∈ s, escaped c = [c] := by
  intro c hc
  have : ∀ x ∈ ['\\', ';', ',', '\n', '\r'], c ≠ x := fun x hx he => h x hx (he ▸ hc)
  simp only [List.mem_cons, List.not_mem_nil, or_false, forall_eq_or_imp, forall_eq] at this
  unfold escaped
  simp [this]

mutual
theorem shrunk_other (o : Other) (hp : Placed o) (hn : EachProp Named o) {w : World} (hw : World.Ok w) {out : Str}
    (h : o.fmtWrite w = .ok out) {t : Str} (ht : NoIndent t) :
    ∃ u, ShrunkOther o u ∧ unfoldSpec (out ++ t) = u ++ unfoldSpec t ∧ NoIndent (out ++ t) := by
  match o, hp, hn with
  | .mk name props multi comps, hp, hn =>
    obtain ⟨hname, -, -, -, -, hc⟩ := hp
    obtain ⟨hs, hm, hn⟩ := hn
    unfold Other.fmtWrite at h
    cases hps : fmtProps props.values (w.sub 0) with
    | error e => simp only [hps] at h; cases h
    | ok ps =>
      cases hms : fmtProps multi.values.flatten (w.sub 1) with
      | error e => simp only [hps, hms] at h; cases h
      | ok ms =>
        cases hcs : fmtOthers comps (w.sub 2) with
        | error e => simp only [hps, hms, hcs] at h; cases h
        | ok cs =>
          simp only [hps, hms, hcs] at h
          cases h
          have hnl := name_noLf hname
          have hs' : ∀ p ∈ props.values, Named p := by
            intro p hp
            obtain ⟨x, hx, rfl⟩ := List.mem_map.1 hp
            exact hs x hx
          have hm' : ∀ p ∈ multi.values.flatten, Named p := by
            intro p hp
            obtain ⟨l, hl, hpl⟩ := List.mem_flatten.1 hp
            obtain ⟨x, hx, rfl⟩ := List.mem_map.1 hl
            exact hm x hx p hpl
          have hend : NoIndent (c!"END:" ++ name ++ crlf ++ t) := noIndent_cons (by decide) (by decide)
          have e0 := keyword_line name c!"END:" (by simpa using hnl) ht
          obtain ⟨uc, c0, c1, c2⟩ := shrunk_others comps hc hn (worldOk_sub hw 2) hcs hend
          obtain ⟨um, m0, m1, m2⟩ := shrunk_fmtProps hm' (worldOk_sub hw 1) hms c2
          obtain ⟨uu, u0, u1, u2⟩ := shrunk_gen (props := props) isName_uid (uuid_not_mem hw (by decide) [])
            (rawText_plain _ _ (escaped_plain (by
              intro x hx
              refine uuid_not_mem hw ?_ []
              revert x
              decide))) m2
          obtain ⟨up, p0, p1, p2⟩ := shrunk_fmtProps hs' (worldOk_sub hw 0) hps u2
          obtain ⟨ud, d0, d1, d2⟩ := shrunk_gen (props := props) isName_dtstamp
            (fmtUtc_not_mem (w.now []) (by decide) (by decide))
            (rawText_plain _ _ (escaped_plain (by
              intro x hx
              simp only [List.mem_cons, List.not_mem_nil, or_false] at hx
              rcases hx with rfl | rfl | rfl | rfl | rfl <;>
                exact fmtUtc_not_mem (w.now []) (by decide) (by decide)))) p2
          have e1 := keyword_line name c!"BEGIN:" (by simpa using hnl) d2
          refine ⟨_, .mk (stamp_ok hw) (shrunkLines_append (shrunkLines_append (shrunkLines_append d0 p0) u0) m0) c0, ?_,
            noIndent_cons (by decide) (by decide)⟩
          rw [d1, p1, u1, m1, c1, e0] at e1
          simp only [List.append_assoc] at e1 ⊢
          exact e1
theorem shrunk_others (l : List Other) (hp : PlacedAll l) (hn : EachProps Named l) {w : World} (hw : World.Ok w) {out : Str}
    (h : fmtOthers l w = .ok out) {t : Str} (ht : NoIndent t) :
    ∃ u, ShrunkOthers l u ∧ unfoldSpec (out ++ t) = u ++ unfoldSpec t ∧ NoIndent (out ++ t) := by
  match l, hp, hn with
  | [], _, _ =>
    simp only [fmtOthers] at h
    cases h
    exact ⟨[], .nil, rfl, ht⟩
  | o :: l, hp, hn =>
    unfold fmtOthers at h
    cases ha : o.fmtWrite (w.sub 0) with
    | error e => rw [ha] at h; cases h
    | ok a =>
      rw [ha] at h
      cases hb : fmtOthers l (w.sub 1) with
      | error e => rw [hb] at h; cases h
      | ok b =>
        rw [hb] at h
        cases h
        obtain ⟨us, h1, h2, h3⟩ := shrunk_others l hp.2 hn.2 (worldOk_sub hw 1) hb ht
        obtain ⟨u, h4, h5, h6⟩ := shrunk_other o hp.1 hn.1 (worldOk_sub hw 0) ha h3
        rw [List.append_assoc]
        exact ⟨u ++ us, .cons h4 h1, by rw [h5, h2, List.append_assoc], h6⟩
end

/-- what is written for a calendar, after unfolding -/
theorem shrunk_calendar {c : Calendar} (hp : ∀ p ∈ c.props, Named p) (hc : ∀ x ∈ c.comps, Placed x.toOther ∧ EachProp Named x.toOther)
    {w : World} (hw : World.Ok w) {out : Str} (h : c.fmtWrite w = .ok out) :
    ∃ us vs, ShrunkLines c.props us ∧ ShrunkOthers (c.comps.map CalComp.toOther) vs ∧
      unfoldSpec out = c!"BEGIN:VCALENDAR\r\n" ++ (us ++ (vs ++ c!"END:VCALENDAR\r\n")) := by
  have comps : ∀ (l : List CalComp) (w : World) (out : Str), (∀ x ∈ l, Placed x.toOther ∧ EachProp Named x.toOther) →
      World.Ok w → fmtComps l w = .ok out → ∀ t, NoIndent t →
      ∃ u, ShrunkOthers (l.map CalComp.toOther) u ∧ unfoldSpec (out ++ t) = u ++ unfoldSpec t ∧ NoIndent (out ++ t) := by
    intro l
    induction l with
    | nil => intro w out _ _ h t ht; cases h; exact ⟨[], .nil, rfl, ht⟩
    | cons x l ih =>
      intro w out hl hw h t ht
      unfold fmtComps at h
      cases ha : x.fmtWrite (w.sub 0) with
      | error e => rw [ha] at h; cases h
      | ok a =>
        rw [ha] at h
        cases hb : fmtComps l (w.sub 1) with
        | error e => rw [hb] at h; cases h
        | ok b =>
          rw [hb] at h
          cases h
          obtain ⟨us, h1, h2, h3⟩ := ih _ _ (fun y hy => hl y (by simp [hy])) (worldOk_sub hw 1) hb t ht
          rw [calComp_fmtWrite] at ha
          obtain ⟨u, h4, h5, h6⟩ := shrunk_other _ (hl x (by simp)).1 (hl x (by simp)).2 (worldOk_sub hw 0) ha h3
          rw [List.append_assoc]
          exact ⟨u ++ us, .cons h4 h1, by rw [h5, h2, List.append_assoc], h6⟩
  unfold Calendar.fmtWrite at h
  cases hps : fmtProps c.props (w.sub 0) with
  | error e => simp only [hps] at h; cases h
  | ok ps =>
    cases hcs : fmtComps c.comps (w.sub 1) with
    | error e => simp only [hps, hcs] at h; cases h
    | ok cs =>
      simp only [hps, hcs] at h
      cases h
      have hend : NoIndent c!"END:VCALENDAR\r\n" := noIndent_cons (by decide) (by decide)
      obtain ⟨vs, c0, c1, c2⟩ := comps _ _ _ hc (worldOk_sub hw 1) hcs _ hend
      obtain ⟨us, p0, p1, p2⟩ := shrunk_fmtProps hp (worldOk_sub hw 0) hps c2
      refine ⟨us, vs, p0, c0, ?_⟩
      have e1 := keyword_line c!"VCALENDAR" c!"BEGIN:" (by decide) p2
      rw [p1, c1] at e1
      have e0 : unfoldSpec c!"END:VCALENDAR\r\n" = c!"END:VCALENDAR\r\n" := by decide
      rw [e0] at e1
      simp only [List.append_assoc] at e1 ⊢
      exact e1

end Ical
