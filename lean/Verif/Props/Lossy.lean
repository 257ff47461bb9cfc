import Verif.Spec.Lossy
import Verif.Props.SameBut

/-!
C139: files folded inside of characters can be read after lossy decoding.
-/

namespace Ical

open Nom Spec

/-! ### Lossy decoding -/

theorem first_octet (c : Char) : ∃ x t, charOctets c = x :: t ∧ (x < 128 ∨ 192 ≤ x) := by
  have := charNat_lt c
  unfold charOctets
  simp only
  split
  · exact ⟨_, _, rfl, by omega⟩
  · split
    · exact ⟨_, _, rfl, by omega⟩
    · split
      · exact ⟨_, _, rfl, by omega⟩
      · exact ⟨_, _, rfl, by omega⟩

/-- the octets of a character are determined in number by the first one, and the others are not in ASCII -/
theorem char_part {c d : Char} {x : Nat} {m p v : List Nat} (h : charOctets c = x :: m) (h' : charOctets d = x :: p ++ v) :
    p.length + v.length = m.length ∧ ∀ y ∈ p, 128 ≤ y := by
  obtain ⟨x1, t1, e1, -, l1, -⟩ := charOctets_shape c
  obtain ⟨x2, t2, e2, -, l2, g2, -⟩ := charOctets_shape d
  rw [h] at e1
  rw [h'] at e2
  simp only [List.cons_append, List.cons.injEq] at e1 e2
  obtain ⟨rfl, rfl⟩ := e1
  obtain ⟨rfl, rfl⟩ := e2
  refine ⟨?_, fun y hy => (g2 y (by simp [hy])).1⟩
  rw [List.length_append] at l2
  omega

theorem lossy_nil {t : Str} (h : LossyDecoded [] t) : t = [] := by
  generalize ho : ([] : List Nat) = o at h
  cases h with
  | nil => rfl
  | @char c o t h =>
    obtain ⟨x, m, e, -⟩ := charOctets_shape c
    rw [e] at ho
    cases ho
  | @lost p o t _ part _ h =>
    rcases part with hp | ⟨hp, -⟩
    · cases p with
      | nil => cases hp
      | cons => cases ho
    · cases p with
      | nil => exact absurd rfl hp
      | cons => cases ho

/-- what the first octet becomes -/
theorem lossy_cons {x : Nat} {r : List Nat} {t : Str} (h : LossyDecoded (x :: r) t) :
    (∃ c m r' t', charOctets c = x :: m ∧ r = m ++ r' ∧ t = c :: t' ∧ LossyDecoded r' t') ∨
    ∃ p r' t', r = p ++ r' ∧ t = lostChar :: t' ∧ LossyDecoded r' t' ∧ (∀ c s, x :: r ≠ charOctets c ++ s) ∧
      (p = [] ∨ ∃ c v, charOctets c = x :: p ++ v) ∧ ∀ y s, r' = y :: s → ∀ c v, charOctets c ≠ x :: p ++ y :: v := by
  generalize ho : x :: r = o at h
  cases h with
  | nil => cases ho
  | @char c o t h =>
    obtain ⟨y, m, e, -⟩ := charOctets_shape c
    rw [e, List.cons_append, List.cons.injEq] at ho
    obtain ⟨rfl, rfl⟩ := ho
    exact .inl ⟨c, m, o, t, e, rfl, rfl, h⟩
  | @lost p o t hn part hl h =>
    right
    cases p with
    | nil => simp at part
    | cons y p =>
      rw [List.cons_append, List.cons.injEq] at ho
      obtain ⟨rfl, rfl⟩ := ho
      refine ⟨p, o, t, rfl, rfl, h, fun c s => hn c s, ?_, fun y s e c v => hl y s e c v⟩
      rcases part with hp | ⟨-, c, v, hp⟩
      · exact .inl (List.length_eq_zero_iff.1 (by simpa using hp))
      · exact .inr ⟨c, v, hp⟩

theorem ofNat_toNat {x : Nat} (h : x < 128) : (Char.ofNat x).toNat = x := by
  have hv : x.isValidChar := Or.inl (by omega)
  rw [Char.ofNat, dif_pos hv]
  show (UInt32.ofNatLT x _).toNat = x
  simp

theorem lossy_ascii {c : Char} (hc : c.toNat < 128) {r : List Nat} {t : Str} (h : LossyDecoded (c.toNat :: r) t) :
    ∃ t', t = c :: t' ∧ LossyDecoded r t' := by
  rcases lossy_cons h with ⟨d, m, r', t', h1, rfl, rfl, h2⟩ | ⟨p, r', t', -, -, -, h1, -⟩
  · have e : octets [d] = c.toNat :: m := by simp [octets, h1]
    obtain ⟨u, hu, hm⟩ := (octets_ascii_cons hc).1 e
    simp only [List.cons.injEq] at hu
    obtain ⟨rfl, rfl⟩ := hu
    obtain rfl : m = [] := hm.symm
    exact ⟨t', rfl, h2⟩
  · exact absurd (by rw [charOctets_ascii hc]; rfl) (h1 c r)

theorem lossy_break {br : Break} {x : Nat} (hx : x = 32 ∨ x = 9) {r : List Nat} {t : Str}
    (h : LossyDecoded (breakOctets br ++ x :: r) t) : ∃ t', octets t = breakOctets br ++ x :: octets t' ∧ LossyDecoded r t' := by
  obtain ⟨y, hy, rfl⟩ : ∃ y : Char, y.toNat < 128 ∧ x = y.toNat := by
    rcases hx with rfl | rfl
    · exact ⟨' ', by decide, rfl⟩
    · exact ⟨'\t', by decide, rfl⟩
  cases br
  · obtain ⟨t1, rfl, h1⟩ := lossy_ascii (c := '\r') (by decide) h
    obtain ⟨t2, rfl, h2⟩ := lossy_ascii (c := '\n') (by decide) h1
    obtain ⟨t3, rfl, h3⟩ := lossy_ascii hy h2
    refine ⟨t3, ?_, h3⟩
    rw [octets_cons, octets_cons, octets_cons, charOctets_ascii hy]
    rfl
  · obtain ⟨t2, rfl, h2⟩ := lossy_ascii (c := '\n') (by decide) h
    obtain ⟨t3, rfl, h3⟩ := lossy_ascii hy h2
    refine ⟨t3, ?_, h3⟩
    rw [octets_cons, octets_cons, charOctets_ascii hy]
    rfl

/-- an octet from inside of a character stands for nothing by itself -/
theorem lossy_inside {x : Nat} (hx : 128 ≤ x ∧ x < 192) {r : List Nat} {t : Str} (h : LossyDecoded (x :: r) t) :
    ∃ t', t = lostChar :: t' ∧ LossyDecoded r t' := by
  have no : ∀ c m, charOctets c ≠ x :: m := by
    intro c m e
    obtain ⟨y, t, h1, h2⟩ := first_octet c
    rw [h1] at e
    simp only [List.cons.injEq] at e
    omega
  rcases lossy_cons h with ⟨d, m, r', t', h1, -⟩ | ⟨p, r', t', rfl, rfl, h2, -, h3, -⟩
  · exact absurd h1 (no _ _)
  · rcases h3 with rfl | ⟨c, v, h3⟩
    · exact ⟨t', rfl, h2⟩
    · exact absurd h3 (no _ _)

/-! ### Folded octets -/

theorem folded_high {br : Break} {p o r : List Nat} (hp : ∀ y ∈ p, 128 ≤ y) (h : OctetFolded br o (p ++ r)) :
    ∃ o', o = p ++ o' ∧ OctetFolded br o' r := by
  induction p generalizing o with
  | nil => exact ⟨o, rfl, h⟩
  | cons y p ih =>
    have hy := hp y (by simp)
    obtain ⟨o1, rfl, h1⟩ := folded_head (x := y) (r := p ++ r) (by cases br <;> simp [breakOctets] <;> omega) h rfl
    obtain ⟨o2, rfl, h2⟩ := ih (fun z hz => hp z (by simp [hz])) h1
    exact ⟨o2, rfl, h2⟩

theorem folded_keep {br : Break} {o f : List Nat} (p : List Nat) (h : OctetFolded br o f) : OctetFolded br (p ++ o) (p ++ f) := by
  induction p with
  | nil => exact h
  | cons x p ih => exact .keep ih

theorem octets_replicate_cons (n : Nat) (s : Str) :
    octets (List.replicate (n + 1) lostChar ++ s) = charOctets lostChar ++ octets (List.replicate n lostChar ++ s) := by
  rw [List.replicate_succ, List.cons_append, octets_cons]

/-- decoding folded octets: `m` is the rest of a character of which the first octets are already decoded -/
theorem lossy_folded {br : Break} : ∀ (n : Nat) {m : List Nat} {s : Str} {f : List Nat} {t : Str}, f.length ≤ n →
    (∀ y ∈ m, 128 ≤ y ∧ y < 192) → OctetFolded br (m ++ octets s) f → LossyDecoded f t →
    ∃ s' d, Damaged s s' d ∧ OctetFolded br (octets (List.replicate m.length lostChar ++ s')) (octets t) ∧
      d * ((breakOctets br).length + 1) + (m ++ octets s).length ≤ f.length := by
  intro n
  induction n with
  | zero =>
    intro m s f t hn hm hf hl
    obtain rfl : f = [] := List.length_eq_zero_iff.1 (by omega)
    have ho : m ++ octets s = [] := by
      generalize m ++ octets s = o at hf
      generalize hg : ([] : List Nat) = g at hf
      cases hf with
      | nil => rfl
      | keep => cases hg
      | fold => cases br <;> cases hg
    obtain ⟨rfl, ho⟩ := List.append_eq_nil_iff.1 ho
    obtain rfl : s = [] := by
      cases s with
      | nil => rfl
      | cons c s =>
        obtain ⟨x, t, h1, -⟩ := charOctets_shape c
        rw [octets_cons, h1] at ho
        cases ho
    obtain rfl := lossy_nil hl
    exact ⟨[], 0, .nil, .nil, by simp [octets]⟩
  | succ n ih =>
    intro m s f t hn hm hf hl
    generalize ho : m ++ octets s = o at hf
    cases hf with
    | nil =>
      obtain rfl := lossy_nil hl
      obtain ⟨rfl, ho⟩ := List.append_eq_nil_iff.1 ho
      obtain rfl : s = [] := by
        cases s with
        | nil => rfl
        | cons c s =>
          obtain ⟨x, t, h1, -⟩ := charOctets_shape c
          rw [octets_cons, h1] at ho
          cases ho
      exact ⟨[], 0, .nil, .nil, by simp⟩
    | @fold x o f hx hf =>
      subst ho
      obtain ⟨t', h1, h2⟩ := lossy_break hx hl
      simp only [List.length_append, List.length_cons] at hn
      obtain ⟨s', d, h3, h4, h5⟩ := ih (by omega) hm hf h2
      refine ⟨s', d, h3, ?_, ?_⟩
      · rw [h1]; exact .fold hx h4
      · simp only [List.length_append, List.length_cons] at h5 ⊢
        omega
    | @keep x o f hf =>
      simp only [List.length_cons] at hn
      cases m with
      | cons y m =>
        simp only [List.cons_append, List.cons.injEq] at ho
        obtain ⟨rfl, rfl⟩ := ho
        obtain ⟨t', rfl, h2⟩ := lossy_inside (hm y (by simp)) hl
        obtain ⟨s', d, h3, h4, h5⟩ := ih (by omega) (fun z hz => hm z (by simp [hz])) hf h2
        refine ⟨s', d, h3, ?_, ?_⟩
        · rw [List.length_cons, octets_replicate_cons, octets_cons]
          exact folded_keep _ h4
        · simp only [List.length_cons] at h5 ⊢
          omega
      | nil =>
        cases s with
        | nil => cases ho
        | cons c s =>
          obtain ⟨x', m, hc, -, hlen, hcont, -, -⟩ := charOctets_shape c
          rw [List.nil_append, octets_cons, hc, List.cons_append, List.cons.injEq] at ho
          obtain ⟨rfl, rfl⟩ := ho
          rcases lossy_cons hl with ⟨c', m', r', t', h1, rfl, rfl, h2⟩ | ⟨p, r', t', rfl, rfl, h2, h3, h4, h5⟩
          · obtain ⟨e1, e2⟩ := char_part (v := []) hc (by rw [List.append_nil]; exact h1)
            obtain ⟨o', h3, h4⟩ := folded_high e2 hf
            obtain ⟨rfl, rfl⟩ := List.append_inj h3 (by simpa using e1.symm)
            obtain rfl := charOctets_inj (hc.trans h1.symm)
            rw [List.length_append] at hn
            obtain ⟨s', d, h5, h6, h7⟩ := ih (m := []) (by omega) (by simp) h4 h2
            refine ⟨c :: s', d, .keep h5, ?_, ?_⟩
            · exact folded_keep _ h6
            · simp only [List.length_append, List.length_cons, List.nil_append] at h7 ⊢
              omega
          · have hp : (∀ y ∈ p, 128 ≤ y) ∧ p.length ≤ m.length := by
              rcases h4 with rfl | ⟨c', v, h4⟩
              · simp
              · obtain ⟨e1, e2⟩ := char_part hc h4
                exact ⟨e2, by omega⟩
            obtain ⟨o', h6, h7⟩ := folded_high hp.1 hf
            obtain ⟨m2, rfl⟩ : ∃ m2, m = p ++ m2 :=
              List.prefix_of_prefix_length_le ⟨o', h6.symm⟩ ⟨octets s, rfl⟩ hp.2 |>.imp fun _ h => h.symm
            rw [List.append_assoc, List.append_cancel_left_eq] at h6
            subst h6
            cases m2 with
            | nil =>
              exact absurd (by rw [hc, List.append_nil]; rfl) (h3 c r')
            | cons y m2 =>
              generalize ho : y :: m2 ++ octets s = o at h7
              cases h7 with
              | nil => cases ho
              | @keep y' o r' h7 =>
                simp only [List.cons_append, List.cons.injEq] at ho
                obtain ⟨rfl, rfl⟩ := ho
                exact absurd hc (h5 y r' rfl c m2)
              | @fold z o r' hz h7 =>
                subst ho
                obtain ⟨t2, h8, h9⟩ := lossy_break hz h2
                simp only [List.length_append, List.length_cons] at hn
                obtain ⟨s', d, h10, h11, h12⟩ := ih (m := y :: m2) (by omega) (fun w hw => hcont w (by
                  rw [List.mem_append]; exact .inr hw)) h7 h9
                refine ⟨List.replicate ((y :: m2).length + 1) lostChar ++ s', d + 1, ?_, ?_, ?_⟩
                · refine .lost ?_ (by simp) ?_ h10
                  · by_cases hlow : c.toNat < 128
                    · rw [charOctets_ascii hlow] at hc
                      simp at hc
                    · omega
                  · rw [hc]; simp
                · show OctetFolded br (octets (_ ++ s')) _
                  rw [octets_replicate_cons, octets_cons, h8]
                  exact folded_keep _ (.fold hz h11)
                · simp only [List.length_append, List.length_cons, Nat.add_mul] at h12 ⊢
                  omega

/-! ### Every sequence of octets has exactly one lossy decoding -/

theorem lossy_unique {o : List Nat} {t t' : Str} (h : LossyDecoded o t) (h' : LossyDecoded o t') : t = t' := by
  suffices H : ∀ n, ∀ (o : List Nat) (t t' : Str), o.length ≤ n → LossyDecoded o t → LossyDecoded o t' → t = t' from
    H _ _ _ _ (Nat.le_refl _) h h'
  intro n
  induction n with
  | zero =>
    intro o t t' hn h h'
    obtain rfl : o = [] := List.length_eq_zero_iff.1 (by omega)
    rw [lossy_nil h, lossy_nil h']
  | succ n ih =>
    intro o t t' hn h h'
    cases o with
    | nil => rw [lossy_nil h, lossy_nil h']
    | cons x r =>
      simp only [List.length_cons] at hn
      rcases lossy_cons h with ⟨c, m, r1, t1, h1, rfl, rfl, h2⟩ | ⟨p, r1, t1, rfl, rfl, h2, h3, h4, h5⟩
      · rcases lossy_cons h' with ⟨c', m', r2, t2, g1, e, rfl, g2⟩ | ⟨p, r2, t2, e, rfl, g2, g3, g4, g5⟩
        · have : charOctets c ++ r1 = charOctets c' ++ r2 := by rw [h1, g1, List.cons_append, List.cons_append, e]
          obtain ⟨rfl, rfl⟩ := charOctets_prefix this
          rw [ih _ _ _ (by simp at hn; omega) h2 g2]
        · exact absurd (by rw [h1]; rfl) (g3 c r1)
      · rcases lossy_cons h' with ⟨c', m', r2, t2, g1, e, rfl, g2⟩ | ⟨p', r2, t2, e, rfl, g2, g3, g4, g5⟩
        · exact absurd (by rw [g1, e]; rfl) (h3 c' r2)
        · have same : p = p' := by
            have cmp : ∀ {a b u v : List Nat}, a ++ u = b ++ v → (b = [] ∨ ∃ c w, charOctets c = x :: b ++ w) →
                (∀ y s, u = y :: s → ∀ c v, charOctets c ≠ x :: a ++ y :: v) → b.length ≤ a.length := by
              intro a b u v hab hb hl
              rcases hb with rfl | ⟨c, w, hb⟩
              · simp
              · apply Nat.le_of_not_lt
                intro hlt
                obtain ⟨q, rfl⟩ := List.prefix_of_prefix_length_le ⟨u, hab⟩ ⟨v, rfl⟩ (by omega)
                rw [List.append_assoc, List.append_cancel_left_eq] at hab
                cases q with
                | nil => simp at hlt
                | cons y q => exact hl y (q ++ v) hab c (q ++ w) (by rw [hb]; simp)
            exact (List.append_inj e (Nat.le_antisymm (cmp e.symm h4 g5) (cmp e g4 h5))).1
          subst same
          rw [List.append_cancel_left_eq] at e
          subst e
          rw [ih _ _ _ (by simp at hn; omega) h2 g2]

theorem lossy_exists (o : List Nat) : ∃ t, LossyDecoded o t := by
  suffices H : ∀ n, ∀ o : List Nat, o.length ≤ n → ∃ t, LossyDecoded o t from H _ _ (Nat.le_refl _)
  intro n
  induction n with
  | zero =>
    intro o hn
    obtain rfl : o = [] := List.length_eq_zero_iff.1 (by omega)
    exact ⟨[], .nil⟩
  | succ n ih =>
    intro o hn
    cases o with
    | nil => exact ⟨[], .nil⟩
    | cons x r =>
      simp only [List.length_cons] at hn
      by_cases hc : ∃ c s, x :: r = charOctets c ++ s
      · obtain ⟨c, s, hc⟩ := hc
        obtain ⟨y, m, h1, -⟩ := charOctets_shape c
        have hs : s.length ≤ n := by
          have := congrArg List.length hc
          rw [h1] at this
          simp at this
          omega
        obtain ⟨t, ht⟩ := ih s hs
        exact ⟨c :: t, hc ▸ .char ht⟩
      · have longest : ∀ (r p : List Nat), (p.length = 1 ∨ (p ≠ [] ∧ ∃ c v, charOctets c = p ++ v)) →
            ∃ q r', r = q ++ r' ∧ ((p ++ q).length = 1 ∨ (p ++ q ≠ [] ∧ ∃ c v, charOctets c = p ++ q ++ v)) ∧
              ∀ y s, r' = y :: s → ∀ c v, charOctets c ≠ p ++ q ++ y :: v := by
          intro r
          induction r with
          | nil => exact fun p hp => ⟨[], [], rfl, by simpa using hp, by simp⟩
          | cons y r ihr =>
            intro p hp
            by_cases hy : ∃ c v, charOctets c = p ++ y :: v
            · obtain ⟨c, v, hy⟩ := hy
              obtain ⟨q, r', h1, h2, h3⟩ := ihr (p ++ [y]) (.inr ⟨by simp, c, v, by simpa using hy⟩)
              exact ⟨y :: q, r', by rw [h1]; rfl, by simpa using h2, by simpa using h3⟩
            · refine ⟨[], y :: r, rfl, by simpa using hp, ?_⟩
              rintro z s e c v h
              simp only [List.cons.injEq] at e
              obtain ⟨rfl, rfl⟩ := e
              exact hy ⟨c, v, by simpa using h⟩
        obtain ⟨q, r', h1, h2, h3⟩ := longest r [x] (.inl rfl)
        obtain ⟨t, ht⟩ := ih r' (by rw [h1, List.length_append] at hn; omega)
        refine ⟨lostChar :: t, ?_⟩
        have he : x :: r = [x] ++ q ++ r' := by rw [h1]; simp
        rw [he]
        exact .lost (fun c s h => hc ⟨c, s, he.trans h⟩) h2 h3 ht

theorem lossy_octets (s : Str) : LossyDecoded (octets s) s := by
  induction s with
  | nil => exact .nil
  | cons c s ih => exact .char ih

/-! ### Damaged texts -/

theorem damaged_append {a b t : Str} {n : Nat} (h : Damaged (a ++ b) t n) :
    ∃ a' b' i j, t = a' ++ b' ∧ n = i + j ∧ Damaged a a' i ∧ Damaged b b' j := by
  induction a generalizing t n with
  | nil => exact ⟨[], t, 0, n, rfl, by omega, .nil, h⟩
  | cons c a ih =>
    generalize hx : c :: a ++ b = x at h
    cases h with
    | nil => cases hx
    | keep h =>
      simp only [List.cons_append, List.cons.injEq] at hx
      obtain ⟨rfl, rfl⟩ := hx
      obtain ⟨a', b', i, j, rfl, rfl, h1, h2⟩ := ih h
      exact ⟨_, _, i, j, rfl, rfl, .keep h1, h2⟩
    | lost h1 h2 h3 h =>
      simp only [List.cons_append, List.cons.injEq] at hx
      obtain ⟨rfl, rfl⟩ := hx
      obtain ⟨a', b', i, j, rfl, rfl, h4, h5⟩ := ih h
      exact ⟨_, _, i + 1, j, (List.append_assoc ..).symm, by omega, .lost h1 h2 h3 h4, h5⟩

theorem damaged_ascii {s t : Str} {n : Nat} (h : Damaged s t n) (hs : Ascii s) : t = s ∧ n = 0 := by
  induction h with
  | nil => exact ⟨rfl, rfl⟩
  | @keep c s t n h ih =>
    obtain ⟨rfl, rfl⟩ := ih (fun x hx => hs x (by simp [hx]))
    exact ⟨rfl, rfl⟩
  | @lost c s t n k h1 h2 h3 h ih =>
    have := hs c (by simp)
    omega

/-- the characters in ASCII are the same at the same places -/
theorem damaged_mem {s t : Str} {n : Nat} (h : Damaged s t n) {x : Char} (hx : x.toNat < 128) : x ∈ t ↔ x ∈ s := by
  have hne : x ≠ lostChar := by rintro rfl; exact absurd hx (by decide)
  induction h with
  | nil => rfl
  | keep h ih => simp [ih]
  | @lost c s t n k h1 h2 h3 h ih =>
    have hc : x ≠ c := by rintro rfl; omega
    simp [ih, hne, hc]

theorem damaged_nil {s t : Str} {n : Nat} (h : Damaged s t n) : t = [] ↔ s = [] := by
  cases h with
  | nil => rfl
  | keep h => simp
  | lost h1 h2 h3 h =>
    simp only [List.append_eq_nil_iff, List.replicate_eq_nil_iff, reduceCtorEq, iff_false, not_and]
    omega

/-- a text in ASCII at the start of the damaged text was at the start of the text -/
theorem damaged_prefix {s t : Str} {n : Nat} (h : Damaged s t n) {p : Str} (hp : Ascii p) : p <+: t → p <+: s := by
  induction h generalizing p with
  | nil => exact id
  | @keep c s t n h ih =>
    cases p with
    | nil => simp
    | cons x p =>
      rw [List.cons_prefix_cons, List.cons_prefix_cons]
      exact fun ⟨h1, h2⟩ => ⟨h1, ih (fun y hy => hp y (by simp [hy])) h2⟩
  | @lost c s t n k h1 h2 h3 h ih =>
    cases p with
    | nil => simp
    | cons x p =>
      obtain ⟨k, rfl⟩ : ∃ k', k = k' + 1 := ⟨k - 1, by omega⟩
      rw [List.replicate_succ, List.cons_append, List.cons_prefix_cons]
      rintro ⟨rfl, -⟩
      exact absurd (hp lostChar (by simp)) (by decide)

/-- a text in ASCII inside of the damaged text was inside of the text -/
theorem damaged_infix {s t : Str} {n : Nat} (h : Damaged s t n) {p : Str} (hp : Ascii p) : p <:+: t → p <:+: s := by
  induction h with
  | nil => exact id
  | @keep c s t n h ih =>
    rw [List.infix_cons_iff, List.infix_cons_iff]
    rintro (hi | hi)
    · exact .inl (damaged_prefix (.keep h) hp hi)
    · exact .inr (ih hi)
  | @lost c s t n k h1 h2 h3 h ih =>
    intro hi
    have key : ∀ j, p <:+: List.replicate j lostChar ++ t → p <:+: c :: s := by
      intro j
      induction j with
      | zero => exact fun hi => (ih hi).trans (List.suffix_cons c s).isInfix
      | succ j ihj =>
        rw [List.replicate_succ, List.cons_append, List.infix_cons_iff]
        rintro (hi | hi)
        · cases p with
          | nil => simp
          | cons x p =>
            rw [List.cons_prefix_cons] at hi
            obtain ⟨rfl, -⟩ := hi
            exact absurd (hp lostChar (by simp)) (by decide)
        · exact ihj hi
    exact key k hi

theorem damaged_markerFree {s t : Str} {n : Nat} (h : Damaged s t n) (hm : MarkerFree s) : MarkerFree t :=
  ⟨fun hi => hm.1 (damaged_infix h (by decide) hi), fun hi => hm.2 (damaged_infix h (by decide) hi)⟩

theorem damaged_refl (s : Str) : Damaged s s 0 := by
  induction s with
  | nil => exact .nil
  | cons c s ih => exact .keep ih

theorem damaged_join {a a' b b' : Str} {i j : Nat} (h : Damaged a a' i) (h' : Damaged b b' j) : Damaged (a ++ b) (a' ++ b') (i + j) := by
  induction h with
  | nil => simpa using h'
  | keep h ih => exact .keep ih
  | @lost c s t n k h1 h2 h3 h ih =>
    rw [List.append_assoc, show n + 1 + j = n + j + 1 by omega]
    exact .lost h1 h2 h3 ih

/-- reading a TEXT and damaging characters can be done in any order -/
theorem damaged_unescaped {s t : Str} {n : Nat} (h : Damaged s t n) : Damaged (unescaped s) (unescaped t) n := by
  have lost0 : ∀ (k : Nat) (t : Str), unescapedRun 0 (List.replicate k lostChar ++ t) = List.replicate k lostChar ++ unescapedRun 0 t := by
    intro k t
    induction k with
    | zero => rfl
    | succ k ih =>
      rw [List.replicate_succ, List.cons_append, unescapedRun, if_neg (by decide), if_pos rfl, ih]
      rfl
  have lostK : ∀ (j k : Nat) (t : Str), unescapedRun j (List.replicate (k + 1) lostChar ++ t) =
      List.replicate ((j + 1) / 2) '\\' ++ (List.replicate (k + 1) lostChar ++ unescapedRun 0 t) := by
    intro j k t
    rw [List.replicate_succ, List.cons_append, unescapedRun, if_neg (by decide)]
    split
    · rename_i h
      subst h
      rw [lost0]
      rfl
    · rw [show escapeMeaning lostChar = none by decide]
      simp only
      rw [lost0]
      rfl
  have keepAll : ∀ (p : Str) {s t : Str} {n : Nat}, Damaged s t n → Damaged (p ++ s) (p ++ t) n := by
    intro p s t n h
    simpa using damaged_join (damaged_refl p) h
  suffices H : ∀ k, Damaged (unescapedRun k s) (unescapedRun k t) n from H 0
  induction h with
  | nil => exact fun k => damaged_refl _
  | @keep c s t n h ih =>
    intro k
    rw [unescapedRun, unescapedRun]
    split
    · exact ih _
    · split
      · exact .keep (ih _)
      · split
        · exact keepAll _ (.keep (ih _))
        · exact keepAll _ (.keep (ih _))
  | @lost c s t n k h1 h2 h3 h ih =>
    intro j
    obtain ⟨k, rfl⟩ : ∃ k', k = k' + 1 := ⟨k - 1, by omega⟩
    have hne : c ≠ '\\' := by rintro rfl; exact absurd h1 (by decide)
    have hesc : escapeMeaning c = none := by
      unfold escapeMeaning
      repeat' split
      all_goals first | rfl | skip
      all_goals exfalso; revert h1; simp_all
    rw [lostK, unescapedRun, if_neg hne]
    split
    · rename_i hj
      subst hj
      exact .lost h1 h2 h3 (ih 0)
    · rw [hesc]
      exact keepAll _ (.lost h1 h2 h3 (ih 0))

theorem damagedText_append {a b t : Str} (h : DamagedText (a ++ b) t) : ∃ a' b', t = a' ++ b' ∧ DamagedText a a' ∧ DamagedText b b' := by
  obtain ⟨n, h⟩ := h
  obtain ⟨a', b', i, j, rfl, -, h1, h2⟩ := damaged_append h
  exact ⟨a', b', rfl, ⟨_, h1⟩, ⟨_, h2⟩⟩

theorem damagedText_front {a b t : Str} (ha : Ascii a) (h : DamagedText (a ++ b) t) : ∃ b', t = a ++ b' ∧ DamagedText b b' := by
  obtain ⟨a', b', rfl, ⟨n, h1⟩, h2⟩ := damagedText_append h
  rw [(damaged_ascii h1 ha).1]
  exact ⟨b', rfl, h2⟩

theorem damagedText_all {a t : Str} (ha : Ascii a) (h : DamagedText a t) : t = a := by
  obtain ⟨n, h⟩ := h
  exact (damaged_ascii h ha).1

theorem damagedText_was {s t : Str} (ht : Ascii t) (h : DamagedText s t) : s = t := by
  obtain ⟨n, h⟩ := h
  induction h with
  | nil => rfl
  | keep h ih => rw [ih (fun x hx => ht x (by simp [hx]))]
  | @lost c s t n k h1 h2 h3 h ih =>
    exact absurd (ht lostChar (by simp; omega)) (by decide)

theorem damaged_isText {k v v' : Str} (h : DamagedText v v') : IsTextFor k (some v) ↔ IsTextFor k (some v') := by
  have same : ∀ {a : Str}, Ascii a → (v = a ↔ v' = a) := by
    intro a ha
    constructor
    · rintro rfl
      exact damagedText_all ha h
    · rintro rfl
      exact damagedText_was ha h
  have others : ∀ l : List Str, (∀ a ∈ l, Ascii a) → (v ∈ l ↔ v' ∈ l) := by
    intro l hl
    induction l with
    | nil => simp
    | cons a l ih => rw [List.mem_cons, List.mem_cons, same (hl a (by simp)), ih (fun b hb => hl b (by simp [hb]))]
  unfold IsTextFor
  simp only
  rw [same (a := c!"TEXT") (by decide), others otherTypeNames (by decide +kernel)]

theorem damaged_replaces : Replaces DamagedText DamagedText Ascii AnyValue where
  join := ascii_append
  delim := by decide
  breaks := ascii_breaks
  keyword := ascii_keywords
  append := damagedText_append
  kept := damagedText_all
  nil := fun ⟨_, h⟩ _ _ => damaged_nil h
  mem := by
    rintro s t ⟨n, h⟩ x hx
    refine (damaged_mem h ?_).1
    revert hx
    simp only [List.mem_cons, List.not_mem_nil, or_false]
    rintro (rfl | rfl | rfl | rfl | rfl) <;> decide
  quote := fun ⟨_, h⟩ _ _ => damaged_prefix h (by decide)
  crlf := fun ⟨_, h⟩ => damaged_infix h (by decide)
  empty := ⟨0, .nil⟩
  read := fun ⟨n, h⟩ => ⟨n, damaged_unescaped h⟩
  raw := id
  type := fun h _ _ => damaged_isText h

/-! ### C139 -/

/-- **C139.** Lossy decoding is defined for all octets in exactly one way, and gives a text back from its octets. -/
theorem lossy_function (o : List Nat) :
    (∃ t, LossyDecoded o t ∧ ∀ t', LossyDecoded o t' → t' = t) ∧ ∀ s, o = octets s → ∀ t, LossyDecoded o t ↔ t = s := by
  constructor
  · obtain ⟨t, ht⟩ := lossy_exists o
    exact ⟨t, ht, fun t' h => lossy_unique h ht⟩
  · rintro s rfl t
    exact ⟨fun h => lossy_unique h (lossy_octets s), fun h => h ▸ lossy_octets s⟩

/-- **C139.** If the octets of a text were folded anywhere, also inside of characters, then lossy decoding and unfolding
gives the text, except that some characters are damaged: none of them in ASCII, and not more than there are folds. -/
theorem lossy_text {br : Break} {s : Str} (hm : MarkerFree s) (hq : br = .lf → '\r' ∉ s) {f : List Nat}
    (hf : OctetFolded br (octets s) f) {t : Str} (ht : LossyDecoded f t) :
    ∃ n, Damaged s (unfold t) n ∧ n * ((breakOctets br).length + 1) + (octets s).length ≤ f.length := by
  obtain ⟨s', n, h1, h2, h3⟩ := lossy_folded (m := []) _ (Nat.le_refl _) (by simp) hf ht
  simp only [List.length_nil, List.replicate_zero, List.nil_append] at h2 h3
  have h4 := octet_folded (damaged_markerFree h1 hm) (fun e hc => hq e ((damaged_mem h1 (by decide)).1 hc)) h2
  rw [octetUnfold_octets] at h4
  rw [unfold_eq_spec, h4.2 (unfoldSpec t) rfl]
  exact ⟨n, h1, h3⟩

/-- **C139.** Damaged texts are read as damaged texts; what is in ASCII is not damaged. -/
theorem damaged_read {s t : Str} (h : DamagedText s t) :
    DamagedText (unescaped s) (unescaped t) ∧ (Ascii s → t = s) ∧ (Ascii t → s = t) ∧ (t = [] ↔ s = []) ∧
    ∀ x : Char, x.toNat < 128 → (x ∈ t ↔ x ∈ s) := by
  refine ⟨?_, fun ha => damagedText_all ha h, fun ha => damagedText_was ha h, ?_, fun x hx => ?_⟩
  · obtain ⟨n, h⟩ := h; exact ⟨n, damaged_unescaped h⟩
  · obtain ⟨n, h⟩ := h; exact damaged_nil h
  · obtain ⟨n, h⟩ := h; exact damaged_mem h hx

section
variable [Uni]

omit [Uni] in
theorem lossy_presented {br : Break} {b e n : Str} {l : List Item} {file : Str} (hp : Presents br (.comp b e n l) file)
    (hm : unfold (unfold file) = unfold file) {f : List Nat} (hf : OctetFolded br (octetUnfold (octets file)) f) {t : Str}
    (ht : LossyDecoded f t) : DamagedText (unfold file) (unfold t) := by
  have hcr : br = .lf → '\r' ∉ unfold file := by
    simp only [Presents] at hp
    obtain ⟨lead, bl, body, tail, hl, hb, htl, hbody, hcr, hfold⟩ := hp
    rw [foldedForm_unfold hfold]
    exact hcr
  rw [octetUnfold_octets, ← unfold_eq_spec] at hf
  rw [unfold_eq_spec (unfold file)] at hm
  obtain ⟨k, h1, -⟩ := lossy_text (markerFree_of_unfold hm) hcr hf ht
  exact ⟨k, h1⟩

/-- **C139.** If the octets of a file that presents a document with names in ASCII were folded again anywhere, also inside
of characters, then what lossy decoding makes of them presents the same document with damaged values. -/
theorem lossy_document {br : Break} {b e n : Str} {l : List Item} (h : (Item.comp b e n l).Ok br)
    (ha : (Item.comp b e n l).NamesAre Ascii AnyValue) {file : Str} (hp : Presents br (.comp b e n l) file)
    (hm : unfold (unfold file) = unfold file) {f : List Nat} (hf : OctetFolded br (octetUnfold (octets file)) f) {t : Str}
    (ht : LossyDecoded f t) :
    ∃ l', SameButItems DamagedText l l' ∧ (Item.comp b e n l').Ok br ∧ Presents br (.comp b e n l') t := by
  exact presents_same damaged_replaces h ha hp (lossy_presented hp hm hf ht)

/-- **C139.** It is read as the same calendar with damaged values. -/
theorem lossy_calendar {br : Break} {b e : Str} {l : List Item} (h : (Item.comp b e c!"VCALENDAR" l).Ok br)
    (ha : (Item.comp b e c!"VCALENDAR" l).NamesAre Ascii AnyValue) {file : Str} (hp : Presents br (.comp b e c!"VCALENDAR" l) file)
    (hm : unfold (unfold file) = unfold file) {f : List Nat} (hf : OctetFolded br (octetUnfold (octets file)) f) {t : Str}
    (ht : LossyDecoded f t) :
    ∃ c d, Calendar.fromStr file = some c ∧ Calendar.fromStr t = some d ∧ SameButCal DamagedText c d := by
  exact presents_same_calendar damaged_replaces h ha hp (lossy_presented hp hm hf ht)

/-- **C139.** If the octets of a written calendar with names in ASCII were folded again anywhere, also inside of characters,
then what lossy decoding makes of them is read as the calendar with damaged values. -/
theorem lossy_written {c : Calendar} (hc : CalendarOk c) (hs : CalendarSafe c)
    (hst : ∀ x ∈ c.comps, HasStamps x.toOther) (ha : NamesAreCal Ascii AnyValue c) {w : World} (hw : World.Ok w) {out : Str}
    (h : c.fmtWrite w = .ok out) {f : List Nat} (hf : OctetFolded .crlf (octetUnfold (octets out)) f) {t : Str}
    (ht : LossyDecoded f t) : ∃ d, Calendar.fromStr t = some d ∧ SameButCal DamagedText c d := by
  obtain ⟨h1, -⟩ := unfold_written_partial c (calendarOk_writable hc) w hw out h
  have hok := calendar_item_ok (calendarOk_writable hc) hw
  have hn := calendar_namesAre (by decide) (by decide) (by decide) ha hw
  have hp := presents_written hc hw h
  unfold Calendar.item at hok hn hp
  obtain ⟨c', d, e1, e2, e3⟩ := lossy_calendar hok hn hp h1 hf ht
  rw [calendar_roundtrip c hc hs hst w hw out h] at e1
  cases e1
  exact ⟨d, e2, e3⟩

end

end Ical
