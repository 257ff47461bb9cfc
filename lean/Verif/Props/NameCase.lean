import Verif.Spec.NameCase
import Verif.Props.Names
import Verif.Props.Parsing

/-!
C77: exactly what becomes of names written in another letter case.
-/

namespace Ical

open Nom Spec

/-- **C77.** Letter case is that of the 26 letters; every other character is only the same as itself. -/
theorem lowercase_table (c : Char) :
    lowerAscii c = ((c!"ABCDEFGHIJKLMNOPQRSTUVWXYZ".zip c!"abcdefghijklmnopqrstuvwxyz").lookup c).getD c := by
  by_cases h : 0x41 ≤ c.toNat ∧ c.toNat ≤ 0x5A
  · have key : ∀ i ∈ List.range 26, lowerAscii (Char.ofNat (0x41 + i)) =
        ((c!"ABCDEFGHIJKLMNOPQRSTUVWXYZ".zip c!"abcdefghijklmnopqrstuvwxyz").lookup (Char.ofNat (0x41 + i))).getD
          (Char.ofNat (0x41 + i)) := by decide
    have := key (c.toNat - 0x41) (List.mem_range.2 (by omega))
    rw [show 0x41 + (c.toNat - 0x41) = c.toNat by omega, Char.ofNat_toNat] at this
    exact this
  · have e : lowerAscii c = c := by
      unfold lowerAscii
      rw [if_neg]
      simpa using h
    have key : ∀ x ∈ c!"ABCDEFGHIJKLMNOPQRSTUVWXYZ".zip c!"abcdefghijklmnopqrstuvwxyz", 0x41 ≤ x.1.toNat ∧ x.1.toNat ≤ 0x5A := by
      decide
    have : (c!"ABCDEFGHIJKLMNOPQRSTUVWXYZ".zip c!"abcdefghijklmnopqrstuvwxyz").lookup c = none := by
      rw [List.lookup_eq_none_iff]
      intro x hx
      simp only [bne_iff_ne, ne_eq]
      intro e
      exact h (e ▸ key x hx)
    rw [this, e]
    rfl

theorem meaning_key (p : DParam) : p.meaning.key = p.key := by unfold DParam.meaning; split <;> rfl

theorem meaning_recased : ∀ {ps qs : List DParam}, DParamsRecased ps qs →
    PParamsRecased (ps.map DParam.meaning) (qs.map DParam.meaning)
  | [], [], _ => trivial
  | p :: ps, q :: qs, h => by
    obtain ⟨h1, h2, h3⟩ := h
    refine ⟨by simpa only [meaning_key] using h1, ?_, meaning_recased h3⟩
    unfold DParam.meaning
    rw [h2]
    cases q.val with
    | none => rfl
    | some x => rfl
  | [], _ :: _, h => h.elim
  | _ :: _, [], h => h.elim

theorem params_eq : ∀ {ps qs : List DParam}, DParamsRecased ps qs → ps.map DParam.meaning = qs.map DParam.meaning →
    ps = qs
  | [], [], _, _ => rfl
  | p :: ps, q :: qs, h, he => by
    obtain ⟨h1, h2, h3⟩ := h
    simp only [List.map_cons, List.cons.injEq] at he
    have hk := congrArg PParam.key he.1
    simp only [meaning_key] at hk
    rw [params_eq h3 he.2]
    obtain ⟨k, v⟩ := p
    obtain ⟨k', v'⟩ := q
    simp only at hk h2
    rw [hk, h2]
  | [], _ :: _, h, _ => h.elim
  | _ :: _, [], h, _ => h.elim

/-- recased elements that are read as the same are the same -/
theorem items_eq : ∀ {l m : List Item}, ItemsRecased l m → itemsProps l = itemsProps m → itemsComps l = itemsComps m →
    ItemsSame l m
  | [], [], _, _, _ => by simp [ItemsSame]
  | .prop k ps v :: l, .prop k' ps' v' :: m, h, hp, hc => by
    simp only [ItemsRecased, Item.Recased] at h
    obtain ⟨⟨h1, h2, rfl⟩, h3⟩ := h
    simp only [itemsProps, itemsComps, List.cons.injEq] at hp hc
    have hk : k = k' := congrArg PProp.name hp.1
    have hps : ps = ps' := params_eq h2 (congrArg PProp.params hp.1)
    simp only [ItemsSame, Item.SameUpToCase]
    exact ⟨⟨hk, hps, trivial⟩, items_eq h3 hp.2 hc⟩
  | .comp b e n sub :: l, .comp b' e' n' sub' :: m, h, hp, hc => by
    simp only [ItemsRecased, Item.Recased] at h
    obtain ⟨⟨h1, h2, h3, h4⟩, h5⟩ := h
    simp only [itemsProps, itemsComps, List.cons.injEq, PComp.mk.injEq] at hp hc
    simp only [ItemsSame, Item.SameUpToCase]
    exact ⟨⟨h1, h2, hc.1.1, items_eq h4 hc.1.2.1 hc.1.2.2⟩, items_eq h5 hp hc.2⟩
  | .prop _ _ _ :: _, .comp _ _ _ _ :: _, h, _, _ => by simp [ItemsRecased, Item.Recased] at h
  | .comp _ _ _ _ :: _, .prop _ _ _ :: _, h, _, _ => by simp [ItemsRecased, Item.Recased] at h
  | [], _ :: _, h, _, _ => by simp [ItemsRecased] at h
  | _ :: _, [], h, _, _ => by simp [ItemsRecased] at h

/-- the values agree exactly if the kinds are kept -/
theorem value_kept (k k' : Str) (ps ps' : List DParam) (v : Str) :
    (meaningProp k ps v).val = (meaningProp k' ps' v).val ↔
      ((IsTextFor k (valueOf ps) ↔ IsTextFor k' (valueOf ps')) ∨ unescaped v = v) := by
  unfold meaningProp
  simp only
  rw [← valueOf, ← valueOf]
  by_cases h1 : IsTextFor k (valueOf ps) <;> by_cases h2 : IsTextFor k' (valueOf ps') <;> simp [h1, h2]
  exact eq_comm

theorem items_kept : ∀ {l m : List Item}, ItemsRecased l m →
    (PPropsRecased (itemsProps l) (itemsProps m) ∧ PCompsRecased (itemsComps l) (itemsComps m) ↔ ItemsKindKept l m)
  | [], [], _ => by simp [itemsProps, itemsComps, PPropsRecased, PCompsRecased, ItemsKindKept]
  | .prop k ps v :: l, .prop k' ps' v' :: m, h => by
    simp only [ItemsRecased, Item.Recased] at h
    obtain ⟨⟨h1, h2, rfl⟩, h3⟩ := h
    have ih := items_kept h3
    simp only [itemsProps, itemsComps, PPropsRecased, ItemsKindKept, Item.KindKept]
    rw [value_kept, ← ih]
    have hn : SameName (meaningProp k ps v).name (meaningProp k' ps' v).name := h1
    have hps : PParamsRecased (meaningProp k ps v).params (meaningProp k' ps' v).params := meaning_recased h2
    simp only [hn, hps, true_and, and_assoc]
  | .comp b e n sub :: l, .comp b' e' n' sub' :: m, h => by
    simp only [ItemsRecased, Item.Recased] at h
    obtain ⟨⟨h1, h2, h3, h4⟩, h5⟩ := h
    have ih1 := items_kept h4
    have ih2 := items_kept h5
    simp only [itemsProps, itemsComps, PCompsRecased, PCompRecased, ItemsKindKept, Item.KindKept]
    rw [← ih1, ← ih2]
    simp only [h3, true_and]
    constructor
    · rintro ⟨a, b, c⟩; exact ⟨b, a, c⟩
    · rintro ⟨b, a, c⟩; exact ⟨a, b, c⟩
  | .prop _ _ _ :: _, .comp _ _ _ _ :: _, h => by simp [ItemsRecased, Item.Recased] at h
  | .comp _ _ _ _ :: _, .prop _ _ _ :: _, h => by simp [ItemsRecased, Item.Recased] at h
  | [], _ :: _, h => by simp [ItemsRecased] at h
  | _ :: _, [], h => by simp [ItemsRecased] at h

variable [Uni]

/-- **C77** (partial: the exact extent). Two well-formed documents that differ in the letter case of names only are
both read, each with its names as they are written. The results are the same only if no name was changed; they agree
up to the letter case of names exactly if no value with escapes belongs to a property that is TEXT in one of them and
not in the other. -/
theorem name_case_exact_partial {br br' : Break} {b e n b' e' n' : Str} {l l' : List Item}
    (hr : (Item.comp b e n l).Recased (.comp b' e' n' l')) (h : (Item.comp b e n l).Ok br)
    (h' : (Item.comp b' e' n' l').Ok br') (hq : br = .lf → '\r' ∉ (Item.comp b e n l).text br)
    (hq' : br' = .lf → '\r' ∉ (Item.comp b' e' n' l').text br') :
    ∃ c c', readComponent ((Item.comp b e n l).text br) = some c ∧ c.name = n ∧
      readComponent ((Item.comp b' e' n' l').text br') = some c' ∧ c'.name = n' ∧
      (c = c' ↔ (Item.comp b e n l).SameUpToCase (.comp b' e' n' l')) ∧
      (PCompRecased c c' ↔ (Item.comp b e n l).KindKept (.comp b' e' n' l')) := by
  have c1 := component_doc h hq
  have c2 := component_doc h' hq'
  simp only [Item.Recased] at hr
  refine ⟨.mk n (itemsProps l) (itemsComps l), .mk n' (itemsProps l') (itemsComps l'), ?_, rfl, ?_, rfl, ?_, ?_⟩
  · unfold readComponent; rw [c1]; rfl
  · unfold readComponent; rw [c2]; rfl
  · constructor
    · intro he
      simp only [PComp.mk.injEq] at he
      simp only [Item.SameUpToCase]
      exact ⟨hr.1, hr.2.1, he.1, items_eq hr.2.2.2 he.2.1 he.2.2⟩
    · intro hs
      have := ((same_up_to_case br).1 _ _ hs h).2.2.1
      simpa [itemsComps] using this
  · simp only [PCompRecased, Item.KindKept]
    rw [← items_kept hr.2.2.2]
    simp only [hr.2.2.1, true_and]

end Ical

namespace Ical
open Spec

/-- a document with a summary, written in capitals and in lower case -/
def recasedDoc (n k : Str) (v : Str) : Item := .comp c!"BEGIN:" c!"END:" n [.prop k [⟨c!"X", none⟩] v]

theorem recasedDoc_ok (n k v : Str) (h : @IsName Uni.ascii n ∧ @KeyOk Uni.ascii k ∧ ¬ ['\r', '\n'] <:+: v) :
    @Item.Ok Uni.ascii .crlf (recasedDoc n k v) := by
  simp only [recasedDoc, Item.Ok, ItemsOk, ValOk, DParam.Ok, and_true, List.forall_mem_cons,
    List.not_mem_nil, false_implies, implies_true]
  exact ⟨by decide, by decide, h.1, h.2.1, by decide, h.2.2⟩

/-- the hypotheses hold for an event with a summary; without escapes the kinds are kept, with an escaped comma they
are not -/
example : (recasedDoc c!"VEVENT" c!"SUMMARY" c!"a").Recased (recasedDoc c!"vEvent" c!"summary" c!"a") ∧
    @Item.Ok Uni.ascii .crlf (recasedDoc c!"VEVENT" c!"SUMMARY" c!"a\\, b") ∧
    @Item.Ok Uni.ascii .crlf (recasedDoc c!"vEvent" c!"summary" c!"a\\, b") ∧
    (recasedDoc c!"VEVENT" c!"SUMMARY" c!"a").KindKept (recasedDoc c!"vEvent" c!"summary" c!"a") ∧
    ¬ (recasedDoc c!"VEVENT" c!"SUMMARY" c!"a\\, b").KindKept (recasedDoc c!"vEvent" c!"summary" c!"a\\, b") := by
  refine ⟨?_, recasedDoc_ok _ _ _ (by decide +kernel), recasedDoc_ok _ _ _ (by decide +kernel), ?_, ?_⟩
  · simp only [recasedDoc, Item.Recased, ItemsRecased, DParamsRecased]
    decide +kernel
  · simp only [recasedDoc, Item.KindKept, ItemsKindKept]
    decide +kernel
  · simp only [recasedDoc, Item.KindKept, ItemsKindKept]
    decide +kernel

end Ical
