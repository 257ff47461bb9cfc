import Verif.Spec.WellFormed
import Verif.Proofs.PropertyIO
import Verif.Proofs.Dates
import Verif.Props.Builders

/-!
Writing a component and reading it back.
-/

namespace Ical

open Nom Spec

/-! ### Lists of items -/

theorem itemsText_append (br : Break) (a b : List Item) : itemsText br (a ++ b) = itemsText br a ++ itemsText br b := by
  induction a with
  | nil => rfl
  | cons i a ih => simp [itemsText, ih]

/-- the world of a part -/
theorem worldOk_sub {w : World} (h : World.Ok w) (j : Nat) : World.Ok (w.sub j) :=
  ⟨fun p l => h.order (j :: p) l, fun p => h.uuid (j :: p), fun p => h.now (j :: p)⟩

theorem noIndent_of_unfold {f l t : Str} (hu : unfoldSpec f = l) (hl : NoIndent (l ++ t)) (ht : NoIndent t) :
    NoIndent (f ++ t) := by
  cases f with
  | nil => exact ht
  | cons c f =>
    have key : ∀ d, (∀ m : Marker, m.text.head? ≠ some d) → NoIndent (d :: (unfoldSpec f ++ t)) ∨ c ≠ d := by
      intro d hd
      by_cases hc : c = d
      · left
        subst hc
        rw [unfoldSpec_cons c f ?_] at hu
        · rw [← hu] at hl
          exact hl
        · intro m hm
          have := hd m
          obtain ⟨r, hr⟩ := hm
          cases m <;> simp [Marker.text] at hr this <;> exact this hr.1
      · exact .inr hc
    refine noIndent_cons ?_ ?_
    · rcases key ' ' (by intro m; cases m <;> simp [Marker.text]) with h | h
      · simp [NoIndent] at h
      · exact h
    · rcases key '\t' (by intro m; cases m <;> simp [Marker.text]) with h | h
      · simp [NoIndent] at h
      · exact h

/-! ### What the writer generates -/

theorem fmtUtc_chars (u : UtcDateTime) : ∀ c ∈ fmtUtc u, IsDigit c ∨ c ∈ c!"+-TZ" := by
  intro c hc
  unfold fmtUtc fmtDateTime fmtDate fmtYear at hc
  simp only [List.mem_append, List.mem_cons, List.not_mem_nil, or_false] at hc
  have hy : ∀ y : Int, c ∈ (if 0 ≤ y ∧ y ≤ 9999 then fmt4 y.toNat else if 0 ≤ y then '+' :: fmt4 y.toNat
      else '-' :: fmt4 (-y).toNat) → IsDigit c ∨ c ∈ c!"+-TZ" := by
    intro y h
    split at h
    · exact .inl (fmt4_digits _ c h)
    · split at h
      · rcases List.mem_cons.1 h with rfl | h
        · right; decide
        · exact .inl (fmt4_digits _ c h)
      · rcases List.mem_cons.1 h with rfl | h
        · right; decide
        · exact .inl (fmt4_digits _ c h)
  rcases hc with (((hc | hc) | hc) | (rfl | (hc | hc) | hc)) | rfl
  · exact hy _ hc
  · exact .inl (fmt2_digits _ c hc)
  · exact .inl (fmt2_digits _ c hc)
  · right; decide
  · exact .inl (fmt2_digits _ c hc)
  · exact .inl (fmt2_digits _ c hc)
  · exact .inl (fmt2_digits _ c hc)
  · right; decide

theorem fmtUtc_not_mem (u : UtcDateTime) {x : Char} (h : ¬ IsDigit x) (h' : x ∉ c!"+-TZ") : x ∉ fmtUtc u :=
  fun hc => (fmtUtc_chars u x hc).elim h h'

theorem rep2_no_bs {y z : Char} {s : Str} (h : '\\' ∉ s) : rep2 y z s = s :=
  rep2_of_not_infix (fun hc => h (hc.mem (by simp)))

theorem unescape_no_bs {s : Str} (h : '\\' ∉ s) : unescapeText s = s := by
  rw [unescapeText_eq]
  simp only [rep2_no_bs h]

/-- a generated line -/
def genItem (k v : Str) : Item := .prop k [] v

variable [Uni]

theorem itemsOk_append {br : Break} {a b : List Item} : ItemsOk br (a ++ b) ↔ ItemsOk br a ∧ ItemsOk br b := by
  induction a with
  | nil => simp [ItemsOk]
  | cons i a ih => simp [ItemsOk, ih, and_assoc]

omit [Uni] in
theorem itemsProps_append (a b : List Item) : itemsProps (a ++ b) = itemsProps a ++ itemsProps b := by
  induction a with
  | nil => rfl
  | cons i a ih => cases i <;> simp [itemsProps, ih]

omit [Uni] in
theorem itemsComps_append (a b : List Item) : itemsComps (a ++ b) = itemsComps a ++ itemsComps b := by
  induction a with
  | nil => simp [itemsComps]
  | cons i a ih => cases i <;> simp [itemsComps, ih]

omit [Uni] in
theorem meaning_gen (k v : Str) (h : '\\' ∉ v) : meaningProp k [] v = ⟨k, v, []⟩ := by
  unfold meaningProp
  rw [← unescapeText_unescaped, unescape_no_bs h]
  simp

/-- the line for a missing property -/
def missing (props : BMap Property) (k v : Str) : List Item := if props.containsKey k then [] else [genItem k v]

/-! ### Properties as items -/

/-- the unfolded line of a property -/
def propItem (p : Property) (w : World) : Item := .prop p.key ((w.order [] p.params).map dparam) p.valueText

/-- the unfolded lines of properties -/
def propItems : List Property → World → List Item
  | [], _ => []
  | p :: l, w => propItem p (w.sub 0) :: propItems l (w.sub 1)

theorem unfold_props {l : List Property} (hl : ∀ p ∈ l, PropOk p) {w : World} (hw : World.Ok w) {out : Str}
    (h : fmtProps l w = .ok out) {t : Str} (ht : NoIndent t) :
    unfoldSpec (out ++ t) = itemsText .crlf (propItems l w) ++ unfoldSpec t ∧ NoIndent (out ++ t) := by
  induction l generalizing w out with
  | nil =>
    cases h
    exact ⟨rfl, ht⟩
  | cons p l ih =>
    unfold fmtProps at h
    cases ha : p.fmtWrite (w.sub 0) with
    | error e => rw [ha] at h; cases h
    | ok a =>
      rw [ha] at h
      cases hb : fmtProps l (w.sub 1) with
      | error e => rw [hb] at h; cases h
      | ok b =>
        rw [hb] at h
        cases h
        have hp := hl p (by simp)
        obtain ⟨h1, h2⟩ := ih (fun q hq => hl q (by simp [hq])) (worldOk_sub hw 1) hb
        have h3 := unfold_property (worldOk_sub hw 0) hp.key.name hp.params hp.value ha h2
        rw [List.append_assoc]
        refine ⟨?_, ?_⟩
        · rw [h3, h1, propItems, itemsText, List.append_assoc]
          rfl
        · have h4 := unfold_property (worldOk_sub hw 0) hp.key.name hp.params hp.value ha (t := []) noIndent_nil
          rw [List.append_nil] at h4
          refine noIndent_of_unfold h4 ?_ h2
          rw [List.append_assoc]
          exact item_noIndent (item_of_prop_ok (worldOk_sub hw 0) hp.key hp.params hp.value) _

theorem propItems_ok {l : List Property} (hl : ∀ p ∈ l, PropOk p) {w : World} (hw : World.Ok w) :
    ItemsOk .crlf (propItems l w) := by
  induction l generalizing w with
  | nil => trivial
  | cons p l ih =>
    have hp := hl p (by simp)
    exact ⟨item_of_prop_ok (worldOk_sub hw 0) hp.key hp.params hp.value,
      ih (fun q hq => hl q (by simp [hq])) (worldOk_sub hw 1)⟩

theorem propItems_comps (l : List Property) (w : World) : itemsComps (propItems l w) = [] := by
  induction l generalizing w with
  | nil => simp [propItems, itemsComps]
  | cons p l ih => simp only [propItems, propItem, itemsComps]; exact ih _

theorem propItems_props {l : List Property} (hl : ∀ p ∈ l, PropOk p) {w : World} (hw : World.Ok w) :
    (itemsProps (propItems l w)).map PProp.toProperty = l.map Property.readBack ∧
    (itemsProps (propItems l w)).map PProp.name = l.map Property.key := by
  induction l generalizing w with
  | nil => exact ⟨rfl, rfl⟩
  | cons p l ih =>
    obtain ⟨h1, h2⟩ := ih (fun q hq => hl q (by simp [hq])) (worldOk_sub hw 1)
    have hp := hl p (by simp)
    constructor
    · show PProp.toProperty (meaningProp _ _ _) :: _ = _
      rw [meaning_dparams p hp.params.sorted ((worldOk_sub hw 0).order [] p.params), h1]
      rfl
    · show PProp.name (meaningProp _ _ _) :: _ = _
      rw [h2]
      rfl

/-! ### Components as items -/

mutual
/-- the unfolded text of a component -/
def Other.item : Other → World → Item
  | .mk name props multi comps, w =>
    .comp c!"BEGIN:" c!"END:" name
      (missing props c!"DTSTAMP" (fmtUtc (w.now [])) ++ propItems props.values (w.sub 0) ++
        missing props c!"UID" (w.uuid []) ++ propItems multi.values.flatten (w.sub 1) ++ otherItems comps (w.sub 2))
/-- see `Other.item` -/
def otherItems : List Other → World → List Item
  | [], _ => []
  | o :: l, w => o.item (w.sub 0) :: otherItems l (w.sub 1)
end

theorem innerOk_writable {props : BMap Property} {multi : BMap (List Property)} (h : InnerOk props multi) :
    InnerWritable props multi :=
  ⟨h.inOrder, fun x hx => ⟨(h.single x hx).1, (h.single x hx).2.2⟩, h.multiInOrder,
    fun x hx => ⟨(h.multiple x hx).2.1, (h.multiple x hx).2.2⟩⟩

mutual
theorem otherOk_writable : (o : Other) → OtherOk o → OtherWritable o
  | .mk _ _ _ comps, h => ⟨h.1, innerOk_writable h.2.1, othersOk_writable comps h.2.2⟩
theorem othersOk_writable : (l : List Other) → OthersOk l → OthersWritable l
  | [], _ => trivial
  | o :: l, h => ⟨otherOk_writable o h.1, othersOk_writable l h.2⟩
end

theorem values_ok {props : BMap Property} {multi : BMap (List Property)} (h : InnerWritable props multi) :
    (∀ p ∈ props.values, PropOk p) ∧ (∀ p ∈ multi.values.flatten, PropOk p) := by
  constructor
  · intro p hp
    obtain ⟨x, hx, rfl⟩ := List.mem_map.1 hp
    exact (h.single x hx).2
  · intro p hp
    obtain ⟨l, hl, hpl⟩ := List.mem_flatten.1 hp
    obtain ⟨x, hx, rfl⟩ := List.mem_map.1 hl
    exact ((h.multiple x hx).2 p hpl).2

theorem keyOk_upper (s : Str) (h : ∀ c ∈ s, 0x41 ≤ c.toNat ∧ c.toNat ≤ 0x5A) (h1 : ¬ c!"END" <+: s)
    (h2 : ¬ c!"BEGIN" <+: s) (h3 : s.map lowerAscii ≠ c!"end") (h4 : s.map lowerAscii ≠ c!"begin") : KeyOk s := by
  refine ⟨?_, h1, h2, h3, h4⟩
  intro c hc
  have := h c hc
  left
  unfold isAlnum
  rw [if_pos (by omega)]
  simp only [Bool.or_eq_true, Bool.and_eq_true, decide_eq_true_eq]
  omega

theorem keyOk_dtstamp : KeyOk c!"DTSTAMP" := keyOk_upper _ (by decide) (by decide) (by decide) (by decide) (by decide)
theorem keyOk_uid : KeyOk c!"UID" := keyOk_upper _ (by decide) (by decide) (by decide) (by decide) (by decide)

omit [Uni] in
theorem uuid_not_mem {w : World} (hw : World.Ok w) {x : Char} (h : x ∉ c!"0123456789abcdef-") (p : List Nat) :
    x ∉ w.uuid p := fun hc => h (hw.uuid p x hc)

theorem missing_ok {props : BMap Property} {k v : Str} (hk : KeyOk k) (hv : '\n' ∉ v) :
    ItemsOk .crlf (missing props k v) := by
  unfold missing
  split
  · trivial
  · refine ⟨⟨hk, by simp, ?_⟩, trivial⟩
    exact fun hc => hv (hc.mem (by simp))

theorem unfold_missing {props : BMap Property} {k v : Str} (hk : KeyOk k) (hv : '\n' ∉ v) {t : Str}
    (ht : NoIndent t) :
    unfoldSpec ((if props.containsKey k then [] else (k ++ [':']) ++ v ++ crlf) ++ t) =
      itemsText .crlf (missing props k v) ++ unfoldSpec t ∧
    NoIndent ((if props.containsKey k then [] else (k ++ [':']) ++ v ++ crlf) ++ t) := by
  unfold missing
  split
  · exact ⟨rfl, ht⟩
  · have hm : MarkerFree ((k ++ [':']) ++ v) := by
      apply markerFree_of_noLf
      simp only [List.mem_append, not_or]
      exact ⟨⟨name_not_mem hk.name isKeyChar_lf, by simp⟩, hv⟩
    constructor
    · have := unfold_raw hm .crlf ht
      rw [List.append_assoc]
      refine this.trans ?_
      simp [itemsText, genItem, Item.text, Break.text]
    · have := item_noIndent (br := .crlf) (it := genItem k v)
        ⟨hk, by simp, fun hc => hv (hc.mem (by simp))⟩ t
      simpa [genItem, Item.text, Break.text] using this

omit [Uni] in
theorem keyword_line (name : Str) (kw : Str) (h : '\n' ∉ kw ++ name) {t : Str} (ht : NoIndent t) :
    unfoldSpec (kw ++ name ++ crlf ++ t) = kw ++ name ++ crlf ++ unfoldSpec t := by
  have := unfold_raw (markerFree_of_noLf h) .crlf ht
  rw [List.append_assoc, List.append_assoc _ crlf]
  exact this

mutual
/-- unfolding what is written for a component in front of other text -/
theorem unfold_other (o : Other) (ho : OtherWritable o) {w : World} (hw : World.Ok w) {out : Str}
    (h : o.fmtWrite w = .ok out) {t : Str} (ht : NoIndent t) :
    unfoldSpec (out ++ t) = (o.item w).text .crlf ++ unfoldSpec t ∧ NoIndent (out ++ t) := by
  match o, ho with
  | .mk name props multi comps, ho =>
    obtain ⟨hn, hi, hc⟩ := ho
    unfold Other.fmtWrite at h
    cases hps : fmtProps props.values (w.sub 0) with
    | error e => simp only [hps] at h; cases h
    | ok ps =>
      cases hms : fmtProps multi.values.flatten (w.sub 1) with
      | error e => simp only [hps, hms] at h; cases h
      | ok ms =>
        cases hcs : fmtOthers comps (w.sub 2) with
        | error e => simp only [hps, hms, hcs] at h; cases h
        | ok cs =>
          simp only [hps, hms, hcs] at h
          cases h
          have hnl := name_not_mem hn isKeyChar_lf
          have hend : NoIndent (c!"END:" ++ name ++ crlf ++ t) := noIndent_cons (by decide) (by decide)
          have e0 := keyword_line name c!"END:" (by simpa using hnl) ht
          obtain ⟨c1, c2⟩ := unfold_others comps hc (worldOk_sub hw 2) hcs hend
          obtain ⟨m1, m2⟩ := unfold_props (values_ok hi).2 (worldOk_sub hw 1) hms c2
          obtain ⟨u1, u2⟩ := unfold_missing (props := props) keyOk_uid (uuid_not_mem hw (by decide) []) m2
          obtain ⟨p1, p2⟩ := unfold_props (values_ok hi).1 (worldOk_sub hw 0) hps u2
          obtain ⟨d1, d2⟩ := unfold_missing (props := props) keyOk_dtstamp
            (fmtUtc_not_mem (w.now []) (by decide) (by decide)) p2
          have e1 := keyword_line name c!"BEGIN:" (by simpa using hnl) d2
          refine ⟨?_, noIndent_cons (by decide) (by decide)⟩
          rw [d1, p1, u1, m1, c1, e0] at e1
          simp only [Other.item, Item.text, itemsText_append, Break.text]
          simp only [List.append_assoc] at e1 ⊢
          exact e1
/-- see `unfold_other` -/
theorem unfold_others (l : List Other) (hl : OthersWritable l) {w : World} (hw : World.Ok w) {out : Str}
    (h : fmtOthers l w = .ok out) {t : Str} (ht : NoIndent t) :
    unfoldSpec (out ++ t) = itemsText .crlf (otherItems l w) ++ unfoldSpec t ∧ NoIndent (out ++ t) := by
  match l, hl with
  | [], _ =>
    simp only [fmtOthers] at h
    cases h
    exact ⟨rfl, ht⟩
  | o :: l, hl =>
    obtain ⟨ho, hl⟩ := hl
    unfold fmtOthers at h
    cases ha : o.fmtWrite (w.sub 0) with
    | error e => rw [ha] at h; cases h
    | ok a =>
      rw [ha] at h
      cases hb : fmtOthers l (w.sub 1) with
      | error e => rw [hb] at h; cases h
      | ok b =>
        rw [hb] at h
        cases h
        obtain ⟨h1, h2⟩ := unfold_others l hl (worldOk_sub hw 1) hb ht
        obtain ⟨h3, h4⟩ := unfold_other o ho (worldOk_sub hw 0) ha h2
        rw [List.append_assoc]
        exact ⟨by rw [h3, h1, otherItems, itemsText, List.append_assoc], h4⟩
end

mutual
theorem other_item_ok (o : Other) (ho : OtherWritable o) {w : World} (hw : World.Ok w) : (o.item w).Ok .crlf := by
  match o, ho with
  | .mk name props multi comps, ho =>
    obtain ⟨hn, hi, hc⟩ := ho
    simp only [Other.item, Item.Ok, itemsOk_append]
    exact ⟨rfl, rfl, hn, ⟨⟨⟨missing_ok keyOk_dtstamp (fmtUtc_not_mem (w.now []) (by decide) (by decide)),
      propItems_ok (values_ok hi).1 (worldOk_sub hw 0)⟩,
      missing_ok keyOk_uid (uuid_not_mem hw (by decide) [])⟩,
      propItems_ok (values_ok hi).2 (worldOk_sub hw 1)⟩,
      other_items_ok comps hc (worldOk_sub hw 2)⟩
theorem other_items_ok (l : List Other) (hl : OthersWritable l) {w : World} (hw : World.Ok w) :
    ItemsOk .crlf (otherItems l w) := by
  match l, hl with
  | [], _ => trivial
  | o :: l, hl =>
    exact ⟨other_item_ok o hl.1 (worldOk_sub hw 0), other_items_ok l hl.2 (worldOk_sub hw 1)⟩
end

/-! ### Reading back -/

omit [Uni] in
/-- a property added if its key is missing -/
def addMissing (k v : Str) (m : BMap Property) : BMap Property :=
  if m.containsKey k then m else m.insert k ⟨k, v, []⟩

/-- what is read back for the properties -/
def readProps (m : BMap Property) : BMap Property := m.map (fun x => (x.1, x.2.readBack))

/-- what is read back for the multi-properties -/
def readMulti (m : BMap (List Property)) : BMap (List Property) :=
  m.map (fun x => (x.1, x.2.map Property.readBack))

mutual
/-- what is read back for a component -/
def Other.trip : Other → World → Other
  | .mk name props multi comps, w =>
    .mk name (addMissing c!"UID" (w.uuid []) (addMissing c!"DTSTAMP" (fmtUtc (w.now [])) (readProps props)))
      (readMulti multi) (tripAll comps (w.sub 2))
/-- see `Other.trip` -/
def tripAll : List Other → World → List Other
  | [], _ => []
  | o :: l, w => o.trip (w.sub 0) :: tripAll l (w.sub 1)
end

omit [Uni] in
theorem insert_perm {k : Str} {v : Property} {m : BMap Property} (h : m.get k = none) :
    (m.insert k v).Perm ((k, v) :: m) := by
  induction m with
  | nil => exact List.Perm.refl _
  | cons y m ih =>
    obtain ⟨k', v'⟩ := y
    simp only [BMap.get] at h
    split at h
    · cases h
    · rename_i hne
      simp only [BMap.insert]
      split
      · exact List.Perm.refl _
      · rename_i he
        exact absurd (strCmp_eq.1 he) hne
      · exact ((ih h).cons _).trans (List.Perm.swap _ _ _)

omit [Uni] in
theorem containsKey_false {k : Str} {m : BMap Property} (h : ¬ m.containsKey k = true) : m.get k = none := by
  unfold BMap.containsKey at h
  simpa using h

omit [Uni] in
theorem sorted_addMissing {k v : Str} {m : BMap Property} (h : BMap.Sorted m) : BMap.Sorted (addMissing k v m) := by
  unfold addMissing
  split
  · exact h
  · exact BMap.sorted_insert h

omit [Uni] in
theorem containsKey_addMissing {k k' v : Str} {m : BMap Property} (h : k' ≠ k) :
    (addMissing k v m).containsKey k' = m.containsKey k' := by
  unfold addMissing
  split
  · rfl
  · unfold BMap.containsKey
    rw [BMap.get_insert_ne _ _ _ h]

theorem get_readProps (m : BMap Property) (k : Str) : (readProps m).get k = (m.get k).map Property.readBack := by
  induction m with
  | nil => rfl
  | cons x m ih =>
    obtain ⟨k', v⟩ := x
    unfold readProps at ih ⊢
    simp only [List.map_cons, BMap.get]
    split
    · rfl
    · exact ih

theorem containsKey_readProps (m : BMap Property) (k : Str) : (readProps m).containsKey k = m.containsKey k := by
  unfold BMap.containsKey
  rw [get_readProps]
  simp

theorem sorted_readProps {m : BMap Property} (h : BMap.Sorted m) : BMap.Sorted (readProps m) := by
  unfold BMap.Sorted readProps at *
  rw [List.pairwise_map]
  exact h

theorem sorted_readMulti {m : BMap (List Property)} (h : BMap.Sorted m) : BMap.Sorted (readMulti m) := by
  unfold BMap.Sorted readMulti at *
  rw [List.pairwise_map]
  exact h

theorem get_readMulti (m : BMap (List Property)) (k : Str) :
    (readMulti m).get k = (m.get k).map (List.map Property.readBack) := by
  induction m with
  | nil => rfl
  | cons x m ih =>
    obtain ⟨k', v⟩ := x
    unfold readMulti at ih ⊢
    simp only [List.map_cons, BMap.get]
    split
    · rfl
    · exact ih

/-- the generated and the given properties together -/
theorem stamped_perm {props : BMap Property} {a b : Str} :
    ((if props.containsKey c!"DTSTAMP" then [] else [(c!"DTSTAMP", (⟨c!"DTSTAMP", a, []⟩ : Property))]) ++
        readProps props ++ (if props.containsKey c!"UID" then [] else [(c!"UID", (⟨c!"UID", b, []⟩ : Property))])).Perm
      (addMissing c!"UID" b (addMissing c!"DTSTAMP" a (readProps props))) := by
  have h1 : ((if props.containsKey c!"DTSTAMP" then [] else [(c!"DTSTAMP", (⟨c!"DTSTAMP", a, []⟩ : Property))]) ++
      readProps props).Perm (addMissing c!"DTSTAMP" a (readProps props)) := by
    unfold addMissing
    rw [containsKey_readProps]
    split
    · exact List.Perm.refl _
    · rename_i h
      have h' := containsKey_false (m := readProps props) (by rw [containsKey_readProps]; exact h)
      exact (insert_perm h').symm
  have h2 : ∀ m : BMap Property, m.containsKey c!"UID" = props.containsKey c!"UID" →
      (m ++ (if props.containsKey c!"UID" then [] else [(c!"UID", (⟨c!"UID", b, []⟩ : Property))])).Perm (addMissing c!"UID" b m) := by
    intro m hm
    unfold addMissing
    rw [hm]
    split
    · rw [List.append_nil]
    · rename_i h
      have h' := containsKey_false (m := m) (by rw [hm]; exact h)
      exact (List.perm_append_comm).trans (insert_perm h').symm
  exact (h1.append_right _).trans (h2 _ (by rw [containsKey_addMissing (by decide), containsKey_readProps]))

/-- the map of them -/
theorem ofList_stamped {props : BMap Property} (hs : BMap.Sorted props) {a b : Str} :
    BMap.ofList ((if props.containsKey c!"DTSTAMP" then [] else [(c!"DTSTAMP", (⟨c!"DTSTAMP", a, []⟩ : Property))]) ++
        readProps props ++ (if props.containsKey c!"UID" then [] else [(c!"UID", ⟨c!"UID", b, []⟩)])) =
      addMissing c!"UID" b (addMissing c!"DTSTAMP" a (readProps props)) :=
  BMap.ofList_perm (sorted_addMissing (sorted_addMissing (sorted_readProps hs))) stamped_perm

omit [Uni] in
/-- collecting multi-properties -/
theorem foldl_insertMulti (l : List Property) (i : Inner) (hs : BMap.Sorted i.multi) :
    (l.foldl Inner.insertMulti i).props = i.props ∧ (l.foldl Inner.insertMulti i).comps = i.comps ∧
    BMap.Sorted (l.foldl Inner.insertMulti i).multi ∧
    ∀ k, (l.foldl Inner.insertMulti i).multi.get k =
      if (l.filter (fun p => p.key == k)) = [] then i.multi.get k
      else some ((i.multi.get k).getD [] ++ l.filter (fun p => p.key == k)) := by
  induction l generalizing i with
  | nil => exact ⟨rfl, rfl, hs, by simp⟩
  | cons p l ih =>
    have hs' : BMap.Sorted (i.insertMulti p).multi := by
      unfold Inner.insertMulti
      simp only
      split <;> exact BMap.sorted_insert hs
    obtain ⟨h1, h2, h3, h4⟩ := ih (i.insertMulti p) hs'
    refine ⟨h1, h2, h3, ?_⟩
    intro k
    rw [List.foldl_cons, h4, get_insertMulti, List.filter_cons]
    by_cases hk : k = p.key
    · subst hk
      simp only [beq_self_eq_true, if_true]
      split
      · rename_i he
        simp [he]
      · simp
    · have : (p.key == k) = false := by simpa using fun h => hk h.symm
      rw [if_neg hk, this]
      rfl

omit [Uni] in
theorem filter_groups (m : BMap (List Property)) (hs : BMap.Sorted m)
    (hm : ∀ x ∈ m, ∀ p ∈ x.2, p.key = x.1) (k : Str) :
    m.values.flatten.filter (fun p => p.key == k) = (m.get k).getD [] := by
  induction m with
  | nil => rfl
  | cons x m ih =>
    obtain ⟨k', v⟩ := x
    have hs' := List.pairwise_cons.1 hs
    have ih := ih hs'.2 (fun y hy => hm y (by simp [hy]))
    have hv : ∀ p ∈ v, p.key = k' := hm (k', v) (by simp)
    unfold BMap.values at ih ⊢
    simp only [List.map_cons, List.flatten_cons, List.filter_append, BMap.get]
    rw [ih]
    by_cases hk : k = k'
    · subst hk
      rw [if_pos rfl]
      have h1 : v.filter (fun p => p.key == k) = v := by
        rw [List.filter_eq_self]
        intro p hp
        simpa using hv p hp
      have h2 : BMap.get k m = none := by
        rw [BMap.get_none]
        intro y hy he
        have := hs'.1 y hy
        rw [he] at this
        exact strCmp_irrefl this
      rw [h1, h2]
      simp
    · rw [if_neg hk]
      have h1 : v.filter (fun p => p.key == k) = [] := by
        rw [List.filter_eq_nil_iff]
        intro p hp
        rw [hv p hp]
        simpa using fun h => hk h.symm
      rw [h1]
      rfl

omit [Uni] in
/-- collecting the multi-properties of a map gives the map -/
theorem foldl_groups {m : BMap (List Property)} (hs : BMap.Sorted m)
    (hm : ∀ x ∈ m, x.2 ≠ [] ∧ ∀ p ∈ x.2, p.key = x.1) (props : BMap Property) (comps : List Other) :
    m.values.flatten.foldl Inner.insertMulti ⟨props, [], comps⟩ = ⟨props, m, comps⟩ := by
  obtain ⟨h1, h2, h3, h4⟩ := foldl_insertMulti m.values.flatten ⟨props, [], comps⟩ BMap.sorted_nil
  have : (m.values.flatten.foldl Inner.insertMulti ⟨props, [], comps⟩).multi = m := by
    refine BMap.ext h3 hs ?_
    intro k
    rw [h4, filter_groups m hs (fun x hx => (hm x hx).2)]
    cases hg : m.get k with
    | none => rfl
    | some v =>
      have := (hm _ (BMap.get_mem hg)).1
      simp only [Option.getD_some]
      rw [if_neg this]
      rfl
  generalize hr : m.values.flatten.foldl Inner.insertMulti ⟨props, [], comps⟩ = r at *
  obtain ⟨a, b, c⟩ := r
  simp only at h1 h2 this
  rw [h1, h2, this]

theorem readBack_key (p : Property) : p.readBack.key = p.key := rfl

/-- the properties read back for a component -/
theorem inner_trip {props : BMap Property} {multi : BMap (List Property)} (h : InnerOk props multi) {w : World}
    (hw : World.Ok w) (comps : List Other) :
    innerOfProps
      (itemsProps (missing props c!"DTSTAMP" (fmtUtc (w.now [])) ++ propItems props.values (w.sub 0) ++
        missing props c!"UID" (w.uuid []) ++ propItems multi.values.flatten (w.sub 1))) comps =
    ⟨addMissing c!"UID" (w.uuid []) (addMissing c!"DTSTAMP" (fmtUtc (w.now [])) (readProps props)),
      readMulti multi, comps⟩ := by
  obtain ⟨p1, p2⟩ := propItems_props (values_ok (innerOk_writable h)).1 (worldOk_sub hw 0)
  obtain ⟨m1, m2⟩ := propItems_props (values_ok (innerOk_writable h)).2 (worldOk_sub hw 1)
  have hmiss : ∀ k v : Str, '\\' ∉ v → itemsProps (missing props k v) =
      if props.containsKey k then [] else [⟨k, v, []⟩] := by
    intro k v hv
    unfold missing
    split
    · rfl
    · show [meaningProp k [] v] = _
      rw [meaning_gen k v hv]
  have hd := hmiss c!"DTSTAMP" _ (fmtUtc_not_mem (w.now []) (x := '\\') (by decide) (by decide))
  have hu := hmiss c!"UID" _ (uuid_not_mem hw (x := '\\') (by decide) [])
  simp only [itemsProps_append, hd, hu]
  -- which are single
  have hnp : ∀ q ∈ itemsProps (propItems props.values (w.sub 0)), q.isMulti = false := by
    intro q hq
    have : q.name ∈ props.values.map Property.key := by rw [← p2]; exact List.mem_map_of_mem hq
    obtain ⟨p, hp, he⟩ := List.mem_map.1 this
    obtain ⟨x, hx, rfl⟩ := List.mem_map.1 hp
    have hx := h.single x hx
    unfold PProp.isMulti
    rw [← he, hx.1]
    have : multis.contains x.1 = false := by rw [List.contains_eq_mem]; exact decide_eq_false hx.2.1
    exact this
  have hnm : ∀ q ∈ itemsProps (propItems multi.values.flatten (w.sub 1)), q.isMulti = true := by
    intro q hq
    have : q.name ∈ multi.values.flatten.map Property.key := by rw [← m2]; exact List.mem_map_of_mem hq
    obtain ⟨p, hp, he⟩ := List.mem_map.1 this
    obtain ⟨l, hl, hpl⟩ := List.mem_flatten.1 hp
    obtain ⟨x, hx, rfl⟩ := List.mem_map.1 hl
    have hx := h.multiple x hx
    unfold PProp.isMulti
    rw [← he, (hx.2.2 p hpl).1]
    have : multis.contains x.1 = true := by rw [List.contains_eq_mem]; exact decide_eq_true hx.1
    exact this
  have hgen : ∀ k v : Str, k ∉ repeatable → ∀ q ∈ (if props.containsKey k then [] else [(⟨k, v, []⟩ : PProp)]),
      q.isMulti = false := by
    intro k v hk q hq
    split at hq
    · cases hq
    · rw [List.mem_singleton.1 hq]
      have : multis.contains k = false := by rw [List.contains_eq_mem]; exact decide_eq_false hk
      exact this
  have hgd := hgen c!"DTSTAMP" (fmtUtc (w.now [])) (by decide)
  have hgu := hgen c!"UID" (w.uuid []) (by decide)
  have keep : ∀ l : List PProp, (∀ q ∈ l, q.isMulti = false) →
      l.filter (fun p => !p.isMulti) = l ∧ l.filter (fun p => p.isMulti) = [] := by
    intro l hl
    constructor
    · rw [List.filter_eq_self]; intro q hq; rw [hl q hq]; rfl
    · rw [List.filter_eq_nil_iff]; intro q hq; rw [hl q hq]; simp
  have drop : ∀ l : List PProp, (∀ q ∈ l, q.isMulti = true) →
      l.filter (fun p => !p.isMulti) = [] ∧ l.filter (fun p => p.isMulti) = l := by
    intro l hl
    constructor
    · rw [List.filter_eq_nil_iff]; intro q hq; rw [hl q hq]; simp
    · rw [List.filter_eq_self]; intro q hq; rw [hl q hq]
  unfold innerOfProps
  simp only [List.filter_append, (keep _ hgd).1, (keep _ hgd).2, (keep _ hgu).1, (keep _ hgu).2, (keep _ hnp).1,
    (keep _ hnp).2, (drop _ hnm).1, (drop _ hnm).2, List.append_nil, List.nil_append, List.map_append]
  have hgm : ∀ k v : Str, (if props.containsKey k then [] else [(⟨k, v, []⟩ : PProp)]).map
      (fun p => (p.name, p.toProperty)) = if props.containsKey k then [] else [(k, (⟨k, v, []⟩ : Property))] := by
    intro k v
    split <;> rfl
  have hpm : (itemsProps (propItems props.values (w.sub 0))).map (fun p => (p.name, p.toProperty)) =
      readProps props := by
    have e : (itemsProps (propItems props.values (w.sub 0))).map (fun p => (p.name, p.toProperty)) =
        (((itemsProps (propItems props.values (w.sub 0))).map PProp.toProperty).map (fun p => (p.key, p))) := by
      rw [List.map_map]
      rfl
    rw [e, p1]
    unfold readProps BMap.values
    rw [List.map_map, List.map_map]
    apply List.map_congr_left
    intro x hx
    simp only [Function.comp_apply, readBack_key, (h.single x hx).1]
  rw [hgm, hgm, hpm, ofList_stamped h.inOrder]
  have hfold : ∀ (l : List PProp) (i : Inner), l.foldl (fun c p => c.insertMulti p.toProperty) i =
      (l.map PProp.toProperty).foldl Inner.insertMulti i := by
    intro l i
    rw [List.foldl_map]
  rw [hfold, m1]
  have hv : multi.values.flatten.map Property.readBack = (readMulti multi).values.flatten := by
    unfold readMulti BMap.values
    rw [List.map_flatten, List.map_map, List.map_map]
    rfl
  rw [hv]
  refine foldl_groups (sorted_readMulti h.multiInOrder) ?_ _ _
  intro x hx
  obtain ⟨y, hy, rfl⟩ := List.mem_map.1 hx
  have hy := h.multiple y hy
  refine ⟨by simpa using hy.2.1, ?_⟩
  intro p hp
  obtain ⟨q, hq, rfl⟩ := List.mem_map.1 hp
  exact (hy.2.2 q hq).1

omit [Uni] in
theorem missing_comps (props : BMap Property) (k v : Str) [Uni] : itemsComps (missing props k v) = [] := by
  unfold missing
  split <;> simp [genItem, itemsComps]

theorem otherItems_props (l : List Other) (w : World) : itemsProps (otherItems l w) = [] := by
  induction l generalizing w with
  | nil => rfl
  | cons o l ih =>
    obtain ⟨n, p, m, c⟩ := o
    simp only [otherItems, Other.item, itemsProps]
    exact ih _

/-- the tree read for a component -/
def Other.tree (o : Other) (w : World) : PComp :=
  match o.item w with
  | .comp _ _ name items => .mk name (itemsProps items) (itemsComps items)
  | .prop k _ _ => .mk k [] []

theorem itemsComps_others (l : List Other) (w : World) :
    itemsComps (otherItems l w) = match l with
      | [] => []
      | o :: l => o.tree (w.sub 0) :: itemsComps (otherItems l (w.sub 1)) := by
  cases l with
  | nil => simp [otherItems, itemsComps]
  | cons o l =>
    obtain ⟨n, p, m, c⟩ := o
    simp only [otherItems, Other.item, itemsComps, Other.tree]

mutual
theorem tree_trip (o : Other) (ho : OtherOk o) {w : World} (hw : World.Ok w) :
    (o.tree w).toOther = o.trip w := by
  match o, ho with
  | .mk name props multi comps, ho =>
    obtain ⟨hn, hi, hc⟩ := ho
    simp only [Other.tree, Other.item, PComp.toOther]
    rw [itemsProps_append, otherItems_props, List.append_nil]
    simp only [itemsComps_append, missing_comps, propItems_comps, List.nil_append]
    rw [trees_trip comps hc (worldOk_sub hw 2), inner_trip hi hw]
    rfl
theorem trees_trip (l : List Other) (hl : OthersOk l) {w : World} (hw : World.Ok w) :
    toOthers (itemsComps (otherItems l w)) = tripAll l w := by
  match l, hl with
  | [], _ => rw [itemsComps_others]; simp [toOthers, tripAll]
  | o :: l, hl =>
    rw [itemsComps_others]
    simp only [toOthers, tripAll]
    rw [tree_trip o hl.1 (worldOk_sub hw 0), trees_trip l hl.2 (worldOk_sub hw 1)]
end

/-- reading a component back -/
theorem other_read (o : Other) (ho : OtherOk o) {w : World} (hw : World.Ok w) {out : Str}
    (h : o.fmtWrite w = .ok out) :
    component (unfold out) = .ok [] (o.tree w) ∧ (o.tree w).toOther = o.trip w := by
  refine ⟨?_, tree_trip o ho hw⟩
  have h1 := (unfold_other o (otherOk_writable o ho) hw h noIndent_nil).1
  rw [List.append_nil, ← unfold_eq_spec] at h1
  have hnil : unfoldSpec [] = [] := rfl
  rw [h1, hnil, List.append_nil]
  have hok := other_item_ok o (otherOk_writable o ho) hw
  obtain ⟨name, props, multi, comps⟩ := o
  simp only [Other.tree, Other.item] at hok ⊢
  have := component_ok hok (r := []) rfl (by simp)
  simpa using this

end Ical
