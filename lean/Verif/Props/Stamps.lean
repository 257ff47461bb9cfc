import Verif.Spec.Structure
import Verif.Proofs.CalendarIO

/-!
C28: DTSTAMP and UID appear exactly once.
-/

namespace Ical

open Nom Spec

theorem linesNamed_append (k : Str) (a b : List Item) : linesNamed k (a ++ b) = linesNamed k a ++ linesNamed k b := by
  induction a with
  | nil => rfl
  | cons i a ih =>
    cases i with
    | prop key params val =>
      simp only [List.cons_append, linesNamed]
      split <;> simp [ih]
    | comp => exact ih

variable [Uni]

theorem rawText_eq (p : Property) : rawText p = p.valueText := by
  unfold rawText
  by_cases h : IsText p
  · rw [if_pos h, valueText_of_text ((isText_iff p).1 h), escapeText_eq]
    congr 1
    funext c
    unfold escaped escChar
    by_cases h1 : c = '\n'
    · subst h1; rfl
    by_cases h2 : c = '\\'
    · subst h2; rfl
    by_cases h3 : c = ','
    · subst h3; rfl
    by_cases h4 : c = ';'
    · subst h4; rfl
    simp [h1, h2, h3, h4]
  · rw [if_neg h, valueText_of_not (fun hc => h ((isText_iff p).2 hc))]

theorem linesNamed_props_none {k : Str} {l : List Property} (h : ∀ p ∈ l, p.key ≠ k) (w : World) :
    linesNamed k (propItems l w) = [] := by
  induction l generalizing w with
  | nil => rfl
  | cons p l ih =>
    simp only [propItems, propItem, linesNamed]
    rw [if_neg (h p (by simp))]
    exact ih (fun q hq => h q (by simp [hq])) _

theorem linesNamed_others {k : Str} (l : List Other) (w : World) : linesNamed k (otherItems l w) = [] := by
  induction l generalizing w with
  | nil => rfl
  | cons o l ih =>
    obtain ⟨n, p, m, c⟩ := o
    simp only [otherItems, Other.item, linesNamed]
    exact ih _

/-- the one line of a property that is set -/
theorem linesNamed_values {props : BMap Property} (hs : BMap.Sorted props) (hk : ∀ x ∈ props, x.2.key = x.1)
    {k : Str} {p : Property} (hp : BMap.get k props = some p) (w : World) (hw : World.Ok w) :
    ∃ ps : List (Str × Str), ps.Perm p.params ∧ linesNamed k (propItems props.values w) = [(ps.map dparam, p.valueText)] := by
  induction props generalizing w with
  | nil => cases hp
  | cons x props ih =>
    obtain ⟨k', q⟩ := x
    have hs' := List.pairwise_cons.1 hs
    have hq : q.key = k' := hk (k', q) (by simp)
    simp only [BMap.get] at hp
    simp only [BMap.values, List.map_cons, propItems, propItem, linesNamed]
    split at hp
    · rename_i he
      cases hp
      rw [if_pos (by rw [hq, he])]
      refine ⟨_, (worldOk_sub hw 0).order [] p.params, ?_⟩
      congr 1
      refine linesNamed_props_none ?_ _
      intro r hr
      obtain ⟨y, hy, rfl⟩ := List.mem_map.1 hr
      rw [hk y (by simp [hy])]
      intro hc
      have := hs'.1 y hy
      simp only [hc, he] at this
      exact strCmp_irrefl this
    · rename_i he
      rw [if_neg (by rw [hq]; exact fun hc => he hc.symm)]
      exact ih hs'.2 (fun y hy => hk y (by simp [hy])) hp _ (worldOk_sub hw 1)

theorem oneLine_item {props : BMap Property} {multi : BMap (List Property)} {comps : List Other}
    (hi : InnerWritable props multi) (hm : ∀ x ∈ multi, x.1 ≠ c!"DTSTAMP" ∧ x.1 ≠ c!"UID") {w : World} (hw : World.Ok w)
    {k v d u : Str} {Generated : Str → Prop} (hg : Generated v)
    (hk : k = c!"DTSTAMP" ∧ v = d ∨ k = c!"UID" ∧ v = u) :
    OneLine k (missing props c!"DTSTAMP" d ++ propItems props.values (w.sub 0) ++
        missing props c!"UID" u ++ propItems multi.values.flatten (w.sub 1) ++ otherItems comps (w.sub 2))
      props Generated := by
  have hmk : ∀ p ∈ multi.values.flatten, p.key ≠ k := by
    intro p hp
    obtain ⟨l, hl, hpl⟩ := List.mem_flatten.1 hp
    obtain ⟨x, hx, rfl⟩ := List.mem_map.1 hl
    rw [((hi.multiple x hx).2 p hpl).1]
    rcases hk with ⟨rfl, -⟩ | ⟨rfl, -⟩
    · exact (hm x hx).1
    · exact (hm x hx).2
  unfold OneLine
  simp only [linesNamed_append, linesNamed_others, linesNamed_props_none hmk, List.append_nil]
  have hmiss : linesNamed k (missing props c!"DTSTAMP" d) ++ linesNamed k (missing props c!"UID" u) =
      if props.containsKey k then [] else [([], v)] := by
    have e : ∀ k', linesNamed k (missing props k' d) = if k' = k then (if props.containsKey k' then [] else [([], d)]) else [] := by
      intro k'
      unfold missing
      split
      · split <;> simp [linesNamed]
      · simp [linesNamed, genItem]
    have e' : ∀ k', linesNamed k (missing props k' u) = if k' = k then (if props.containsKey k' then [] else [([], u)]) else [] := by
      intro k'
      unfold missing
      split
      · split <;> simp [linesNamed]
      · simp [linesNamed, genItem]
    rw [e, e']
    rcases hk with ⟨rfl, rfl⟩ | ⟨rfl, rfl⟩
    · rw [if_pos rfl, if_neg (show ¬ c!"UID" = c!"DTSTAMP" by decide), List.append_nil]
    · rw [if_neg (show ¬ c!"DTSTAMP" = c!"UID" by decide), if_pos rfl, List.nil_append]
  have hlook : List.lookup k props = BMap.get k props := by
    clear hmiss hmk hi
    induction props with
    | nil => rfl
    | cons x props ih =>
      obtain ⟨k', q⟩ := x
      simp only [List.lookup, BMap.get]
      by_cases he : k = k'
      · rw [if_pos he]; simp [he]
      · rw [if_neg he, beq_false_of_ne he]; exact ih
  rw [hlook]
  cases hp : BMap.get k props with
  | none =>
    have hc : props.containsKey k = false := by unfold BMap.containsKey; rw [hp]; rfl
    rw [hc] at hmiss
    have h0 : linesNamed k (propItems props.values (w.sub 0)) = [] := by
      refine linesNamed_props_none ?_ _
      intro p hpv
      obtain ⟨x, hx, rfl⟩ := List.mem_map.1 hpv
      rw [(hi.single x hx).1]
      exact (BMap.get_none.1 hp) x hx
    rw [h0, List.append_nil, hmiss]
    exact ⟨[], v, rfl, rfl, hg⟩
  | some p =>
    have hc : props.containsKey k = true := by unfold BMap.containsKey; rw [hp]; rfl
    rw [hc] at hmiss
    have hmiss := List.append_eq_nil_iff.1 hmiss
    obtain ⟨ps, h1, h2⟩ := linesNamed_values hi.inOrder (fun x hx => (hi.single x hx).1) hp (w.sub 0) (worldOk_sub hw 0)
    rw [hmiss.1, hmiss.2, h2]
    refine ⟨_, _, rfl, (rawText_eq p).symm, ?_, ?_⟩
    · rw [List.length_map, h1.length_eq]
    · intro x hx
      refine ⟨dparam x, List.mem_map.2 ⟨x, h1.mem_iff.2 hx, rfl⟩, rfl, ?_⟩
      have := dparam_pair x
      unfold PParam.toPair at this
      exact congrArg Prod.snd this

omit [Uni] in
theorem stampedTexts_props (a : List Item) (h : ∀ i ∈ a, ∃ k ps v, i = .prop k ps v) (l : List Item) (os : List Other) :
    StampedTexts l os → StampedTexts (a ++ l) os := by
  intro hl
  induction a with
  | nil => exact hl
  | cons i a ih =>
    obtain ⟨k, ps, v, rfl⟩ := h i (by simp)
    have := ih (fun j hj => h j (by simp [hj]))
    cases os <;> simp only [List.cons_append, StampedTexts] <;> exact this

theorem propItems_prop (l : List Property) (w : World) : ∀ i ∈ propItems l w, ∃ k ps v, i = .prop k ps v := by
  induction l generalizing w with
  | nil => simp [propItems]
  | cons p l ih =>
    intro i hi
    rcases List.mem_cons.1 hi with rfl | hi
    · exact ⟨_, _, _, rfl⟩
    · exact ih _ i hi

omit [Uni] in
theorem missing_prop (props : BMap Property) (k v : Str) : ∀ i ∈ missing props k v, ∃ k ps v, i = .prop k ps v := by
  intro i hi
  unfold missing at hi
  split at hi
  · cases hi
  · rw [List.mem_singleton.1 hi]
    exact ⟨_, _, _, rfl⟩

mutual
theorem stampedText_item : (o : Other) → OtherWritable o → NoMultiStamp o → (w : World) → World.Ok w →
    StampedText (o.item w) o
  | .mk name props multi comps, ho, hm, w, hw => by
    unfold Other.item
    rw [StampedText]
    refine ⟨rfl, oneLine_item ho.2.1 hm.1 hw (v := fmtUtc (w.now [])) ⟨_, hw.now [], rfl⟩ (.inl ⟨rfl, rfl⟩),
      oneLine_item ho.2.1 hm.1 hw (v := w.uuid []) (hw.uuid []) (.inr ⟨rfl, rfl⟩), ?_⟩
    rw [List.append_assoc, List.append_assoc, List.append_assoc]
    exact stampedTexts_props _ (missing_prop _ _ _) _ _ (stampedTexts_props _ (propItems_prop _ _) _ _
      (stampedTexts_props _ (missing_prop _ _ _) _ _ (stampedTexts_props _ (propItems_prop _ _) _ _
        (stampedTexts_items comps ho.2.2 hm.2 _ (worldOk_sub hw 2)))))
theorem stampedTexts_items : (l : List Other) → OthersWritable l → NoMultiStamps l → (w : World) → World.Ok w →
    StampedTexts (otherItems l w) l
  | [], _, _, _, _ => by simp only [otherItems, StampedTexts]
  | o :: l, ho, hm, w, hw => by
    have h1 := stampedText_item o ho.1 hm.1 _ (worldOk_sub hw 0)
    have h2 := stampedTexts_items l ho.2 hm.2 _ (worldOk_sub hw 1)
    obtain ⟨n, p, m, c⟩ := o
    unfold otherItems
    unfold Other.item at h1 ⊢
    rw [StampedTexts]
    exact ⟨h1, h2⟩
end

/-- **C28.** What is written for a component, unfolded, is the text of a well-formed document in which the
component and every component inside it has exactly one DTSTAMP and one UID line of its own: the user's, with
its value and parameters, if there is one, else a generated one. Excluded are components with multi-properties
of these names. -/
theorem stamps_once_partial (o : Other) (ho : OtherWritable o) (hm : NoMultiStamp o) (w : World) (hw : World.Ok w)
    (out : Str) (h : Component.fmtWrite o w = .ok out) :
    ∃ doc : Item, doc.Ok .crlf ∧ unfold out = doc.text .crlf ∧ StampedText doc o := by
  have h' : o.fmtWrite w = .ok out := by
    have e : Component.toOther o = o := by obtain ⟨n, p, m, c⟩ := o; rfl
    unfold Component.fmtWrite at h
    rwa [e] at h
  refine ⟨o.item w, other_item_ok o ho hw, ?_, stampedText_item o ho hm w hw⟩
  have := (unfold_other o ho hw h' noIndent_nil).1
  rw [List.append_nil] at this
  rw [unfold_eq_spec, this]
  exact List.append_nil _

theorem stampedTexts_comps (l : List CalComp) (hl : ∀ x ∈ l, OtherWritable x.toOther)
    (hm : ∀ x ∈ l, NoMultiStamp x.toOther) {w : World} (hw : World.Ok w) :
    StampedTexts (compItems l w) (l.map CalComp.toOther) := by
  induction l generalizing w with
  | nil => simp only [compItems, List.map_nil, StampedTexts]
  | cons x l ih =>
    have h1 := stampedText_item x.toOther (hl x (by simp)) (hm x (by simp)) _ (worldOk_sub hw 0)
    have h2 := ih (fun y hy => hl y (by simp [hy])) (fun y hy => hm y (by simp [hy])) (worldOk_sub hw 1)
    simp only [compItems, List.map_cons]
    generalize x.toOther = o at *
    obtain ⟨n, p, m, c⟩ := o
    unfold Other.item at h1 ⊢
    rw [StampedTexts]
    exact ⟨h1, h2⟩

/-- **C28.** The same for every component of a calendar. -/
theorem stamps_once_calendar_partial (c : Calendar) (hc : CalendarWritable c) (hm : ∀ x ∈ c.comps, NoMultiStamp x.toOther)
    (w : World) (hw : World.Ok w) (out : Str) (h : c.fmtWrite w = .ok out) :
    ∃ items, (Item.comp c!"BEGIN:" c!"END:" c!"VCALENDAR" items).Ok .crlf ∧
      unfold out = (Item.comp c!"BEGIN:" c!"END:" c!"VCALENDAR" items).text .crlf ∧
      StampedTexts items (c.comps.map CalComp.toOther) := by
  refine ⟨_, calendar_item_ok hc hw, unfold_calendar hc hw h, ?_⟩
  refine stampedTexts_props _ (propItems_prop _ _) _ _ ?_
  exact stampedTexts_comps _ hc.comps hm (worldOk_sub hw 1)

/-! ### The exact number of lines -/

theorem linesNamed_count (k : Str) (l : List Property) (w : World) :
    (linesNamed k (propItems l w)).length = (l.filter (fun p => p.key == k)).length := by
  induction l generalizing w with
  | nil => rfl
  | cons p l ih =>
    simp only [propItems, propItem, linesNamed]
    by_cases h : p.key = k
    · rw [if_pos h, List.filter_cons_of_pos (by simpa using h), List.length_cons, List.length_cons, ih]
    · rw [if_neg h, List.filter_cons_of_neg (by simpa using h), ih]

omit [Uni] in
theorem count_multi {multi : BMap (List Property)} (hs : InOrder multi) (hk : ∀ x ∈ multi, ∀ p ∈ x.2, p.key = x.1) (k : Str) :
    (multi.values.flatten.filter (fun p => p.key == k)) = (multi.lookup k).getD [] := by
  induction multi with
  | nil => rfl
  | cons x multi ih =>
    obtain ⟨k', l⟩ := x
    have hs' := List.pairwise_cons.1 hs
    have ih := ih hs'.2 (fun y hy => hk y (by simp [hy]))
    have hl : ∀ p ∈ l, p.key = k' := hk (k', l) (by simp)
    have e : List.filter (fun p : Property => p.key == k) (BMap.values ((k', l) :: multi)).flatten =
        l.filter (fun p => p.key == k) ++ (BMap.values multi).flatten.filter (fun p => p.key == k) := by
      simp [BMap.values]
    rw [e, ih]
    by_cases h : k = k'
    · have h1 : l.filter (fun p => p.key == k) = l :=
        List.filter_eq_self.2 (fun p hp => by simp [hl p hp, h])
      have h2 : multi.lookup k = none := by
        rw [List.lookup_eq_none_iff]
        intro y hy
        have := hs'.1 y hy
        simp only [← h] at this
        rw [bne_iff_ne]
        intro hc
        rw [← hc] at this
        exact strCmp_irrefl this
      rw [h1, h2]
      simp [List.lookup, h]
    · have h1 : l.filter (fun p => p.key == k) = [] :=
        List.filter_eq_nil_iff.2 (fun p hp => by simp [hl p hp, Ne.symm h])
      simp [h1, List.lookup, beq_false_of_ne h]

/-- **C28 (partial), exactly.** What is written for a component has one DTSTAMP line and one UID line and besides
these one for every multi-property of that name. -/
theorem stamps_count_partial (o : Other) (ho : OtherWritable o) (w : World) (hw : World.Ok w) (out : Str)
    (h : Component.fmtWrite o w = .ok out) (k : Str) (hk : k = c!"DTSTAMP" ∨ k = c!"UID") :
    ∃ b e items, (Item.comp b e o.name items).Ok .crlf ∧ unfold out = (Item.comp b e o.name items).text .crlf ∧
      (linesNamed k items).length = 1 + ((o.inner.multi.lookup k).getD []).length := by
  have h' : o.fmtWrite w = .ok out := by
    have e : Component.toOther o = o := by obtain ⟨n, p, m, c⟩ := o; rfl
    unfold Component.fmtWrite at h
    rwa [e] at h
  have hok := other_item_ok o ho hw
  have hun : unfold out = (o.item w).text .crlf := by
    have := (unfold_other o ho hw h' noIndent_nil).1
    rw [List.append_nil] at this
    rw [unfold_eq_spec, this]
    exact List.append_nil _
  obtain ⟨name, props, multi, comps⟩ := o
  unfold Other.item at hok hun
  refine ⟨_, _, _, hok, hun, ?_⟩
  obtain ⟨-, hi, -⟩ := ho
  have hcm := count_multi hi.multiInOrder (fun x hx p hp => ((hi.multiple x hx).2 p hp).1) k
  have hone := oneLine_item (multi := []) (comps := []) (props := props)
    ⟨hi.inOrder, hi.single, List.Pairwise.nil, by simp⟩ (by simp) hw (k := k)
    (v := if k = c!"DTSTAMP" then fmtUtc (w.now []) else w.uuid []) (d := fmtUtc (w.now [])) (u := w.uuid [])
    (Generated := fun _ => True) trivial (by
      rcases hk with rfl | rfl
      · exact .inl ⟨rfl, rfl⟩
      · exact .inr ⟨rfl, rfl⟩)
  obtain ⟨ps, v, h1, -⟩ := hone
  have e0 : linesNamed k (propItems (BMap.values ([] : BMap (List Property))).flatten (w.sub 1)) = [] := rfl
  simp only [linesNamed_append, linesNamed_others, List.append_nil, e0] at h1 ⊢
  have hl := congrArg List.length h1
  simp only [List.length_append, List.length_singleton] at hl ⊢
  rw [linesNamed_count k multi.values.flatten, hcm]
  show _ = 1 + ((List.lookup k multi).getD []).length
  omega

omit [Uni] in
/-- **C28, what is missing.** An event with a multi-property UID is written with two UID lines. -/
theorem stamps_once_violated : @Component.fmtWrite Event _ Uni.ascii (Component.addMultiProperty Event.new c!"UID" c!"a")
    ⟨fun _ => ⟨⟨⟨2026, 1, 1⟩, 0, 0, 0, 0⟩⟩, fun _ => c!"0-f", fun _ l => l⟩ =
      .ok c!"BEGIN:VEVENT\r\nDTSTAMP:20260101T000000Z\r\nUID:0-f\r\nUID:a\r\nEND:VEVENT\r\n" := by
  decide +kernel

end Ical

namespace Ical

open Nom Spec

/-- an event with two multi-properties UID has three UID lines -/
example : let o : Other := .mk c!"VEVENT" [] [(c!"UID", [⟨c!"UID", c!"a", []⟩, ⟨c!"UID", c!"b", []⟩])] []
    @Component.fmtWrite Other _ Uni.ascii o ⟨fun _ => ⟨⟨⟨2026, 1, 1⟩, 0, 0, 0, 0⟩⟩, fun _ => c!"0-f", fun _ l => l⟩ =
      .ok c!"BEGIN:VEVENT\r\nDTSTAMP:20260101T000000Z\r\nUID:0-f\r\nUID:a\r\nUID:b\r\nEND:VEVENT\r\n" ∧
    ((o.inner.multi.lookup c!"UID").getD []).length = 2 := by
  decide +kernel

/-- an event with a UID and no DTSTAMP around an alarm with a DTSTAMP and no UID -/
example : let o : Other := (.mk c!"VEVENT" [(c!"UID", ⟨c!"UID", c!"a,b", [(c!"X", c!"1")]⟩)]
      [(c!"COMMENT", [⟨c!"COMMENT", c!"UID:", []⟩])]
      [.mk c!"VALARM" [(c!"DTSTAMP", ⟨c!"DTSTAMP", c!"20250101T000000Z", []⟩)] [] []])
    @OtherWritable Uni.ascii o ∧ NoMultiStamp o ∧ @Component.fmtWrite Other _ Uni.ascii o
      ⟨fun _ => ⟨⟨⟨2026, 1, 1⟩, 0, 0, 0, 0⟩⟩, fun _ => c!"0-f", fun _ l => l⟩ = .ok (
        c!"BEGIN:VEVENT\r\nDTSTAMP:20260101T000000Z\r\nUID;X=1:a\\,b\r\nCOMMENT:UID:\r\n" ++
        c!"BEGIN:VALARM\r\nDTSTAMP:20250101T000000Z\r\nUID:0-f\r\nEND:VALARM\r\nEND:VEVENT\r\n") := by
  have hi : ∀ props multi, (InOrder props ∧ (∀ x ∈ props, x.2.key = x.1 ∧ @PropOk Uni.ascii x.2) ∧
      InOrder multi ∧ (∀ x ∈ multi, x.2 ≠ [] ∧ ∀ p ∈ x.2, p.key = x.1 ∧ @PropOk Uni.ascii p)) →
      @InnerWritable Uni.ascii props multi := fun _ _ h => @InnerWritable.mk Uni.ascii _ _ h.1 h.2.1 h.2.2.1 h.2.2.2
  exact ⟨⟨by decide +kernel, hi _ _ (by decide +kernel), ⟨by decide +kernel, hi _ _ (by decide +kernel), trivial⟩, trivial⟩,
    ⟨by decide +kernel, ⟨by decide +kernel, trivial⟩, trivial⟩, by decide +kernel⟩

end Ical
