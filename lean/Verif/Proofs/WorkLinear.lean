import Verif.Proofs.WorkBound
import Verif.Proofs.ParseDoc

/-!
The cost of reading well-formed documents with CRLF line breaks: proportional to their length.
-/

namespace Ical

open Spec (DParam Break Item itemsText ItemsOk KeyOk IsName ValOk)
open Nom (shrinks_many0 shrinks_lineEnding shrinks_tag)

namespace MP
variable {α β γ : Type}

/-! ### results of measured parsers -/

theorem pair_run_ok {m : Meter} {p : MP α} {q : MP β} {i r t : Str} {a : α} {b : β} (h : p.run i = .ok r a)
    (h' : q.run r = .ok t b) : (pair m p q).run i = .ok t (a, b) := by
  show Nom.pair p.run q.run i = _
  unfold Nom.pair
  simp only [h, h']

theorem pair_run_error {m : Meter} {p : MP α} {q : MP β} {i : Str} (h : p.run i = .error) :
    (pair m p q).run i = .error := by
  show Nom.pair p.run q.run i = _
  unfold Nom.pair
  simp only [h]

theorem pair_run_error2 {m : Meter} {p : MP α} {q : MP β} {i r : Str} {a : α} (h : p.run i = .ok r a)
    (h' : q.run r = .error) : (pair m p q).run i = .error := by
  show Nom.pair p.run q.run i = _
  unfold Nom.pair
  simp only [h, h']

theorem map_run_ok {f : α → β} {p : MP α} {i r : Str} {a : α} (h : p.run i = .ok r a) :
    (map f p).run i = .ok r (f a) := by
  show Nom.map f p.run i = _
  unfold Nom.map
  simp only [h]

theorem map_run_error {f : α → β} {p : MP α} {i : Str} (h : p.run i = .error) : (map f p).run i = .error := by
  show Nom.map f p.run i = _
  unfold Nom.map
  simp only [h]

theorem tag_run_ok {m : Meter} (t i : Str) : (tag m t).run (t ++ i) = .ok i t := by
  show Nom.tag t (t ++ i) = _
  exact tag_ok t i

/-! ### line breaks -/

theorem many0Cost_more {p : MP α} {i r : Str} {a : α} {n : Nat} (h : p.run i = .ok r a) (hl : r.length ≠ i.length) :
    many0Cost .steps p (n + 1) i = p.cost i + many0Cost .steps p n r := by
  show p.cost i + _ = _
  rw [h]
  simp only
  rw [if_neg hl]

theorem many0Cost_last {p : MP α} {i : Str} {n : Nat} (h : p.run i = .error) :
    many0Cost .steps p (n + 1) i = p.cost i := by
  show p.cost i + _ = _
  rw [h]
  rfl

theorem breaks_none {i : Str} (h : Nom.lineEnding i = .error) :
    (many0 .steps (lineEnding .steps)).cost i = 3 := by
  show many0Cost .steps (lineEnding .steps) (i.length + 1) i = 3
  exact many0Cost_last h

theorem breaks_one (br : Break) {r : Str} (h : Nom.lineEnding r = .error) :
    (many0 .steps (lineEnding .steps)).cost (br.text ++ r) = 6 := by
  have hp := break_length_pos br
  obtain ⟨n, hn⟩ : ∃ n, (br.text ++ r).length = n + 1 := ⟨(br.text ++ r).length - 1, by simp; omega⟩
  show many0Cost .steps (lineEnding .steps) ((br.text ++ r).length + 1) (br.text ++ r) = 6
  rw [many0Cost_more (p := lineEnding .steps) (lineEnding_break br r) (by simp only [List.length_append]; omega), hn,
    many0Cost_last h]
  rfl

theorem lineSeparated_cost_error {p : MP α} {i : Str} (hi : Nom.lineEnding i = .error) (hp : p.run i = .error) :
    (lineSeparated .steps p).cost i = 3 + p.cost i := by
  show (pair .steps (many0 .steps (lineEnding .steps)) (pair .steps p (many0 .steps (lineEnding .steps)))).cost i = _
  rw [pair_cost_ok (many0_lineEnding_none hi), breaks_none hi, pair_cost_error hp]

theorem lineSeparated_cost_ok {p : MP α} {i r : Str} {a : α} (hi : Nom.lineEnding i = .error)
    (hp : p.run i = .ok r a) :
    (lineSeparated .steps p).cost i = 3 + (p.cost i + (many0 .steps (lineEnding .steps)).cost r) := by
  show (pair .steps (many0 .steps (lineEnding .steps)) (pair .steps p (many0 .steps (lineEnding .steps)))).cost i = _
  rw [pair_cost_ok (many0_lineEnding_none hi), breaks_none hi, pair_cost_ok hp]

theorem line_cost_error {p : MP α} {t i : Str} (hi : Nom.lineEnding i = .error)
    (h : Nom.prefixNoCase t i = false) : (line .steps t p).cost i = t.length + 4 := by
  have h1 : (tagNoCase .steps t).run i = .error := tagNoCase_error h
  have h2 : (preceded .steps (tagNoCase .steps t) p).run i = .error := by
    show Nom.map Prod.snd (Nom.pair (tagNoCase .steps t).run p.run) i = .error
    simp [Nom.map, Nom.pair, h1]
  have h3 : (preceded .steps (tagNoCase .steps t) p).cost i = t.length + 1 := by
    show (pair .steps (tagNoCase .steps t) p).cost i = _
    rw [pair_cost_error h1]
    rfl
  show (lineSeparated .steps (preceded .steps (tagNoCase .steps t) p)).cost i = _
  rw [lineSeparated_cost_error hi h2, h3]
  omega

theorem line_cost_ok {br : Break} {t b : Str} {p : MP α} {i r : Str} {a : α}
    (hb : b.map lowerAscii = t.map lowerAscii) (hl : Nom.lineEnding (b ++ i) = .error)
    (hp : p.run i = .ok (br.text ++ r) a) (hr : Nom.lineEnding r = .error) :
    (line .steps t p).cost (b ++ i) = t.length + p.cost i + 10 := by
  have h1 : (tagNoCase .steps t).run (b ++ i) = .ok i b := tagNoCase_ok hb
  have h2 : (preceded .steps (tagNoCase .steps t) p).run (b ++ i) = .ok (br.text ++ r) a := by
    show Nom.map Prod.snd (Nom.pair (tagNoCase .steps t).run p.run) _ = _
    simp [Nom.map, Nom.pair, h1, hp]
  have h3 : (preceded .steps (tagNoCase .steps t) p).cost (b ++ i) = t.length + 1 + p.cost i := by
    show (pair .steps (tagNoCase .steps t) p).cost (b ++ i) = _
    rw [pair_cost_ok h1]
    rfl
  show (lineSeparated .steps (preceded .steps (tagNoCase .steps t) p)).cost _ = _
  rw [lineSeparated_cost_ok hl h2, h3, breaks_one br hr]
  omega

/-! ### parameters -/

theorem takeWhile_cost {f : Char → Bool} {a b : Str} (ha : ∀ c ∈ a, f c = true) (hb : StopsAt f b) :
    (takeWhile .steps f).cost (a ++ b) = a.length + 2 := by
  show ((a ++ b).takeWhile f).length + 1 + 1 = _
  rw [(takeWhile_stop ha hb).1]

theorem takeTill1_cost {f : Char → Bool} {a b : Str} (ha : ∀ c ∈ a, f c = false)
    (hb : ∀ c, b.head? = some c → f c = true) : (takeTill1 .steps f).cost (a ++ b) = a.length + 2 := by
  show ((a ++ b).takeWhile (fun c => !f c)).length + 1 + 1 = _
  rw [(takeWhile_stop (by simpa using ha) (by intro c hc; simp [hb c hc])).1]

theorem eof_error {i : Str} (h : i ≠ []) : (eof .steps).run i = .error := by
  cases i with
  | nil => exact absurd rfl h
  | cons c i => rfl

theorem paramValue_cost_plain {v b : Str} (hb : ParamStop b) (h1 : ':' ∉ v) (h2 : ';' ∉ v) (h3 : ¬ ['"'] <+: v) :
    (paramValue .steps).cost (v ++ b) = v.length + 6 := by
  have hne : v ++ b ≠ [] := by
    cases b with
    | nil => rcases hb with h | h <;> simp at h
    | cons c s => simp
  have hq : (tag .steps ['"']).run (v ++ b) = .error := by
    cases v with
    | nil =>
      cases b with
      | nil => rfl
      | cons c s => rcases hb with h | h <;> (simp at h; subst h; rfl)
    | cons c s => exact tag_error (by intro h; subst h; exact h3 ⟨s, rfl⟩)
  have hd : (delimited .steps (tag .steps ['"']) (isNot .steps '"') (tag .steps ['"'])).run (v ++ b) = .error := by
    exact map_run_error (pair_run_error hq)
  have hc : (delimited .steps (tag .steps ['"']) (isNot .steps '"') (tag .steps ['"'])).cost (v ++ b) = 2 := by
    show (pair .steps (tag .steps ['"']) _).cost (v ++ b) = _
    rw [pair_cost_error hq]
    rfl
  unfold paramValue
  rw [alt_cost_error (eof_error hne), alt_cost_error hd, hc, takeTill1_cost]
  · show 2 + (2 + (v.length + 2)) = _
    omega
  · intro c hc
    simp only [Bool.or_eq_false_iff, beq_eq_false_iff_ne]
    exact ⟨fun h => h2 (h ▸ hc), fun h => h1 (h ▸ hc)⟩
  · intro c hc
    rcases hb with h | h <;> (rw [h] at hc; cases hc; rfl)

theorem paramValue_cost_quoted {v b : Str} (hne : v ≠ []) (h : '"' ∉ v) :
    (paramValue .steps).cost (['"'] ++ v ++ ['"'] ++ b) = v.length + 8 := by
  have e : ['"'] ++ v ++ ['"'] ++ b = ['"'] ++ (v ++ (['"'] ++ b)) := by simp
  have ht : (tag .steps ['"']).run (['"'] ++ (v ++ (['"'] ++ b))) = .ok (v ++ (['"'] ++ b)) ['"'] := tag_run_ok _ _
  have hn : (isNot .steps '"').run (v ++ (['"'] ++ b)) = .ok (['"'] ++ b) v := by
    apply takeTill1_ok hne
    · intro c hc
      simp only [beq_eq_false_iff_ne]
      exact fun hx => h (hx ▸ hc)
    · intro c hc
      simp at hc
      subst hc
      rfl
  have hn2 : (isNot .steps '"').cost (v ++ (['"'] ++ b)) = v.length + 2 := by
    apply takeTill1_cost
    · intro c hc
      simp only [beq_eq_false_iff_ne]
      exact fun hx => h (hx ▸ hc)
    · intro c hc
      simp at hc
      subst hc
      rfl
  have hd : (delimited .steps (tag .steps ['"']) (isNot .steps '"') (tag .steps ['"'])).run
      (['"'] ++ (v ++ (['"'] ++ b))) = .ok b v := by
    exact map_run_ok (pair_run_ok ht (pair_run_ok hn (tag_run_ok _ _)))
  have hc : (delimited .steps (tag .steps ['"']) (isNot .steps '"') (tag .steps ['"'])).cost
      (['"'] ++ (v ++ (['"'] ++ b))) = v.length + 6 := by
    show (pair .steps (tag .steps ['"']) (pair .steps (isNot .steps '"') (tag .steps ['"']))).cost _ = _
    rw [pair_cost_ok ht, pair_cost_ok hn, hn2]
    show 2 + (v.length + 2 + 2) = _
    omega
  unfold paramValue
  rw [e, alt_cost_error (eof_error (by simp)), alt_cost_ok hd, hc]
  show 2 + (v.length + 6) = _
  omega

section
variable [Uni]

theorem semicolon_cost {k s : Str} (hk : IsName k) (hs : StopsAt (fun c => c == ' ' || c == '\t') s) :
    (pair .steps (tag .steps [';']) (space0 .steps)).run ([';'] ++ k ++ s) = .ok (k ++ s) ([';'], []) ∧
    (pair .steps (tag .steps [';']) (space0 .steps)).cost ([';'] ++ k ++ s) = 4 := by
  have h1 : (tag .steps [';']).run ([';'] ++ k ++ s) = .ok (k ++ s) [';'] := by
    rw [List.append_assoc]; exact tag_run_ok _ _
  have h2 : (space0 .steps).run (k ++ s) = .ok (k ++ s) [] := space0_ok (stops_space hk hs)
  constructor
  · exact pair_run_ok h1 h2
  · rw [pair_cost_ok h1]
    have := takeWhile_cost (f := fun c => c == ' ' || c == '\t') (a := []) (b := k ++ s) (by simp) (stops_space hk hs)
    show 2 + (takeWhile .steps (fun c => c == ' ' || c == '\t')).cost ([] ++ (k ++ s)) = 4
    rw [this]
    rfl

theorem name_cost {k s : Str} (hk : IsName k) (hs : StopsAt isKeyChar s) :
    (validKeySequence .steps).cost (k ++ s) = k.length + 2 := takeWhile_cost (name_keyChar hk) hs

/-- a parameter costs at most sixteen steps for each of its characters -/
theorem parameter_cost {p : DParam} {b : Str} (h : p.Ok) (hb : ParamStop b) :
    (parameter .steps).cost (p.text ++ b) ≤ 16 * p.text.length := by
  obtain ⟨key, val⟩ := p
  obtain ⟨hk, hv⟩ := h
  simp only at hk hv
  cases val with
  | none =>
    have hs := semicolon_cost hk (stops_space_param hb)
    have hv : (validKeySequence .steps).run (key ++ b) = .ok b key := validKeySequence_ok hk hb.stopsAt
    have htag : (tag .steps ['=']).run b = .error := by
      cases b with
      | nil => rfl
      | cons c s => rcases hb with h | h <;> (simp at h; subst h; rfl)
    have hsep : (separatedPair .steps (validKeySequence .steps) (tag .steps ['='])
        (map removeEmpty (opt (paramValue .steps)))).cost (key ++ b) = key.length + 4 := by
      show (pair .steps (validKeySequence .steps) (pair .steps (tag .steps ['=']) _)).cost _ = _
      rw [pair_cost_ok hv, name_cost hk hb.stopsAt, pair_cost_error htag]
      rfl
    have h1 : (pairParameter .steps).run ([';'] ++ key ++ b) = .error := by
      have hx : (separatedPair .steps (validKeySequence .steps) (tag .steps ['='])
        (map removeEmpty (opt (paramValue .steps)))).run (key ++ b) = .error := by
        exact map_run_error (pair_run_error2 hv (pair_run_error htag))
      exact map_run_error (map_run_error (pair_run_error2 hs.1 hx))
    have c1 : (pairParameter .steps).cost ([';'] ++ key ++ b) = key.length + 8 := by
      show (pair .steps (pair .steps (tag .steps [';']) (space0 .steps)) _).cost _ = _
      rw [pair_cost_ok hs.1, hs.2, hsep]
      omega
    have c2 : (baseParameter .steps).cost ([';'] ++ key ++ b) = key.length + 8 := by
      have hp : (preceded .steps (pair .steps (tag .steps [';']) (space0 .steps)) (validKeySequence .steps)).run
          ([';'] ++ key ++ b) = .ok b key := by
        exact map_run_ok (pair_run_ok hs.1 hv)
      show (pair .steps (preceded .steps (pair .steps (tag .steps [';']) (space0 .steps)) (validKeySequence .steps))
        (preceded .steps (tag .steps ['=']) (paramValue .steps))).cost _ = _
      rw [pair_cost_ok hp]
      show (pair .steps (pair .steps (tag .steps [';']) (space0 .steps)) (validKeySequence .steps)).cost _ +
        (pair .steps (tag .steps ['=']) (paramValue .steps)).cost b = _
      rw [pair_cost_ok hs.1, hs.2, name_cost hk hb.stopsAt, pair_cost_error htag]
      show 4 + (key.length + 2) + 2 = _
      omega
    show (alt .steps (pairParameter .steps) (baseParameter .steps)).cost ([';'] ++ key ++ b) ≤ 16 * ([';'] ++ key).length
    rw [alt_cost_error h1, c1, c2]
    have : ([';'] ++ key).length = key.length + 1 := by simp
    rw [this]
    omega
  | some qv =>
    obtain ⟨q, v⟩ := qv
    have key_eq : ∀ s x, (paramValue .steps).cost s = x → Ical.paramValue s ≠ .failure →
        (parameter .steps).cost ([';'] ++ key ++ (['='] ++ s)) = key.length + x + 8 := by
      intro s x hx hnf
      have hs := semicolon_cost hk (s := ['='] ++ s) (by intro c hc; simp at hc; subst hc; rfl)
      have hv : (validKeySequence .steps).run (key ++ (['='] ++ s)) = .ok (['='] ++ s) key :=
        validKeySequence_ok hk stopsAt_eq
      have ht : (tag .steps ['=']).run (['='] ++ s) = .ok s ['='] := tag_run_ok _ _
      obtain ⟨r, o, ho⟩ : ∃ r o, (map removeEmpty (opt (paramValue .steps))).run s = .ok r o := by
        show ∃ r o, Nom.map removeEmpty (Nom.opt Ical.paramValue) s = .ok r o
        simp only [Nom.map, Nom.opt]
        cases hpv : Ical.paramValue s with
        | ok r a => exact ⟨_, _, rfl⟩
        | error => exact ⟨_, _, rfl⟩
        | failure => exact absurd hpv hnf
      have hsep : (separatedPair .steps (validKeySequence .steps) (tag .steps ['='])
          (map removeEmpty (opt (paramValue .steps)))).cost (key ++ (['='] ++ s)) = key.length + x + 4 := by
        show (pair .steps (validKeySequence .steps) (pair .steps (tag .steps ['=']) _)).cost _ = _
        rw [pair_cost_ok hv, name_cost hk (s := ['='] ++ s) stopsAt_eq, pair_cost_ok ht]
        show key.length + 2 + (2 + (paramValue .steps).cost s) = _
        rw [hx]
        omega
      have hrun : ∃ r o, (pairParameter .steps).run ([';'] ++ key ++ (['='] ++ s)) = .ok r o := by
        exact ⟨_, _, map_run_ok (map_run_ok (pair_run_ok hs.1 (map_run_ok (pair_run_ok hv (pair_run_ok ht ho)))))⟩
      obtain ⟨r', o', hrun⟩ := hrun
      show (alt .steps (pairParameter .steps) (baseParameter .steps)).cost _ = _
      rw [alt_cost_ok hrun]
      show (pair .steps (pair .steps (tag .steps [';']) (space0 .steps)) _).cost _ = _
      rw [pair_cost_ok hs.1, hs.2, hsep]
      omega
    cases q with
    | true =>
      obtain ⟨hne, hq⟩ := hv
      have e : DParam.text ⟨key, some (true, v)⟩ ++ b =
          [';'] ++ key ++ (['='] ++ (['"'] ++ v ++ ['"'] ++ b)) := by simp [DParam.text]
      have e2 : (DParam.text ⟨key, some (true, v)⟩).length = key.length + v.length + 4 := by
        simp [DParam.text]; omega
      rw [e, key_eq _ _ (paramValue_cost_quoted hne hq) (by rw [paramValue_quoted hne hq]; simp), e2]
      omega
    | false =>
      obtain ⟨ha, hb', hc⟩ := hv
      have e : DParam.text ⟨key, some (false, v)⟩ ++ b = [';'] ++ key ++ (['='] ++ (v ++ b)) := by
        simp [DParam.text]
      have e2 : (DParam.text ⟨key, some (false, v)⟩).length = key.length + v.length + 2 := by
        simp [DParam.text]; omega
      rw [e, key_eq _ _ (paramValue_cost_plain hb ha hb' hc), e2]
      · omega
      · by_cases hne : v = []
        · subst hne
          rw [List.nil_append, paramValue_empty hb]
          simp
        · rw [paramValue_plain hb hne ha hb' hc]
          simp

omit [Uni] in
theorem paramStop_flatten (ps : List DParam) (b : Str) : ParamStop ((ps.map DParam.text).flatten ++ (':' :: b)) := by
  cases ps with
  | nil => right; rfl
  | cons q qs =>
    left
    have := paramText_head q
    cases hq : q.text with
    | nil => simp [hq] at this
    | cons c s => simp [hq] at this ⊢; exact this

theorem parameters_cost_doc {ps : List DParam} {b : Str} (h : ∀ p ∈ ps, p.Ok) (n : Nat)
    (hn : ((ps.map DParam.text).flatten ++ (':' :: b)).length < n) :
    many0Cost .steps (parameter .steps) n ((ps.map DParam.text).flatten ++ (':' :: b)) ≤
      16 * (ps.map DParam.text).flatten.length + 4 := by
  induction ps generalizing n with
  | nil =>
    cases n with
    | zero => omega
    | succ n =>
      rw [many0Cost_last (p := parameter .steps) (show Ical.parameter _ = .error from rfl)]
      exact Nat.le_of_eq rfl
  | cons p ps ih =>
    cases n with
    | zero => omega
    | succ n =>
      have hs := paramStop_flatten ps b
      have h1 := parameter_ok (h p (by simp)) hs
      have h2 := parameter_cost (h p (by simp)) hs
      have hp := paramText_pos p
      simp only [List.map_cons, List.flatten_cons, List.append_assoc, List.length_append] at hn ⊢
      have hlt : ((ps.map DParam.text).flatten ++ (':' :: b)).length <
          (p.text ++ ((ps.map DParam.text).flatten ++ (':' :: b))).length := by
        simp only [List.length_append]; omega
      rw [many0Cost_more (p := parameter .steps) h1 (Nat.ne_of_lt hlt)]
      have h3 := ih (fun q hq => h q (by simp [hq])) n (by simp only [List.length_append]; omega)
      omega

/-! ### properties -/

omit [Uni] in
theorem propertyRest_cost {v r : Str} (h : ¬ ['\r', '\n'] <:+: v) :
    (propertyRest .steps).cost (v ++ (Break.crlf.text ++ r)) = v.length + 3 := by
  have hf : Nom.findSub ['\r', '\n'] (v ++ (Break.crlf.text ++ r)) = some (v, '\r' :: '\n' :: r) := findSub_crlf h
  have hr : (takeUntil .steps ['\r', '\n']).run (v ++ (Break.crlf.text ++ r)) = .ok ('\r' :: '\n' :: r) v := by
    show Nom.takeUntil _ _ = _
    unfold Nom.takeUntil
    rw [hf]
  unfold propertyRest
  rw [alt_cost_ok hr]
  show (match Nom.findSub ['\r', '\n'] (v ++ (Break.crlf.text ++ r)) with
    | some (a, _) => a.length + 2
    | none => _) + 1 = _
  rw [hf]

/-- a content line costs at most sixteen steps for each of its characters -/
theorem property_cost_doc {key : Str} {params : List DParam} {val r : Str}
    (hk : IsName key) (h1 : ¬ c!"END" <+: key) (h2 : ¬ c!"BEGIN" <+: key)
    (hp : ∀ p ∈ params, p.Ok) (hv : ValOk .crlf val) :
    (property .steps).cost ((Item.prop key params val).text .crlf ++ r) ≤
      16 * ((Item.prop key params val).text .crlf).length := by
  have hl := lineHead_prop hk params val (Break.crlf.text ++ r)
  have e : (Item.prop key params val).text .crlf ++ r =
      key ++ ((params.map DParam.text).flatten ++ (':' :: (val ++ (Break.crlf.text ++ r)))) := by
    simp [Item.text]
  have e' : key ++ (params.map DParam.text).flatten ++ [':'] ++ val ++ (Break.crlf.text ++ r) =
      key ++ ((params.map DParam.text).flatten ++ (':' :: (val ++ (Break.crlf.text ++ r)))) := by simp
  rw [e'] at hl
  rw [e]
  have hms := hl.multispace
  have hkey := propertyKey_ok hk h1 h2 (params_stop params (val ++ (Break.crlf.text ++ r)))
  have hname : (cut (preceded .steps (multispace0 .steps) (propertyKey .steps))).run
      (key ++ ((params.map DParam.text).flatten ++ (':' :: (val ++ (Break.crlf.text ++ r))))) =
      .ok ((params.map DParam.text).flatten ++ (':' :: (val ++ (Break.crlf.text ++ r)))) key := by
    show Nom.cut (Nom.preceded Nom.multispace0 Ical.propertyKey) _ = _
    simp only [Nom.cut, Nom.preceded, Nom.map, Nom.pair, hms, hkey]
  have cname : (cut (preceded .steps (multispace0 .steps) (propertyKey .steps))).cost
      (key ++ ((params.map DParam.text).flatten ++ (':' :: (val ++ (Break.crlf.text ++ r))))) = key.length + 10 := by
    show (pair .steps (multispace0 .steps) (propertyKey .steps)).cost _ = _
    have hmr : (multispace0 .steps).run
      (key ++ ((params.map DParam.text).flatten ++ (':' :: (val ++ (Break.crlf.text ++ r))))) = .ok _ [] := hms
    rw [pair_cost_ok hmr]
    have c1 : (multispace0 .steps).cost
      (key ++ ((params.map DParam.text).flatten ++ (':' :: (val ++ (Break.crlf.text ++ r))))) = 2 := by
      have hms2 := hms
      unfold Nom.multispace0 Nom.takeWhile at hms2
      simp only [Res.ok.injEq] at hms2
      show (List.takeWhile _ _).length + 1 + 1 = 2
      rw [hms2.2]
      rfl
    have c2 : (propertyKey .steps).cost
      (key ++ ((params.map DParam.text).flatten ++ (':' :: (val ++ (Break.crlf.text ++ r))))) = key.length + 8 := by
      show 6 + _ = _
      rw [if_neg]
      · rw [name_cost hk (params_stop params _)]
        omega
      · rw [Bool.or_eq_true, List.isPrefixOf_iff_prefix, List.isPrefixOf_iff_prefix]
        rintro (h | h)
        · exact h1 (prefix_of_name END_keyChar (params_stop params _) h)
        · exact h2 (prefix_of_name BEGIN_keyChar (params_stop params _) h)
    rw [c1, c2]
    omega
  have hpar : (parameters .steps).run ((params.map DParam.text).flatten ++ (':' :: (val ++ (Break.crlf.text ++ r)))) =
      .ok (':' :: (val ++ (Break.crlf.text ++ r))) (params.map DParam.meaning) := parameters_ok hp
  have cpar : (parameters .steps).cost ((params.map DParam.text).flatten ++ (':' :: (val ++ (Break.crlf.text ++ r)))) ≤
      16 * (params.map DParam.text).flatten.length + 4 := parameters_cost_doc hp _ (Nat.lt_succ_self _)
  have hhead : headPart.run (key ++ ((params.map DParam.text).flatten ++ (':' :: (val ++ (Break.crlf.text ++ r))))) =
      .ok (':' :: (val ++ (Break.crlf.text ++ r))) (key, params.map DParam.meaning) := by
    show Nom.pair (cut (preceded .steps (multispace0 .steps) (propertyKey .steps))).run (parameters .steps).run _ = _
    unfold Nom.pair
    simp only [hname, hpar]
  have chead : headPart.cost (key ++ ((params.map DParam.text).flatten ++ (':' :: (val ++ (Break.crlf.text ++ r))))) ≤
      key.length + 10 + (16 * (params.map DParam.text).flatten.length + 4) := by
    unfold headPart
    rw [pair_cost_ok hname, cname]
    omega
  have htag : (tag .steps [':']).run (':' :: (val ++ (Break.crlf.text ++ r))) = .ok (val ++ (Break.crlf.text ++ r)) [':'] :=
    tag_ok [':'] _
  have hrest : (propertyRest .steps).run (val ++ (Break.crlf.text ++ r)) = .ok (Break.crlf.text ++ r) val :=
    propertyRest_ok hv (by intro h; cases h)
  have hparts := property_full hhead htag hrest
  have cparts : (propertyParts .steps).cost
      (key ++ ((params.map DParam.text).flatten ++ (':' :: (val ++ (Break.crlf.text ++ r))))) ≤
      key.length + 10 + (16 * (params.map DParam.text).flatten.length + 4) + (2 + (val.length + 3)) := by
    have hfull : fullPart.run (key ++ ((params.map DParam.text).flatten ++ (':' :: (val ++ (Break.crlf.text ++ r))))) =
        .ok (Break.crlf.text ++ r) ((key, params.map DParam.meaning), val) := by
      exact map_run_ok (pair_run_ok hhead (pair_run_ok htag hrest))
    show (alt .steps fullPart _).cost _ ≤ _
    rw [alt_cost_ok hfull]
    show (pair .steps headPart (pair .steps (tag .steps [':']) (propertyRest .steps))).cost _ ≤ _
    rw [pair_cost_ok hhead, pair_cost_ok htag, propertyRest_cost hv]
    exact Nat.add_le_add_right chead _
  show (pair .steps (propertyParts .steps) (opt (lineEnding .steps))).cost _ ≤ _
  rw [pair_cost_ok hparts]
  show _ + 3 ≤ _
  have el : ((Item.prop key params val).text .crlf).length =
      key.length + (params.map DParam.text).flatten.length + 1 + val.length + 2 := by
    simp [Item.text, Break.text]
    omega
  rw [el]
  omega

/-! ### components -/

omit [Uni] in
theorem till_cost_done {f : MP α} {g : MP β} {i r : Str} {b : β} {n : Nat} (hg : g.run i = .ok r b) :
    manyTillCost .steps f g (n + 1) i = g.cost i := by
  show g.cost i + _ = _
  rw [hg]
  rfl

omit [Uni] in
theorem end_cost {e name r : Str} (he : e.map lowerAscii = c!"end:") (hr : Nom.lineEnding r = .error) :
    (componentEnd .steps name).cost (e ++ name ++ Break.crlf.text ++ r) = name.length + 15 := by
  have e1 : e ++ name ++ Break.crlf.text ++ r = e ++ (name ++ (Break.crlf.text ++ r)) := by simp
  rw [e1]
  unfold componentEnd
  rw [line_cost_ok (br := .crlf) (r := r) (a := name) (by rw [he]; decide)
    (keyword_lineEnding he (by decide) (by decide)) ?_ hr]
  · show 4 + (name.length + 1) + 10 = _
    omega
  · show Nom.cut (Nom.tag name) _ = _
    unfold Nom.cut
    rw [tag_ok]

theorem componentF_run {i : Str} {n : Nat} (h : i.length < n) : (componentF .steps n).run i = Ical.component i := by
  rw [run_componentF, componentF_budget n (i.length + 1) i h (by omega)]
  rfl

theorem child_cost_comp {rec : MP PComp} {i r : Str} {c : PComp} (hi : Nom.lineEnding i = .error)
    (hr : Nom.lineEnding r = .error) (h : rec.run i = .ok r c) :
    (componentChild .steps rec).cost i = rec.cost i + 6 := by
  have h1 : (map Child.comp (lineSeparated .steps rec)).run i = .ok r (.comp c) :=
    map_run_ok (lineSeparated_ok hi h (many0_lineEnding_none hr))
  show (alt .steps (map Child.comp (lineSeparated .steps rec)) _).cost i = _
  rw [alt_cost_ok h1]
  show (lineSeparated .steps rec).cost i = _
  rw [lineSeparated_cost_ok hi h, breaks_none hr]
  omega

theorem child_cost_prop {rec : MP PComp} {i r : Str} {p : PProp} (hi : Nom.lineEnding i = .error)
    (hr : Nom.lineEnding r = .error) (h : rec.run i = .error) (hp : Ical.property i = .ok r p) :
    (componentChild .steps rec).cost i = rec.cost i + (property .steps).cost i + 9 := by
  have h1 : (map Child.comp (lineSeparated .steps rec)).run i = .error :=
    map_run_error (lineSeparated_error hi h)
  show (alt .steps (map Child.comp (lineSeparated .steps rec)) _).cost i = _
  rw [alt_cost_error h1]
  show (lineSeparated .steps rec).cost i + (lineSeparated .steps (property .steps)).cost i = _
  rw [lineSeparated_cost_error hi h, lineSeparated_cost_ok (p := property .steps) hi hp, breaks_none hr]
  omega

theorem body_cost_error {rec : MP PComp} {i : Str} (h : Ical.line c!"BEGIN:" Ical.validKeySequence i = .error) :
    (componentBody .steps rec).cost i = (line .steps c!"BEGIN:" (validKeySequence .steps)).cost i + 1 := by
  unfold componentBody
  simp only [h]
  rfl

theorem body_cost_ok {rec : MP PComp} {i r r' : Str} {name : Str} {x : List Child × Str}
    (h : Ical.line c!"BEGIN:" Ical.validKeySequence i = .ok r name)
    (h' : (manyTill .steps (componentChild .steps rec) (componentEnd .steps name)).run r = .ok r' x) :
    (componentBody .steps rec).cost i = (line .steps c!"BEGIN:" (validKeySequence .steps)).cost i +
      ((manyTill .steps (componentChild .steps rec) (componentEnd .steps name)).cost r +
        (many0 .steps (tag .steps ['\n'])).cost r') + 1 := by
  unfold componentBody
  simp only [h, h']
  rfl

omit [Uni] in
theorem lf_none {r : Str} (h : Nom.lineEnding r = .error) : (many0 .steps (tag .steps ['\n'])).cost r = 2 := by
  refine many0Cost_last (p := tag .steps ['\n']) ?_
  cases r with
  | nil => rfl
  | cons c r =>
    refine tag_error ?_
    rintro rfl
    cases h

theorem body_run {i r : Str} {x : List Child × Str} {name : Str} {n : Nat} (h : i.length < n)
    (hx : Nom.manyTill (Ical.componentChild Ical.component) (Ical.componentEnd name) i = .ok r x) :
    (manyTill .steps (componentChild .steps (componentF .steps n)) (componentEnd .steps name)).run i = .ok r x := by
  rw [← hx]
  show Nom.manyTill (Ical.componentChild (componentF .steps n).run) (Ical.componentEnd name) i = _
  refine Nom.manyTill_congr (shrinks_componentChild ?_) ?_
  · rw [run_componentF]
    exact shrinks_componentF n
  · intro j hj
    exact componentChild_congr (fun k hk => componentF_run (by omega))

omit [Uni] in
theorem length_ne {a b : Str} (h : 0 < a.length) : b.length ≠ (a ++ b).length := by
  rw [List.length_append]; omega

mutual
/-- a component costs at most thirty steps for each of its characters -/
theorem component_cost_doc {b e name : Str} {items : List Item} (h : (Item.comp b e name items).Ok .crlf)
    {r : Str} (hr : Nom.lineEnding r = .error) {n : Nat}
    (hn : ((Item.comp b e name items).text .crlf ++ r).length < n) :
    (componentF .steps n).cost ((Item.comp b e name items).text .crlf ++ r) + 14 ≤
      30 * ((Item.comp b e name items).text .crlf).length := by
  simp only [Item.Ok] at h
  obtain ⟨hb, he, hnm, hi⟩ := h
  have e1 : (Item.comp b e name items).text .crlf ++ r =
      b ++ (name ++ (Break.crlf.text ++ (itemsText .crlf items ++ (e ++ name ++ Break.crlf.text ++ r)))) := by
    simp [Item.text]
  have e2 : ((Item.comp b e name items).text .crlf).length =
      6 + name.length + 2 + (itemsText .crlf items).length + 4 + name.length + 2 := by
    have l1 : b.length = 6 := by rw [← List.length_map lowerAscii, hb]; rfl
    have l2 : e.length = 4 := by rw [← List.length_map lowerAscii, he]; rfl
    simp [Item.text, Break.text]
    omega
  have e3 : (itemsText .crlf items ++ (e ++ name ++ Break.crlf.text ++ r)).length + 8 ≤
      ((Item.comp b e name items).text .crlf ++ r).length := by
    have l1 : b.length = 6 := by rw [← List.length_map lowerAscii, hb]; rfl
    rw [e1]
    simp [Break.text]
    omega
  rw [e2]
  have hend : Nom.lineEnding (e ++ name ++ Break.crlf.text ++ r) = .error := by
    rw [List.append_assoc, List.append_assoc]
    exact keyword_lineEnding he (by decide) (by decide)
  have hle := items_lineEnding hi hend
  have hbe := keyword_lineEnding (s := name ++ (Break.crlf.text ++ (itemsText .crlf items ++
    (e ++ name ++ Break.crlf.text ++ r)))) hb (by decide) (by decide)
  have hv : (validKeySequence .steps).run
      (name ++ (Break.crlf.text ++ (itemsText .crlf items ++ (e ++ name ++ Break.crlf.text ++ r)))) = .ok _ name :=
    validKeySequence_ok hnm (stopsAt_break .crlf)
  have h1 : Ical.line c!"BEGIN:" Ical.validKeySequence
      (b ++ (name ++ (Break.crlf.text ++ (itemsText .crlf items ++ (e ++ name ++ Break.crlf.text ++ r))))) =
      .ok (itemsText .crlf items ++ (e ++ name ++ Break.crlf.text ++ r)) name :=
    line_ok (br := .crlf) (by rw [hb]; decide) hbe hv hle
  have c1 : (line .steps c!"BEGIN:" (validKeySequence .steps)).cost
      (b ++ (name ++ (Break.crlf.text ++ (itemsText .crlf items ++ (e ++ name ++ Break.crlf.text ++ r))))) =
      name.length + 18 := by
    rw [line_cost_ok (br := .crlf) (by rw [hb]; decide) hbe hv hle, name_cost hnm (stopsAt_break .crlf)]
    show 6 + (name.length + 2) + 10 = _
    omega
  rw [e1] at hn e3 ⊢
  cases n with
  | zero => omega
  | succ n =>
    have hrun := body_run (n := n) (by omega) (body_ok (br := .crlf) hi he hr (name := name) (by intro h; cases h))
    show (componentBody .steps (componentF .steps n)).cost _ + 14 ≤ _
    rw [body_cost_ok h1 hrun, c1, lf_none hr]
    have h2 := items_cost_doc hi he hr (name := name) (n := n)
      (k := (itemsText .crlf items ++ (e ++ name ++ Break.crlf.text ++ r)).length + 1) (by omega) (by omega)
    have h3 : (manyTill .steps (componentChild .steps (componentF .steps n)) (componentEnd .steps name)).cost
      (itemsText .crlf items ++ (e ++ name ++ Break.crlf.text ++ r)) ≤
      30 * (itemsText .crlf items).length + (name.length + 15) := h2
    omega
termination_by sizeOf items + 1
decreasing_by omega

/-- and so does what a component contains -/
theorem items_cost_doc {items : List Item} (h : ItemsOk .crlf items) {e name : Str}
    (he : e.map lowerAscii = c!"end:") {r : Str} (hr : Nom.lineEnding r = .error) {n k : Nat}
    (hn : (itemsText .crlf items ++ (e ++ name ++ Break.crlf.text ++ r)).length < n)
    (hk : (itemsText .crlf items ++ (e ++ name ++ Break.crlf.text ++ r)).length < k) :
    manyTillCost .steps (componentChild .steps (componentF .steps n)) (componentEnd .steps name) k
      (itemsText .crlf items ++ (e ++ name ++ Break.crlf.text ++ r)) ≤
      30 * (itemsText .crlf items).length + (name.length + 15) := by
  have hend : Nom.lineEnding (e ++ name ++ Break.crlf.text ++ r) = .error := by
    rw [List.append_assoc, List.append_assoc]
    exact keyword_lineEnding he (by decide) (by decide)
  cases k with
  | zero => omega
  | succ k =>
  match hI : items, h, hn, hk with
  | [], _, hn, hk =>
    simp only [itemsText, List.nil_append]
    rw [till_cost_done (g := componentEnd .steps name) (componentEnd_ok (br := .crlf) he hr), end_cost he hr]
    omega
  | .prop key params val :: l, h, hn, hk =>
    simp only [ItemsOk, Item.Ok] at h
    obtain ⟨⟨hky, hp, hv⟩, hl⟩ := h
    have hrest := items_lineEnding hl hend
    have hle := item_lineEnding (br := .crlf) (it := .prop key params val) (by simp only [Item.Ok]; exact ⟨hky, hp, hv⟩)
      (itemsText .crlf l ++ (e ++ name ++ Break.crlf.text ++ r))
    have e1 : (Item.prop key params val).text .crlf ++ (itemsText .crlf l ++ (e ++ name ++ Break.crlf.text ++ r)) =
        key ++ ((params.map DParam.text).flatten ++ (':' :: (val ++ (Break.crlf.text ++
          (itemsText .crlf l ++ (e ++ name ++ Break.crlf.text ++ r)))))) := by simp [Item.text]
    have hpr := property_ok (br := .crlf) (r := itemsText .crlf l ++ (e ++ name ++ Break.crlf.text ++ r))
      hky.name hky.notEnd hky.notBegin hp hv (by intro h; cases h)
    have hE := keyOk_line hky params val (Break.crlf.text ++ (itemsText .crlf l ++ (e ++ name ++ Break.crlf.text ++ r)))
      (.inl rfl)
    have hB := keyOk_line hky params val (Break.crlf.text ++ (itemsText .crlf l ++ (e ++ name ++ Break.crlf.text ++ r)))
      (.inr rfl)
    rw [← e1] at hE hB
    change Nom.prefixNoCase c!"END:" _ = false at hE
    change Nom.prefixNoCase c!"BEGIN:" _ = false at hB
    have hcomp : Ical.component ((Item.prop key params val).text .crlf ++
          (itemsText .crlf l ++ (e ++ name ++ Break.crlf.text ++ r))) = .error := by
      rw [component_eq]
      unfold Ical.componentBody
      rw [line_error hle hB]
    have hpos := item_text_pos .crlf (.prop key params val)
    have hlen : 3 ≤ ((Item.prop key params val).text .crlf).length := by
      simp [Item.text, Break.text]; omega
    simp only [itemsText, List.append_assoc] at hn hk ⊢
    have e4 : e ++ (name ++ (Break.crlf.text ++ r)) = e ++ name ++ Break.crlf.text ++ r := by simp
    rw [e4] at hn hk ⊢
    rw [List.length_append] at hn hk
    have hrun : (componentF .steps n).run ((Item.prop key params val).text .crlf ++
          (itemsText .crlf l ++ (e ++ name ++ Break.crlf.text ++ r))) = .error := by
      rw [componentF_run (by rw [List.length_append]; exact hn), hcomp]
    have hchild : (componentChild .steps (componentF .steps n)).run ((Item.prop key params val).text .crlf ++
          (itemsText .crlf l ++ (e ++ name ++ Break.crlf.text ++ r))) = .ok (itemsText .crlf l ++ (e ++ name ++ Break.crlf.text ++ r)) (.prop (Spec.meaningProp key params val)) := by
      show Ical.componentChild (componentF .steps n).run _ = _
      unfold Ical.componentChild Nom.cut Nom.alt Nom.map
      rw [lineSeparated_error hle hrun, lineSeparated_ok hle hpr (many0_lineEnding_none hrest)]
    rw [till_cost_ok (g := componentEnd .steps name) (line_error hle hE) hchild (length_ne hpos),
      child_cost_prop hle hrest hrun hpr]
    have c1 : (componentEnd .steps name).cost ((Item.prop key params val).text .crlf ++
          (itemsText .crlf l ++ (e ++ name ++ Break.crlf.text ++ r))) = 8 := line_cost_error hle hE
    have c2 : (componentF .steps n).cost ((Item.prop key params val).text .crlf ++
          (itemsText .crlf l ++ (e ++ name ++ Break.crlf.text ++ r))) = 11 := by
      cases n with
      | zero => omega
      | succ n =>
        show (componentBody .steps (componentF .steps n)).cost _ = _
        rw [body_cost_error (line_error hle hB), line_cost_error hle hB]
        rfl
    have c3 := property_cost_doc (r := itemsText .crlf l ++ (e ++ name ++ Break.crlf.text ++ r))
      hky.name hky.notEnd hky.notBegin hp hv
    have h4 := items_cost_doc hl he hr (name := name) (n := n) (k := k) (by omega) (by omega)
    rw [List.length_append]
    omega
  | .comp b e' name' items' :: l, h, hn, hk =>
    simp only [ItemsOk] at h
    obtain ⟨hi, hl⟩ := h
    have hrest := items_lineEnding hl hend
    have hle := item_lineEnding hi (itemsText .crlf l ++ (e ++ name ++ Break.crlf.text ++ r))
    have hpos := item_text_pos .crlf (.comp b e' name' items')
    have hE : Nom.prefixNoCase c!"END:" ((Item.comp b e' name' items').text .crlf ++
        (itemsText .crlf l ++ (e ++ name ++ Break.crlf.text ++ r))) = false := by
      have hi' := hi
      simp only [Item.Ok] at hi'
      obtain ⟨c, s, rfl, hc⟩ := keyword_head hi'.1
      simp only [Item.text, List.cons_append]
      exact prefixNoCase_head_ne (by rw [hc]; decide)
    have hc := component_ok hi hrest (by intro h; cases h)
    simp only [itemsText, List.append_assoc] at hn hk ⊢
    have e4 : e ++ (name ++ (Break.crlf.text ++ r)) = e ++ name ++ Break.crlf.text ++ r := by simp
    rw [e4] at hn hk ⊢
    rw [List.length_append] at hn hk
    have hrun : (componentF .steps n).run ((Item.comp b e' name' items').text .crlf ++
          (itemsText .crlf l ++ (e ++ name ++ Break.crlf.text ++ r))) = .ok _ _ :=
      (componentF_run (by rw [List.length_append]; exact hn)).trans hc
    have hchild : (componentChild .steps (componentF .steps n)).run ((Item.comp b e' name' items').text .crlf ++
          (itemsText .crlf l ++ (e ++ name ++ Break.crlf.text ++ r))) = .ok (itemsText .crlf l ++ (e ++ name ++ Break.crlf.text ++ r)) (.comp (.mk name' (Spec.itemsProps items') (Spec.itemsComps items'))) := by
      show Ical.componentChild (componentF .steps n).run _ = _
      unfold Ical.componentChild Nom.cut Nom.alt Nom.map
      rw [lineSeparated_ok hle hrun (many0_lineEnding_none hrest)]
    rw [till_cost_ok (g := componentEnd .steps name) (line_error hle hE) hchild (length_ne hpos),
      child_cost_comp hle hrest hrun]
    have c1 : (componentEnd .steps name).cost ((Item.comp b e' name' items').text .crlf ++
          (itemsText .crlf l ++ (e ++ name ++ Break.crlf.text ++ r))) = 8 := line_cost_error hle hE
    have c2 := component_cost_doc hi hrest (n := n) (by rw [List.length_append]; exact hn)
    have h4 := items_cost_doc hl he hr (name := name) (n := n) (k := k) (by omega) (by omega)
    rw [List.length_append]
    omega
termination_by sizeOf items
decreasing_by all_goals (rw [hI]; simp; try omega)
end

/-- a document whose root is well formed -/
theorem components_cost_doc {b e name : Str} {items : List Item} (h : (Item.comp b e name items).Ok .crlf) :
    (components .steps).cost ((Item.comp b e name items).text .crlf) ≤
      30 * ((Item.comp b e name items).text .crlf).length := by
  have hpos := item_text_pos .crlf (.comp b e name items)
  have hrun := component_ok h (r := []) rfl (by intro h; cases h)
  have hc := component_cost_doc h (r := []) rfl (n := ((Item.comp b e name items).text .crlf).length + 1) (by simp)
  rw [List.append_nil] at hrun hc
  obtain ⟨n, hn⟩ : ∃ n, ((Item.comp b e name items).text .crlf).length = n + 1 := ⟨_, (Nat.succ_pred_eq_of_pos hpos).symm⟩
  have hall : (allConsuming (component .steps)).run ((Item.comp b e name items).text .crlf) =
      .ok [] (.mk name (Spec.itemsProps items) (Spec.itemsComps items)) := by
    show Nom.allConsuming Ical.component _ = _
    unfold Nom.allConsuming
    rw [hrun]
    rfl
  show many0Cost .steps (allConsuming (component .steps)) (((Item.comp b e name items).text .crlf).length + 1)
    ((Item.comp b e name items).text .crlf) ≤ _
  rw [many0Cost_more hall (by rw [hn]; simp)]
  have h0 : (allConsuming (component .steps)).run [] = .error := rfl
  have h1 : many0Cost .steps (allConsuming (component .steps)) ((Item.comp b e name items).text .crlf).length [] = 11 := by
    rw [hn, many0Cost_last h0]
    rfl
  rw [h1]
  have h2 : (allConsuming (component .steps)).cost ((Item.comp b e name items).text .crlf) =
    (componentF .steps (((Item.comp b e name items).text .crlf).length + 1)).cost
      ((Item.comp b e name items).text .crlf) := rfl
  omega

end

end MP

end Ical
