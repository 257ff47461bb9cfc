import Verif.Proofs.WorkDepth
import Verif.Proofs.WorkLower
import Verif.Proofs.WorkLinear
import Verif.Proofs.WorkGeneral
import Verif.Proofs.CalendarIO
import Verif.Props.Sizes

/-!
How much work reading a text takes.
-/

namespace Ical

open Spec

variable [Uni]

/-- What is measured is the reader of the model. -/
theorem measured_reader (m : Meter) : (MP.components m).run = Ical.components := rfl

/-! ### C84 -/

/-- **C84 (partial).** If lines that open a component are written with an upper case BEGIN, reading a text takes a
number of steps that is at most quadratic in its length. -/
theorem read_steps_partial {s : Str} (h : UpperBegins (unfold s)) :
    readSteps (unfold s) ≤ 450 * ((s.length + 1) * (s.length + 1)) := by
  refine Nat.le_trans (MP.steps_components h) (Nat.mul_le_mul_left _ ?_)
  have := unfold_length s
  exact Nat.mul_le_mul (by omega) (by omega)

/-- A quadratic number of steps is needed, even for well-formed calendars: each line of a text with LF line breaks is
searched to the end of the text for a CRLF. -/
theorem read_steps_tight (n : Nat) :
    (calendarOf (flat n)).Ok .lf ∧ ((calendarOf (flat n)).text .lf).length = 4 * n + 30 ∧
    2 * (n * n) ≤ readSteps (unfold ((calendarOf (flat n)).text .lf)) := by
  have hX : KeyOk c!"X" := ⟨by simp [IsName, NameChar, isAlnum], by decide, by decide, by decide, by decide⟩
  have hok : (calendarOf (flat n)).Ok .lf := by
    simp only [calendarOf, Item.Ok]
    refine ⟨rfl, rfl, by simp [IsName, NameChar, isAlnum], ?_⟩
    induction n with
    | zero => simp [flat, ItemsOk]
    | succ n ih => exact ⟨⟨hX, by simp, by simp [ValOk]⟩, ih⟩
  have hf : (calendarOf (flat n)).Flat := by
    simp only [calendarOf, Item.Flat]
    clear hok
    induction n with
    | zero => simp [flat, ItemsFlat]
    | succ n ih => exact ⟨by simp only [Item.Flat]; decide, ih⟩
  refine ⟨hok, ?_, ?_⟩
  · simp [calendarOf, Item.text, Break.text, MP.flat_length]
  · rw [unfold_doc hok hf]
    exact steps_calendar_flat n

omit [Uni] in
theorem unfold_begins (n : Nat) : unfold (begins n) = begins n := by
  have h1 : ' ' ∉ begins n ∧ '\t' ∉ begins n := by
    induction n with
    | zero => simp [begins]
    | succ n ih => simp [begins, ih]
  rw [unfold_eq_spec]
  refine unfoldSpec_markerFree _ ?_
  constructor <;> rintro ⟨a, b, h⟩
  · exact h1.1 (by rw [← h]; simp)
  · exact h1.2 (by rw [← h]; simp)

omit [Uni] in
/-- an exponential outgrows every polynomial -/
theorem lt_two_pow_of_polynomial (c k : Nat) : ∃ n, c * (8 * (n + 1) + 1) ^ k < 2 ^ n := by
  have hsq : ∀ a : Nat, a * a + 2 * a + 1 < 2 ^ (a + 5) := by
    intro a
    induction a with
    | zero => decide
    | succ a ih =>
      rw [show a + 1 + 5 = (a + 5) + 1 by omega, Nat.pow_succ]
      have : 2 * a + 3 ≤ 2 ^ (a + 5) := by
        clear ih
        induction a with
        | zero => decide
        | succ a ih => rw [show a + 1 + 5 = (a + 5) + 1 by omega, Nat.pow_succ]; omega
      have e : (a + 1) * (a + 1) = a * a + 2 * a + 1 := by rw [Nat.add_mul, Nat.mul_add]; omega
      omega
  obtain ⟨a, ha⟩ : ∃ a, c + 12 * k + a * k ≤ a * a := by
    refine ⟨k + (c + 12 * k + 1), ?_⟩
    have : c + 12 * k + 1 ≤ (k + (c + 12 * k + 1)) * (c + 12 * k + 1) := Nat.le_mul_of_pos_left _ (by omega)
    rw [Nat.mul_add (k + (c + 12 * k + 1))]
    omega
  refine ⟨2 ^ (a + 5), ?_⟩
  have h1 : 8 * (2 ^ (a + 5) + 1) + 1 ≤ 2 ^ (a + 12) := by
    rw [show a + 12 = (a + 5) + 7 by omega, Nat.pow_add 2 (a + 5) 7]
    have : 1 ≤ 2 ^ (a + 5) := Nat.one_le_two_pow
    omega
  calc c * (8 * (2 ^ (a + 5) + 1) + 1) ^ k
      ≤ c * (2 ^ (a + 12)) ^ k := Nat.mul_le_mul_left _ (Nat.pow_le_pow_left h1 k)
    _ ≤ 2 ^ c * (2 ^ (a + 12)) ^ k := Nat.mul_le_mul_right _ (Nat.le_of_lt Nat.lt_two_pow_self)
    _ = 2 ^ (c + (a + 12) * k) := by rw [← Nat.pow_mul, ← Nat.pow_add]
    _ < 2 ^ (2 ^ (a + 5)) := by
      refine Nat.pow_lt_pow_right (by decide) ?_
      have := hsq a
      rw [Nat.add_mul]
      omega

/-- **C84 (violated).** Otherwise the number of steps can double with every line: `n + 1` lines that open a component
in lower case letters take at least `2 ^ n` steps. The result is an empty calendar. -/
theorem read_steps_violated (n : Nat) : (begins (n + 1)).length = 8 * (n + 1) ∧
    2 ^ n ≤ readSteps (unfold (begins (n + 1))) ∧ Calendar.fromStr (begins (n + 1)) = some ⟨[], []⟩ := by
  refine ⟨length_begins _, ?_, ?_⟩
  · rw [unfold_begins]
    exact MP.steps_components_begins n
  · have : components (begins (n + 1)) = .ok (begins (n + 1)) [] :=
      components_none (.inl (manyTill_begins (n + 1)).2)
    simp [Calendar.fromStr, readCalendar, unfold_begins, this, finish, PCal.toCalendar]

/-- **C84 (violated).** So no polynomial bounds the number of steps. -/
theorem read_steps_no_polynomial_violated (c k : Nat) :
    ∃ s : Str, c * (s.length + 1) ^ k < readSteps (unfold s) := by
  obtain ⟨n, hn⟩ := lt_two_pow_of_polynomial c k
  obtain ⟨h1, h2, -⟩ := read_steps_violated n
  exact ⟨begins (n + 1), by rw [h1]; omega⟩

/-- **C84 (partial).** It cannot be worse than that: for every text the number of steps is at most cubic in its length,
times two for each place at which `BEGIN:` stands, in any case. So a text with few components is read quickly,
whatever else is in it. -/
theorem read_steps_any_partial (s : Str) :
    readSteps (unfold s) ≤ 150 * (s.length + 1) ^ 3 * 2 ^ opensCount (unfold s) := by
  refine Nat.le_trans (MP.steps_components_any (unfold s)) (Nat.mul_le_mul_right _ (Nat.mul_le_mul_left _ ?_))
  exact Nat.pow_le_pow_left (by have := unfold_length s; omega) 3

/-! ### C87 -/

/-- **C87.** Reading a well-formed component with CRLF line breaks, folded in any way, takes at most thirty steps for
each character of the text. -/
theorem read_steps_linear {s : Str} {b e name : Str} {items : List Item}
    (h : (Item.comp b e name items).Ok .crlf) (hs : unfold s = (Item.comp b e name items).text .crlf) :
    readSteps (unfold s) ≤ 30 * s.length := by
  have h1 := MP.components_cost_doc h
  have h2 := unfold_length s
  rw [← hs] at h1
  exact Nat.le_trans h1 (Nat.mul_le_mul_left _ h2)

/-- **C87.** In particular, what the library writes for a calendar is read in linear time. -/
theorem read_steps_written (c : Calendar) (hc : CalendarWritable c) (w : World) (hw : World.Ok w) (out : Str)
    (h : c.fmtWrite w = .ok out) : readSteps (unfold out) ≤ 30 * out.length :=
  read_steps_linear (calendar_item_ok hc hw) (unfold_calendar hc hw h)

/-! ### C85 -/

/-- **C85 (partial).** Reading needs at most one level of recursion more than the text has places with `BEGIN:`, in
any case. -/
theorem read_depth_partial (s : Str) : readDepth s ≤ 1 + opensCount s := MP.depth_components s

/-- **C85 (partial).** For a well-formed document, however it is folded, the number of levels is exactly the number of
levels of the document: one for each component around the innermost line, and one for that line. -/
theorem read_depth_exact_partial {br : Break} {s : Str} {b e name : Str} {items : List Item}
    (h : (Item.comp b e name items).Ok br) (hq : br = .lf → '\r' ∉ (Item.comp b e name items).text br)
    (hs : unfold s = (Item.comp b e name items).text br) :
    readDepth (unfold s) = (Item.comp b e name items).levels := by
  rw [hs]
  simp only [Item.levels]
  exact MP.components_depth_doc h hq

/-- **C85 (partial).** In particular, what the library writes for a calendar is read with two levels more than its
components are nested. -/
theorem read_depth_written_partial (c : Calendar) (hc : CalendarWritable c) (w : World) (hw : World.Ok w) (out : Str)
    (h : c.fmtWrite w = .ok out) : readDepth (unfold out) =
      if c.comps = [] ∧ c.props = [] then 1 else 2 + nestings (c.comps.map CalComp.toOther) := by
  have h1 := MP.components_depth_doc (b := c!"BEGIN:") (e := c!"END:") (calendar_item_ok hc hw) (by intro h; cases h)
  rw [unfold_calendar hc hw h]
  refine h1.trans ?_
  rw [itemsLevels_append, propItems_levels, compItems_eq, others_levels]
  cases hp : c.props with
  | nil =>
    cases hx : c.comps with
    | nil => simp
    | cons x l => simp; omega
  | cons p l =>
    cases hx : c.comps with
    | nil => simp [nestings]
    | cons x l => simp; omega

-- two levels of components: the calendar, an event, its alarm and a line of it
example : nestings [.mk c!"VEVENT" [] [] [.mk c!"VALARM" [] [] []]] = 2 ∧
    (calendarOf [.comp c!"BEGIN:" c!"end:" c!"VEVENT" [.prop c!"UID" [] c!"1"]]).levels = 3 := ⟨rfl, rfl⟩

/-- **C85 (violated).** The recursion depth has no bound: a well-formed calendar of `14 n + 30` characters needs more
than `n` levels. -/
theorem read_depth_violated (n : Nat) :
    (calendarOf (nest n)).Ok .lf ∧ ((calendarOf (nest n)).text .lf).length = 14 * n + 30 ∧
    n < readDepth (unfold ((calendarOf (nest n)).text .lf)) := by
  have hA : IsName c!"A" := by simp [IsName, NameChar, isAlnum]
  have hok : (calendarOf (nest n)).Ok .lf := by
    simp only [calendarOf, Item.Ok]
    refine ⟨rfl, rfl, by simp [IsName, NameChar, isAlnum], ?_⟩
    induction n with
    | zero => simp [nest, ItemsOk]
    | succ n ih => exact ⟨⟨rfl, rfl, hA, ih⟩, trivial⟩
  have hf : (calendarOf (nest n)).Flat := by
    simp only [calendarOf, Item.Flat]
    clear hok
    induction n with
    | zero => simp [nest, ItemsFlat]
    | succ n ih => exact ⟨ih, trivial⟩
  refine ⟨hok, ?_, ?_⟩
  · simp [calendarOf, Item.text, Break.text, nest_length]
  · rw [unfold_doc hok hf]
    exact depth_calendar_nest n

end Ical

namespace Ical

open Spec

/-- one place of a text, for `upperBegins_of` -/
def upperAt (a l b : Str) : Bool :=
  !(a == [] || a.getLast? == some '\n') || l.contains '\n' || !(l == [] || opens l || closes l) || !opens b ||
    b.take 5 == c!"BEGIN"

/-- the hypothesis of C84 can be checked -/
theorem upperBegins_of {text : Str} (h : ∀ i < text.length + 1, ∀ j < text.length + 1,
    upperAt (text.take i) ((text.drop i).take j) ((text.drop i).drop j) = true) : UpperBegins text := by
  intro a l b ht ha hl hk ho
  subst ht
  have h := h a.length (by simp; omega) l.length (by simp; omega)
  have e1 : (a ++ l ++ b).take a.length = a := by simp
  have e2 : (a ++ l ++ b).drop a.length = l ++ b := by simp
  have e3 : (l ++ b).take l.length = l := by simp
  have e4 : (l ++ b).drop l.length = b := by simp
  rw [e1, e2, e3, e4] at h
  simp only [upperAt, Bool.or_eq_true, Bool.not_eq_true', Bool.or_eq_false_iff, beq_iff_eq, beq_eq_false_iff_ne,
    List.contains_eq_mem, decide_eq_true_eq] at h
  rcases h with (((⟨h1, h2⟩ | h) | ⟨⟨h1, h2⟩, h3⟩) | h) | h
  · exact absurd ha (by simp [h1, h2])
  · exact absurd h hl
  · exact absurd hk (by simp [h1, h2, h3])
  · rw [h] at ho; cases ho
  · exact h

/-- a text that meets the hypothesis of C84, with `begin:` in a value, and the steps it takes -/
example : UpperBegins (unfold c!"BEGIN:A\nX:begin:1\nEND:A\n") ∧
    @readSteps Uni.ascii (unfold c!"BEGIN:A\nX:begin:1\nEND:A\n") = 121 :=
  ⟨upperBegins_of (by decide +kernel), by decide +kernel⟩

/-- a folded text with CRLF line breaks, nested, and the steps it takes -/
example : letI := Uni.ascii
    unfold c!"BEGIN:A\r\nX;P=\r\n \"q\";Q:1\r\n 2\r\nBEGIN:B\r\nEND:B\r\nEND:A\r\n" =
      (Item.comp c!"BEGIN:" c!"END:" c!"A" [.prop c!"X" [⟨c!"P", some (true, c!"q")⟩, ⟨c!"Q", none⟩] c!"12",
        .comp c!"BEGIN:" c!"END:" c!"B" []]).text .crlf ∧
    (Item.comp c!"BEGIN:" c!"END:" c!"A" [.prop c!"X" [⟨c!"P", some (true, c!"q")⟩, ⟨c!"Q", none⟩] c!"12",
        .comp c!"BEGIN:" c!"END:" c!"B" []]).Ok .crlf ∧
    readSteps (unfold c!"BEGIN:A\r\nX;P=\r\n \"q\";Q:1\r\n 2\r\nBEGIN:B\r\nEND:B\r\nEND:A\r\n") = 190 := by
  letI := Uni.ascii
  refine ⟨by decide +kernel, ?_, by decide +kernel⟩
  have hX : KeyOk c!"X" := ⟨by simp [IsName, NameChar, isAlnum], by decide, by decide, by decide, by decide⟩
  refine ⟨rfl, rfl, by simp [IsName, NameChar, isAlnum], ⟨hX, ?_, ?_⟩, ⟨rfl, rfl, by simp [IsName, NameChar, isAlnum],
    trivial⟩, trivial⟩
  · simp [DParam.Ok, IsName, NameChar, isAlnum]
  · show ¬ c!"\r\n" <:+: c!"12"
    decide

/-- the steps double with every line -/
example : (List.range 6).map (fun n => @readSteps Uni.ascii (begins n)) = [11, 69, 185, 425, 913, 1897] := by
  decide +kernel

/-- a text with two places `begin:` and a broken line takes few steps -/
example : opensCount (unfold c!"begin:A\nX;;\nbegin:\n") = 2 ∧
    @readSteps Uni.ascii (unfold c!"begin:A\nX;;\nbegin:\n") = 184 := by decide +kernel

/-- levels of nested calendars -/
example : (List.range 4).map (fun n => @readDepth Uni.ascii ((calendarOf (nest n)).text .lf)) = [1, 2, 3, 4] ∧
    opensCount ((calendarOf (nest 3)).text .lf) = 4 := by decide +kernel

end Ical
