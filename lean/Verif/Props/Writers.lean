import Verif.Proofs.Writers
import Verif.Proofs.Bytes

/-!
C109: writing into a caller's writer.
-/

namespace Ical
open Spec

/-- **C109**. Calendars, components, and parsed calendars, components and properties are written piece by piece: whatever
the writer, it is offered the same pieces in the same order until it refuses one, the refusal is passed on to the caller,
and the pieces together are the text that `to_string` gives. Where folding crashes, complete lines were offered before. -/
theorem written_piecewise [Uni] (w : World) :
    (∀ c : Calendar, Streams (fun _ k => c.writeTo k w) (c.fmtWrite w)) ∧
    (∀ c : CalComp, Streams (fun _ k => c.writeTo k w) (c.fmtWrite w)) ∧
    (∀ c : PCal, Streams (fun _ k => c.writeTo k w) (c.fmtWrite w)) ∧
    (∀ c : PComp, Streams (fun _ k => c.writeTo k w) (c.fmtWrite w)) ∧
    (∀ p : PProp, Streams (fun _ k => p.writeTo k) p.fmtWrite) :=
  ⟨fun c => streams_calendar c w, fun c => streams_calComp c w, fun c => streams_pcal c w, fun c => streams_pcomp c w,
    streams_pprop⟩

theorem offered_keeps {σ : Type} {k : Sink σ} {got : σ → Str} (hk : Keeps k got) {cs : List Str} {s s' : σ} {b : Bool}
    (h : Offered k cs s s' b) :
    ∃ u, u <+: cs.flatten ∧ got s' = got s ++ u ∧ (b = true → u = cs.flatten) := by
  induction h with
  | done s => exact ⟨[], List.nil_prefix, by simp, fun _ => rfl⟩
  | @next c cs s s' s'' b hw _ ih =>
    obtain ⟨u, hu, hg, hb⟩ := ih
    refine ⟨c ++ u, ?_, ?_, ?_⟩
    · obtain ⟨v, hv⟩ := hu
      exact ⟨v, by simp [← hv]⟩
    · rw [hg, hk.taken _ _ _ hw, List.append_assoc]
    · intro h; rw [hb h]; rfl
  | @stop c cs s s' hw =>
    obtain ⟨u, hu, hg⟩ := hk.cut _ _ _ hw
    exact ⟨u, hu.trans ⟨cs.flatten, rfl⟩, hg, nofun⟩

/-- **C109**. What a writer holds afterwards is what it held before and a beginning of the text; the whole text exactly if
writing reports success; and otherwise writing reports the writer's refusal. -/
theorem writer_gets_prefix {f : (σ : Type) → Sink σ → Writing σ} {t : Str} (hf : Streams f (.ok t))
    {σ : Type} {k : Sink σ} {got : σ → Str} (hk : Keeps k got) (s : σ) :
    ∃ u, u <+: t ∧ got (f σ k s).1 = got s ++ u ∧ ((f σ k s).2 = .ok ∧ u = t ∨ (f σ k s).2 = .refused) := by
  obtain ⟨cs, _, ht, hr⟩ := hf
  obtain ⟨s', b, ho⟩ := offered_total k cs s
  obtain ⟨u, hu, hg, hb⟩ := offered_keeps hk ho
  rw [ht t rfl] at hu hb
  refine ⟨u, hu, ?_, ?_⟩
  · rw [hr σ k s s' b ho]; exact hg
  · rw [hr σ k s s' b ho]
    cases b
    · exact .inr rfl
    · exact .inl ⟨rfl, hb rfl⟩

/-- **C109**. Where folding crashes, the writer refuses a piece before or holds complete lines. -/
theorem writer_crash_lines {f : (σ : Type) → Sink σ → Writing σ} {e : Crash} (hf : Streams f (.error e))
    {σ : Type} {k : Sink σ} {got : σ → Str} (hk : Keeps k got) (s : σ) :
    ∃ u, got (f σ k s).1 = got s ++ u ∧ ((f σ k s).2 = .crashed e ∧ WholeLines u ∨ (f σ k s).2 = .refused) := by
  obtain ⟨cs, wl, _, hr⟩ := hf
  obtain ⟨s', b, ho⟩ := offered_total k cs s
  obtain ⟨u, hu, hg, hb⟩ := offered_keeps hk ho
  refine ⟨u, ?_, ?_⟩
  · rw [hr σ k s s' b ho]; exact hg
  · rw [hr σ k s s' b ho]
    cases b
    · exact .inr rfl
    · exact .inl ⟨rfl, by rw [hb rfl]; exact wl⟩

theorem offered_string {cs : List Str} : ∀ {s : Str}, Offered string cs s (s ++ cs.flatten) true := by
  induction cs with
  | nil => intro s; simpa using Offered.done s
  | cons c cs ih =>
    intro s
    have := @ih (s ++ c)
    exact .next rfl (by simpa using this)

/-- **C109**. A writer that refuses nothing is given the whole text: writing into a `String` is `to_string`. -/
theorem writer_string {f : (σ : Type) → Sink σ → Writing σ} {t : Str} (hf : Streams f (.ok t)) (s : Str) :
    f Str string s = (s ++ t, .ok) := by
  obtain ⟨cs, _, ht, hr⟩ := hf
  rw [hr Str string s (s ++ cs.flatten) true offered_string, ht t rfl]
  rfl

theorem blen_append_le (a b : Str) : blen a ≤ blen (a ++ b) := by
  rw [blen_append]; exact Nat.le_add_right _ _

theorem offered_buffer {n : Nat} {cs : List Str} {s s' : Str} {b : Bool} (h : Offered (buffer n) cs s s' b) :
    blen s ≤ n → (b = true ↔ blen (s ++ cs.flatten) ≤ n) := by
  induction h with
  | done s => intro hs; simpa using hs
  | @next c cs s s' s'' b hw _ ih =>
    intro hs
    simp only [buffer] at hw
    split at hw
    · cases hw
      rw [ih ‹_›]; simp
    · cases hw
  | @stop c cs s s' hw =>
    intro hs
    simp only [buffer] at hw
    split at hw
    · cases hw
    · rename_i hn
      simp only [Bool.false_eq_true, false_iff]
      intro h
      refine hn (Nat.le_trans ?_ h)
      have := blen_append_le (s ++ c) cs.flatten
      simpa using this

/-- **C109**. Writing into a buffer of fixed size succeeds exactly if the text fits into what is left of it. -/
theorem writer_buffer_iff {f : (σ : Type) → Sink σ → Writing σ} {t : Str} (hf : Streams f (.ok t)) (n : Nat) (s : Str)
    (hs : blen s ≤ n) : (f Str (buffer n) s).2 = .ok ↔ blen (s ++ t) ≤ n := by
  obtain ⟨cs, _, ht, hr⟩ := hf
  obtain ⟨s', b, ho⟩ := offered_total (buffer n) cs s
  rw [← ht t rfl, ← offered_buffer ho hs, hr _ _ s s' b ho]
  cases b <;> simp

/-- A fixed-size buffer keeps what it takes. -/
theorem buffer_keeps (n : Nat) : Keeps (buffer n) id where
  taken s t s' h := by
    simp only [buffer] at h
    split at h <;> cases h
    rfl
  cut s t s' h := by
    simp only [buffer] at h
    split at h <;> cases h
    exact ⟨[], List.nil_prefix, by simp⟩

/-- **C109** for calendars: `write!(out, "{calendar}")` with any writer. -/
theorem calendar_writer [Uni] {c : Calendar} {w : World} {t : Str} (h : c.fmtWrite w = .ok t) {σ : Type} {k : Sink σ}
    {got : σ → Str} (hk : Keeps k got) (s : σ) :
    ∃ u, u <+: t ∧ got (c.writeTo k w s).1 = got s ++ u ∧
      ((c.writeTo k w s).2 = .ok ∧ u = t ∨ (c.writeTo k w s).2 = .refused) :=
  writer_gets_prefix (f := fun _ k => c.writeTo k w) (h ▸ streams_calendar c w) hk s

/-! ### Examples -/

private def w1 : World := ⟨fun _ => ⟨⟨⟨2026, 1, 1⟩, 0, 0, 0, 0⟩⟩, fun _ => c!"0-f", fun _ l => l⟩

private def c1 : Calendar := ⟨[⟨c!"NAME", c!"a;b", []⟩], [.todo ⟨⟨[], [], []⟩⟩]⟩

private def t1 : Str :=
  c!"BEGIN:VCALENDAR\r\nNAME:a;b\r\nBEGIN:VTODO\r\nDTSTAMP:20260101T000000Z\r\nUID:0-f\r\nEND:VTODO\r\nEND:VCALENDAR\r\n"

example : @Calendar.fmtWrite Uni.ascii c1 w1 = .ok t1 := by decide +kernel
example : @Calendar.writeTo Str string Uni.ascii c1 w1 c!"> " = (c!"> " ++ t1, .ok) := by decide +kernel
example : blen t1 = 101 := by decide +kernel
example : @Calendar.writeTo Str (buffer 101) Uni.ascii c1 w1 [] = (t1, .ok) := by decide +kernel
/- the last piece no longer fits -/
example : @Calendar.writeTo Str (buffer 100) Uni.ascii c1 w1 [] = (t1.take 86, .refused) := by decide +kernel
example : @Calendar.writeTo Str (buffer 45) Uni.ascii c1 w1 [] =
    (c!"BEGIN:VCALENDAR\r\nNAME:a;b\r\nBEGIN:VTODO\r\n", .refused) := by decide +kernel

/- a calendar on which folding panics: the lines before it arrive, and a full buffer comes first -/
private def c2 : Calendar :=
  ⟨[⟨c!"NAME", c!"ab", []⟩, ⟨c!"SUMMARY", List.replicate 22 'a' ++ List.replicate 120 (Char.ofNat 0xA0), []⟩], []⟩

example : @Calendar.fmtWrite Uni.ascii c2 w1 = .error .panic := by decide +kernel
example : @Calendar.writeTo Str string Uni.ascii c2 w1 [] = (c!"BEGIN:VCALENDAR\r\nNAME:ab\r\n", .crashed .panic) := by
  decide +kernel
example : @Calendar.writeTo Str (buffer 20) Uni.ascii c2 w1 [] = (c!"BEGIN:VCALENDAR\r\n", .refused) := by
  decide +kernel

end Ical
