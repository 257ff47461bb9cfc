import Verif.Model.Sink

/-!
What a caller's writer sees.
-/

namespace Ical.Spec

/-- Offering pieces to a writer one after the other until one is refused: the pieces, the states before and after, and
whether all were taken. -/
inductive Offered {σ : Type} (k : Sink σ) : List Str → σ → σ → Bool → Prop
  | done (s : σ) : Offered k [] s s true
  | next {c : Str} {cs : List Str} {s s' s'' : σ} {b : Bool} : k.writeStr s c = (s', true) → Offered k cs s' s'' b →
      Offered k (c :: cs) s s'' b
  | stop {c : Str} {cs : List Str} {s s' : σ} : k.writeStr s c = (s', false) → Offered k (c :: cs) s s' false

/-- A text of complete lines. -/
def WholeLines (t : Str) : Prop := t = [] ∨ ∃ u, t = u ++ ['\r', '\n']

/-- Code that writes a text piece by piece: the pieces do not depend on the writer, they are offered in turn until one is
refused, a refusal is passed on, and together they are the text. Code that crashes has offered complete lines before. -/
def Streams (f : (σ : Type) → Sink σ → Writing σ) (r : Except Crash Str) : Prop :=
  ∃ pieces : List Str, WholeLines pieces.flatten ∧ (∀ t, r = .ok t → pieces.flatten = t) ∧
    ∀ (σ : Type) (k : Sink σ) (s s' : σ) (b : Bool), Offered k pieces s s' b →
      f σ k s = (s', if b then (match r with | .ok _ => .ok | .error e => .crashed e) else .refused)

/-- A writer that keeps what it takes: `got` is what it holds. Of a refused piece it may have kept a beginning. -/
structure Keeps {σ : Type} (k : Sink σ) (got : σ → Str) : Prop where
  taken : ∀ s t s', k.writeStr s t = (s', true) → got s' = got s ++ t
  cut : ∀ s t s', k.writeStr s t = (s', false) → ∃ u, u <+: t ∧ got s' = got s ++ u

/-- A buffer that has room for `n` octets and refuses what does not fit. -/
def buffer (n : Nat) : Sink Str where
  writeStr s t := if blen (s ++ t) ≤ n then (s ++ t, true) else (s, false)

/-- A `String`. -/
def string : Sink Str where
  writeStr s t := (s ++ t, true)

end Ical.Spec
