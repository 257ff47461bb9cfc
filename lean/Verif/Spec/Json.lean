import Verif.Model.Json

/-!
Specification of the JSON values that stand for parsed calendars. Shared with the model: the data types.
-/

namespace Ical.Spec

open Ical

/-- Two lists of the same length, related element by element. -/
inductive Each {α β : Type} (R : α → β → Prop) : List α → List β → Prop
  | nil : Each R [] []
  | cons {a b l m} : R a b → Each R l m → Each R (a :: l) (b :: m)

/-- An object has exactly one entry for a key. -/
def Entry (l : List (Str × Json)) (k : Str) (j : Json) : Prop :=
  ∃ l₁ l₂, l = l₁ ++ (k, j) :: l₂ ∧ (∀ e ∈ l₁, e.1 ≠ k) ∧ ∀ e ∈ l₂, e.1 ≠ k

/-- An object has no entry for a key. -/
def NoEntry (l : List (Str × Json)) (k : Str) : Prop := ∀ e ∈ l, e.1 ≠ k

/-- A text, or nothing. -/
inductive OptJson : Json → Option Str → Prop
  | null : OptJson .null none
  | some (s : Str) : OptJson (.string s) (some s)

/-- `{"key": …, "val": …}` or `[key, val]`; `val` may be left out of the object -/
inductive ParamJson : Json → PParam → Prop
  | object {l k j v} : Entry l c!"key" (.string k) → Entry l c!"val" j → OptJson j v → ParamJson (.object l) ⟨k, v⟩
  | noVal {l k} : Entry l c!"key" (.string k) → NoEntry l c!"val" → ParamJson (.object l) ⟨k, none⟩
  | array {k j v} : OptJson j v → ParamJson (.array [.string k, j]) ⟨k, v⟩

/-- `{"name": …, "val": …, "params": […]}` or the array of the three -/
inductive PropJson : Json → PProp → Prop
  | object {l n v js ps} : Entry l c!"name" (.string n) → Entry l c!"val" (.string v) → Entry l c!"params" (.array js) →
      Each ParamJson js ps → PropJson (.object l) ⟨n, v, ps⟩
  | array {n v js ps} : Each ParamJson js ps → PropJson (.array [.string n, .string v, .array js]) ⟨n, v, ps⟩

mutual
/-- `{"name": …, "properties": […], "components": […]}` or the array of the three -/
inductive CompJson : Json → PComp → Prop
  | object {l n js ps ks cs} : Entry l c!"name" (.string n) → Entry l c!"properties" (.array js) → Each PropJson js ps →
      Entry l c!"components" (.array ks) → CompsJson ks cs → CompJson (.object l) (.mk n ps cs)
  | array {n js ps ks cs} : Each PropJson js ps → CompsJson ks cs →
      CompJson (.array [.string n, .array js, .array ks]) (.mk n ps cs)
/-- components, one by one -/
inductive CompsJson : List Json → List PComp → Prop
  | nil : CompsJson [] []
  | cons {j c js cs} : CompJson j c → CompsJson js cs → CompsJson (j :: js) (c :: cs)
end

/-- `{"properties": […], "components": […]}` or the array of the two -/
inductive CalJson : Json → PCal → Prop
  | object {l js ps ks cs} : Entry l c!"properties" (.array js) → Each PropJson js ps →
      Entry l c!"components" (.array ks) → CompsJson ks cs → CalJson (.object l) ⟨ps, cs⟩
  | array {js ps ks cs} : Each PropJson js ps → CompsJson ks cs → CalJson (.array [.array js, .array ks]) ⟨ps, cs⟩

end Ical.Spec
