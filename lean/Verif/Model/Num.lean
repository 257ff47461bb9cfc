import Verif.Model.Basic

/-!
Decimal printing and parsing of unsigned integers, as done by Rust's `to_string` and `str::parse`.
-/

namespace Ical

/-- Rust `u32::to_string` / `u8::to_string`. -/
def natToStr (n : Nat) : Str := Nat.toDigits 10 n

/-- The value of an ASCII digit. -/
def digitVal (c : Char) : Option Nat :=
  if 0x30 ≤ c.toNat && c.toNat ≤ 0x39 then some (c.toNat - 0x30) else none

/-- Accumulate decimal digits; `none` on a non-digit. -/
def digitsVal : Nat → Str → Option Nat
  | acc, [] => some acc
  | acc, c :: s =>
    match digitVal c with
    | some d => digitsVal (acc * 10 + d) s
    | none => none

/-- Rust `str::parse::<uN>()` with `max = uN::MAX`: an optional `+`, then at least one digit, all digits,
value at most `max` (`None` is the `Err`). -/
def parseUnsigned (max : Nat) (s : Str) : Option Nat :=
  let body := match s with
    | '+' :: t => t
    | t => t
  match body with
  | [] => none
  | _ =>
    match digitsVal 0 body with
    | some n => if n ≤ max then some n else none
    | none => none

/-- `u32::MAX` -/
def u32Max : Nat := 4294967295

/-- `u8::MAX` -/
def u8Max : Nat := 255

end Ical
