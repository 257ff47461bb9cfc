import Verif.Model.Num

/-!
The parts of chrono 0.4 (and of iso8601 0.6) the crate relies on: calendar dates and times,
`format`/`parse_from_str` for the three formats of /repo/src/components/date_time.rs:7-9, durations.
Transcribed from the library's documented behaviour, not from `/repo`.
-/

namespace Ical

/-- Gregorian leap year. -/
def isLeap (y : Int) : Bool := (y % 4 == 0 && y % 100 != 0) || y % 400 == 0

/-- Days in a month. -/
def daysInMonth (y : Int) (m : Nat) : Nat :=
  match m with
  | 1 => 31 | 2 => if isLeap y then 29 else 28 | 3 => 31 | 4 => 30 | 5 => 31 | 6 => 30
  | 7 => 31 | 8 => 31 | 9 => 30 | 10 => 31 | 11 => 30 | 12 => 31
  | _ => 0

/-- `chrono::NaiveDate`, by year, month and day. -/
structure NaiveDate where
  year : Int
  month : Nat
  day : Nat
  deriving DecidableEq, Repr

/-- The dates chrono can represent: `NaiveDate::MIN ..= NaiveDate::MAX`. -/
def NaiveDate.Valid (d : NaiveDate) : Prop :=
  -262143 ≤ d.year ∧ d.year ≤ 262142 ∧ 1 ≤ d.month ∧ d.month ≤ 12 ∧ 1 ≤ d.day ∧
    d.day ≤ daysInMonth d.year d.month

instance (d : NaiveDate) : Decidable d.Valid := by unfold NaiveDate.Valid; infer_instance

/-- `NaiveDate::from_ymd_opt`. -/
def fromYmd (y : Int) (m d : Nat) : Option NaiveDate :=
  if (⟨y, m, d⟩ : NaiveDate).Valid then some ⟨y, m, d⟩ else none

/-- `chrono::NaiveDateTime`; `nano` up to `1_999_999_999`, values from `1_000_000_000` on mark a leap
second and occur only with `sec = 59`. -/
structure NaiveDateTime where
  date : NaiveDate
  hour : Nat
  min : Nat
  sec : Nat
  nano : Nat
  deriving DecidableEq, Repr

/-- The date-times chrono can represent (leap seconds as produced by its constructors). -/
def NaiveDateTime.Valid (t : NaiveDateTime) : Prop :=
  t.date.Valid ∧ t.hour < 24 ∧ t.min < 60 ∧ t.sec < 60 ∧
    (t.nano < 1000000000 ∨ (t.sec = 59 ∧ t.nano < 2000000000))

instance (t : NaiveDateTime) : Decidable t.Valid := by unfold NaiveDateTime.Valid; infer_instance

/-- `chrono::DateTime<Utc>`: its UTC date-time. -/
structure UtcDateTime where
  naive : NaiveDateTime
  deriving DecidableEq, Repr

/-- Two decimal digits: `%m`, `%d`, `%H`, `%M`, `%S` with zero padding. -/
def fmt2 (n : Nat) : Str :=
  if n < 10 then '0' :: natToStr n else natToStr n

/-- Decimal digits padded with zeros to at least four. -/
def fmt4 (n : Nat) : Str := List.replicate (4 - (natToStr n).length) '0' ++ natToStr n

/-- `%Y`: four digits for 0..=9999, otherwise with an explicit sign (`{:+05}`). -/
def fmtYear (y : Int) : Str :=
  if 0 ≤ y ∧ y ≤ 9999 then fmt4 y.toNat
  else if 0 ≤ y then '+' :: fmt4 y.toNat
  else '-' :: fmt4 (-y).toNat

/-- `date.format("%Y%m%d")`. -/
def fmtDate (d : NaiveDate) : Str := fmtYear d.year ++ fmt2 d.month ++ fmt2 d.day

/-- `%S`: a leap second prints as 60. -/
def fmtSec (t : NaiveDateTime) : Str := fmt2 (t.sec + t.nano / 1000000000)

/-- `dt.format("%Y%m%dT%H%M%S")`. -/
def fmtDateTime (t : NaiveDateTime) : Str :=
  fmtDate t.date ++ 'T' :: (fmt2 t.hour ++ fmt2 t.min ++ fmtSec t)

/-- `dt.format("%Y%m%dT%H%M%SZ")`. -/
def fmtUtc (t : UtcDateTime) : Str := fmtDateTime t.naive ++ ['Z']

/-- `scan::number(s, 1, max)`: between one and `max` digits; overflow of `i64` is an error. -/
def scanNumberGo : Nat → Nat → Str → Option (Nat × Str)
  | 0, acc, s => some (acc, s)
  | _ + 1, acc, [] => some (acc, [])
  | n + 1, acc, c :: s =>
    match digitVal c with
    | some d =>
      if acc * 10 + d ≤ 9223372036854775807 then scanNumberGo n (acc * 10 + d) s else none
    | none => some (acc, c :: s)

/-- `scan::number(s, 1, max)`. -/
def scanNumber (max : Nat) (s : Str) : Option (Nat × Str) :=
  match s with
  | [] => none
  | c :: _ => if (digitVal c).isSome then scanNumberGo max 0 s else none

/-- `str::trim_start`. -/
def trimStart (s : Str) : Str := s.dropWhile isWhitespace

/-- A numeric item other than the year: leading white space is skipped, at most two digits. -/
def scan2 (s : Str) : Option (Nat × Str) := scanNumber 2 (trimStart s)

/-- The `%Y` item: optional sign (then any number of digits), otherwise at most four digits. -/
def scanYear (s : Str) : Option (Int × Str) :=
  let t := trimStart s
  match t with
  | '-' :: r => (scanNumber (r.length) r).map (fun x => (-(x.1 : Int), x.2))
  | '+' :: r => (scanNumber (r.length) r).map (fun x => ((x.1 : Int), x.2))
  | _ => (scanNumber 4 t).map (fun x => ((x.1 : Int), x.2))

/-- A literal character of the format. -/
def scanLit (c : Char) : Str → Option Str
  | x :: s => if x = c then some s else none
  | [] => none

/-- `%Y%m%d`, returning the rest. -/
def scanDate (s : Str) : Option (NaiveDate × Str) := do
  let (y, s) ← scanYear s
  let (m, s) ← scan2 s
  let (d, s) ← scan2 s
  let date ← fromYmd y m d
  return (date, s)

/-- `%H%M%S`, returning the rest. `%S` accepts 60, read as second 59 with a whole extra second of
nanoseconds. -/
def scanTime (date : NaiveDate) (s : Str) : Option (NaiveDateTime × Str) := do
  let (h, s) ← scan2 s
  let (m, s) ← scan2 s
  let (sec, s) ← scan2 s
  if h < 24 ∧ m < 60 ∧ sec ≤ 60 then
    if sec = 60 then return (⟨date, h, m, 59, 1000000000⟩, s)
    else return (⟨date, h, m, sec, 0⟩, s)
  else none

/-- `NaiveDate::parse_from_str(s, "%Y%m%d").ok()`. -/
def parseDate (s : Str) : Option NaiveDate := do
  let (d, s) ← scanDate s
  if s.isEmpty then return d else none

/-- `NaiveDateTime::parse_from_str(s, "%Y%m%dT%H%M%S").ok()`; also `parse_naive_date_time`,
/repo/src/components/date_time.rs:16-18. -/
def parseDateTime (s : Str) : Option NaiveDateTime := do
  let (d, s) ← scanDate s
  let s ← scanLit 'T' s
  let (t, s) ← scanTime d s
  if s.isEmpty then return t else none

/-- `Utc.datetime_from_str(s, "%Y%m%dT%H%M%SZ").ok()`; `parse_utc_date_time`,
/repo/src/components/date_time.rs:12-14. -/
def parseUtc (s : Str) : Option UtcDateTime := do
  let (d, s) ← scanDate s
  let s ← scanLit 'T' s
  let (t, s) ← scanTime d s
  let s ← scanLit 'Z' s
  if s.isEmpty then return ⟨t⟩ else none

/-- `chrono::Duration`, in nanoseconds. -/
structure Duration where
  nanos : Int
  deriving DecidableEq, Repr

/-- `-duration`. -/
def Duration.neg (d : Duration) : Duration := ⟨-d.nanos⟩

/-- Remove trailing zeros of a nine-digit fraction, by count of figures. -/
def fracDigits : Nat → Nat → Str
  | 0, _ => []
  | fig + 1, n => if n % 10 = 0 then fracDigits fig (n / 10)
                  else List.replicate (fig + 1 - (natToStr n).length) '0' ++ natToStr n

/-- `Display` of `chrono::Duration`: `P0D`, or `[-]PT<seconds>[.<fraction>]S`. -/
def Duration.toStr (d : Duration) : Str :=
  let a := d.nanos.natAbs
  let sign : Str := if d.nanos < 0 then ['-'] else []
  if a = 0 then sign ++ c!"P0D"
  else
    let secs := a / 1000000000
    let frac := a % 1000000000
    sign ++ c!"PT" ++ natToStr secs ++ (if frac = 0 then [] else '.' :: fracDigits 9 frac) ++ ['S']

/-- What is assumed of the crate iso8601: `read` is `iso8601::duration(s).ok()`, `conv` the conversion to
`std::time::Duration` followed by `chrono::Duration::from_std(..).ok()`. Whole seconds below 2^32 and the
empty duration are read correctly, and a leading minus sign is rejected. Everything else is left open. -/
class Iso8601 where
  Dur : Type
  read : Str → Option Dur
  conv : Dur → Option Duration
  parse_zero : (read c!"P0D").bind conv = some ⟨0⟩
  parse_secs : ∀ n, n < 4294967296 → (read (c!"PT" ++ natToStr n ++ ['S'])).bind conv = some ⟨n * 1000000000⟩
  parse_neg : ∀ s, read ('-' :: s) = none

/-- `parse_duration`: /repo/src/components/date_time.rs:24-28. -/
def Iso8601.parse [Iso8601] (s : Str) : Option Duration := (Iso8601.read s).bind Iso8601.conv

end Ical
