import Verif.Py.Basic

/-!
# Specification: W3C date-times (RFC 3339)
-/

namespace Ocfl.Spec

/-- A date and a time of day of the Gregorian calendar. -/
structure DateTime where
  year : Nat
  month : Nat
  day : Nat
  hour : Nat
  minute : Nat
  second : Nat

/-- Leap years: divisible by 4, not by 100 unless by 400. -/
def Leap (y : Nat) : Prop := 4 ∣ y ∧ (100 ∣ y → 400 ∣ y)

/-- Length of a month. -/
def MonthLength (y m n : Nat) : Prop :=
  (m ∈ [1, 3, 5, 7, 8, 10, 12] ∧ n = 31) ∨ (m ∈ [4, 6, 9, 11] ∧ n = 30) ∨
  (m = 2 ∧ ((Leap y ∧ n = 29) ∨ (¬ Leap y ∧ n = 28)))

/-- The date exists, the time is one of a day, the year has four digits. -/
def DateTime.Valid (x : DateTime) : Prop :=
  1 ≤ x.year ∧ x.year ≤ 9999 ∧ 1 ≤ x.day ∧ (∃ n, MonthLength x.year x.month n ∧ x.day ≤ n) ∧
  x.hour ≤ 23 ∧ x.minute ≤ 59 ∧ x.second ≤ 59

/-- `(y, m, d)` is followed by `(y', m', d')`. -/
inductive NextDay : Nat × Nat × Nat → Nat × Nat × Nat → Prop
  | day {y m d n} : MonthLength y m n → 1 ≤ d → d < n → NextDay (y, m, d) (y, m, d + 1)
  | month {y m n} : MonthLength y m n → m < 12 → NextDay (y, m, n) (y, m + 1, 1)
  | year {y} : NextDay (y, 12, 31) (y + 1, 1, 1)

/-- `k` days pass from the first date to the second. -/
inductive DaysAfter : Nat → Nat × Nat × Nat → Nat × Nat × Nat → Prop
  | zero {a} : DaysAfter 0 a a
  | succ {k a b c} : DaysAfter k a b → NextDay b c → DaysAfter (k + 1) a c

/-- Seconds from 1970-01-01T00:00:00Z to `x` (in UTC, without leap seconds) are `t`. -/
def UnixTime (x : DateTime) (t : Int) : Prop :=
  (∃ k, DaysAfter k (1970, 1, 1) (x.year, x.month, x.day) ∧
    t = k * 86400 + x.hour * 3600 + x.minute * 60 + x.second) ∨
  (∃ k, DaysAfter k (x.year, x.month, x.day) (1970, 1, 1) ∧
    t = -(k * 86400 : Int) + x.hour * 3600 + x.minute * 60 + x.second)

/-- Two decimal digits. -/
def two (n : Nat) : Str := [(n / 10).digitChar, (n % 10).digitChar]

/-- Four decimal digits. -/
def four (n : Nat) : Str :=
  [(n / 1000).digitChar, (n / 100 % 10).digitChar, (n / 10 % 10).digitChar, (n % 10).digitChar]

/-- The clock reading `YYYY-MM-DDThh:mm:ss`. -/
def clock (x : DateTime) : Str :=
  four x.year ++ c!"-" ++ two x.month ++ c!"-" ++ two x.day ++ c!"T" ++
    two x.hour ++ c!":" ++ two x.minute ++ c!":" ++ two x.second

/-- A fraction of a second: nothing, or a period and at least one digit. -/
def fraction (ds : Str) : Str := if ds = [] then [] else '.' :: ds

/-- A time zone: `Z` or a numeric offset `+hh:mm` / `-hh:mm`. -/
inductive Zone
  | utc
  | offset (negative : Bool) (hh mm : Nat)
  deriving DecidableEq, Repr

/-- A zone in the string. -/
def Zone.text : Zone → Str
  | .utc => c!"Z"
  | .offset neg hh mm => (if neg then c!"-" else c!"+") ++ two hh ++ c!":" ++ two mm

/-- Valid offsets. -/
def Zone.Valid : Zone → Prop
  | .utc => True
  | .offset _ hh mm => hh ≤ 23 ∧ mm ≤ 59

/-- What has to be added to the Unix time of the clock reading taken as UTC, by RFC 3339: local time
is ahead of UTC for `+`, so the instant is earlier. -/
def Zone.correction : Zone → Int
  | .utc => 0
  | .offset neg hh mm => if neg then hh * 3600 + mm * 60 else -(hh * 3600 + mm * 60 : Int)

end Ocfl.Spec
