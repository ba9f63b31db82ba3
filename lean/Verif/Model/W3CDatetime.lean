import Verif.Py.Basic

/-!
# Model of `ocfl/w3c_datetime.py`

The calendar functions of Python's `datetime` and `calendar` modules are modelled after the pure
Python versions in the standard library. A time stamp is a whole number of seconds and the digits
of a decimal fraction.
-/

namespace Ocfl

/-! ## Standard library: calendar arithmetic -/

/-- `calendar.isleap(year)` -/
def isLeap (y : Nat) : Bool := y % 4 = 0 && (y % 100 ≠ 0 || y % 400 = 0)

/-- `datetime._days_in_month(year, month)` -/
def daysInMonth (y m : Nat) : Nat :=
  if m = 2 then (if isLeap y then 29 else 28)
  else if m = 4 ∨ m = 6 ∨ m = 9 ∨ m = 11 then 30 else 31

/-- `datetime._DAYS_BEFORE_MONTH[month]` -/
def daysBeforeMonthTable : Nat → Nat
  | 1 => 0 | 2 => 31 | 3 => 59 | 4 => 90 | 5 => 120 | 6 => 151 | 7 => 181 | 8 => 212 | 9 => 243
  | 10 => 273 | 11 => 304 | 12 => 334 | _ => 0

/-- `datetime._days_before_month(year, month)` -/
def daysBeforeMonth (y m : Nat) : Nat :=
  daysBeforeMonthTable m + (if m > 2 ∧ isLeap y then 1 else 0)

/-- `datetime._days_before_year(year)` -/
def daysBeforeYear (y : Nat) : Nat := (y - 1) * 365 + (y - 1) / 4 - (y - 1) / 100 + (y - 1) / 400

/-- `date.toordinal()`: day 1 is January 1 of year 1. -/
def toOrdinal (y m d : Nat) : Nat := daysBeforeYear y + daysBeforeMonth y m + d

/-- `datetime._ord2ymd(n)` for `n >= 1`. -/
def ord2ymd (n : Nat) : Nat × Nat × Nat :=
  let n := n - 1
  let n400 := n / 146097
  let n := n % 146097
  let n100 := n / 36524
  let n := n % 36524
  let n4 := n / 1461
  let n := n % 1461
  let n1 := n / 365
  let n := n % 365
  let year := n400 * 400 + 1 + n100 * 100 + n4 * 4 + n1
  if n1 = 4 ∨ n100 = 4 then (year - 1, 12, 31)
  else
    let leap : Bool := n1 = 3 && (n4 ≠ 24 || n100 = 3)
    let month := (n + 50) / 32
    let preceding := daysBeforeMonthTable month + (if month > 2 ∧ leap then 1 else 0)
    if preceding > n then
      let month := month - 1
      let dim := (if month = 2 then 28 else if month = 4 ∨ month = 6 ∨ month = 9 ∨ month = 11 then 30 else 31) +
        (if month = 2 ∧ leap then 1 else 0)
      (year, month, n - (preceding - dim) + 1)
    else (year, month, n - preceding + 1)

/-- Days from year 1 to 1970-01-01. -/
def epochOrdinal : Nat := 719163

/-- `calendar.timegm` of a UTC date and time. -/
def timegm (y mo d h mi s : Nat) : Int :=
  ((toOrdinal y mo d : Int) - epochOrdinal) * 86400 + h * 3600 + mi * 60 + s

/-! ## `datetime_to_str` -/

/-- `datetime_to_str(dt, no_fractions=True)`, `ocfl/w3c_datetime.py` lines 15-36, for a whole
number of seconds `t`. (Without `no_fractions` the code adds 0.1 microseconds, which rounding to
microseconds removes again.) Raises `ValueError` outside of the years 1 to 9999. -/
def datetimeToStr (t : Int) : Py Str :=
  let days := t / 86400 + epochOrdinal
  let secs := (t % 86400).toNat
  if days < 1 ∨ 3652059 < days then .error .valueError
  else
    let (y, mo, d) := ord2ymd days.toNat
    .ok (padStr 4 y ++ c!"-" ++ padStr 2 mo ++ c!"-" ++ padStr 2 d ++ c!"T" ++
      padStr 2 (secs / 3600) ++ c!":" ++ padStr 2 (secs / 60 % 60) ++ c!":" ++ padStr 2 (secs % 60) ++ c!"Z")

/-! ## `str_to_datetime` -/

/-- The value of exactly `n` leading digits (`\d{n}`), and the rest. -/
def takeDigits (n : Nat) (s : Str) : Option (Nat × Str) :=
  if (s.take n).length = n ∧ (s.take n).all isDigit then some (intOf (s.take n), s.drop n) else none

/-- One literal character. -/
def takeChar (c : Char) : Str → Option Str
  | [] => none
  | d :: s => if d = c then some s else none

/-- `\d\d\d\d(\-\d\d(\-\d\d)?)?$` and the completion to a full date and time,
`ocfl/w3c_datetime.py` lines 79-86. The completion is appended after a trailing newline if there
is one. -/
def completeDate (s : Str) : Str :=
  match takeDigits 4 s with
  | none => s
  | some (_, r) =>
    match (takeChar '-' r).bind (takeDigits 2) with
    | none => if atDollar r then s ++ c!"-01-01" ++ c!"T00:00:00Z" else s
    | some (_, r2) =>
      match (takeChar '-' r2).bind (takeDigits 2) with
      | none => if atDollar r2 then s ++ c!"-01" ++ c!"T00:00:00Z" else s
      | some (_, r3) => if atDollar r3 then s ++ c!"T00:00:00Z" else s

/-- `(\d{2}:\d{2}:\d{2})(\.\d+)([^\d].*)?$` at the beginning of `s`: the time, the digits of the
fraction, and group 3 (empty if it did not take part). -/
def fracHere (s : Str) : Option (Str × Str × Str) :=
  match ((((takeDigits 2 s).bind (fun p => takeChar ':' p.2)).bind (takeDigits 2)).bind
      (fun p => takeChar ':' p.2)).bind (takeDigits 2) with
  | none => none
  | some (_, r) =>
    match takeChar '.' r with
    | none => none
    | some r =>
      let ds := r.takeWhile isDigit
      let rest := r.dropWhile isDigit
      if ds = [] then none
      else
        match rest with
        | [] => some (s.take 8, ds, [])
        | c :: t => if matchAny' t then some (s.take 8, ds, c :: t.takeWhile (· ≠ '\n')) else none
where
  /-- `.*$` -/
  matchAny' (t : Str) : Bool := atDollar (t.dropWhile (· ≠ '\n'))

/-- `re.match(r"(.*\d{2}:\d{2}:\d{2})(\.\d+)([^\d].*)?$", s)`, `ocfl/w3c_datetime.py` line 88: the
first group is greedy, so the last possible place is taken. -/
def fracSearch (s : Str) : Option (Str × Str × Str) :=
  match s with
  | [] => none
  | c :: s' =>
    match (if c = '\n' then none else fracSearch s') with
    | some (g1, ds, g3) => some (c :: g1, ds, g3)
    | none => fracHere s

/-- The string without the fraction, and the digits of the fraction, `ocfl/w3c_datetime.py` lines
89-95. -/
def splitFraction (s : Str) : Str × Str :=
  match fracSearch s with
  | none => (s, [])
  | some (g1, ds, g3) => (g1 ++ g3, ds)

/-- The `(:\d\d)?` of the next pattern: seconds and rest. -/
def takeSeconds (r : Str) : Nat × Str :=
  match (takeChar ':' r).bind (takeDigits 2) with
  | some p => p
  | none => (0, r)

/-- `(Z|([+-])(\d\d):(\d\d))?$`: sign (`none` without a numeric offset), hours, minutes. -/
def matchZone (r : Str) : Option (Option Char × Nat × Nat) :=
  if atDollar r then some (none, 0, 0)
  else
    match r with
    | [] => none
    | c :: r' =>
      if c = 'Z' then (if atDollar r' then some (none, 0, 0) else none)
      else if c = '+' ∨ c = '-' then
        match ((takeDigits 2 r').bind (fun p => (takeChar ':' p.2).map (fun q => (p.1, q)))).bind
            (fun p => (takeDigits 2 p.2).map (fun q => (p.1, q.1, q.2))) with
        | none => none
        | some (hh, mm, rest) => if atDollar rest then some (some c, hh, mm) else none
      else none

/-- Date and time fields of
`(\d\d\d\d\-\d\d\-\d\dT\d\d:\d\d(:\d\d)?)(Z|([+-])(\d\d):(\d\d))?$`,
`ocfl/w3c_datetime.py` lines 103-104. -/
def matchDateTime (s : Str) : Option ((Nat × Nat × Nat × Nat × Nat × Nat) × Option Char × Nat × Nat) :=
  match takeDigits 4 s with
  | none => none
  | some (y, r) =>
  match (takeChar '-' r).bind (takeDigits 2) with
  | none => none
  | some (mo, r) =>
  match (takeChar '-' r).bind (takeDigits 2) with
  | none => none
  | some (d, r) =>
  match (takeChar 'T' r).bind (takeDigits 2) with
  | none => none
  | some (h, r) =>
  match (takeChar ':' r).bind (takeDigits 2) with
  | none => none
  | some (mi, r) =>
    let (sec, r) := takeSeconds r
    match matchZone r with
    | none => none
    | some z => some ((y, mo, d, h, mi, sec), z)

/-- The fields are a date and time of the calendar, as `datetime` demands. -/
def validFields (y mo d h mi s : Nat) : Bool :=
  1 ≤ y && 1 ≤ mo && mo ≤ 12 && 1 ≤ d && d ≤ daysInMonth y mo && h ≤ 23 && mi ≤ 59 && s ≤ 59

/-- `str_to_datetime(s)`, `ocfl/w3c_datetime.py` lines 39-120, for a string. The result is whole
seconds and the digits of the fraction, which the code adds. Simplification: `dateutil`'s parser is
modelled by the fields that the preceding pattern has matched; it raises `ValueError` when they are
no date and time. -/
def strToDatetime (s : Str) : Py (Int × Str) :=
  if s = [] then .error .valueError
  else
    let s := completeDate s
    let (s, frac) := splitFraction s
    match matchDateTime s with
    | none => .error .valueError
    | some ((y, mo, d, h, mi, sec), sign, hh, mm) =>
      if !validFields y mo d h mi sec then .error .valueError
      else
        match sign with
        | none => .ok (timegm y mo d h mi sec, frac)
        | some c =>
          if hh > 23 ∨ mm > 59 then .error .valueError
          else
            let offset : Int := hh * 3600 + mm * 60
            let offset := if c = '-' then -offset else offset
            .ok (timegm y mo d h mi sec + offset, frac)

end Ocfl
