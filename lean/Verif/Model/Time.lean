import Verif.Model.Base
/-!
# `contracting/stdlib/bridge/time.py`

`Datetime` wraps a naive `datetime.datetime`, `Timedelta` a whole-second `datetime.timedelta`.
The standard-library part follows CPython's `_pydatetime.py` (proleptic Gregorian calendar).
`strptime` and `__str__` are in `Model/TimeText.lean`; non-integer constructor arguments are not modelled.
-/
namespace Verif

/-! ### Calendar (`_pydatetime.py`) -/

/-- `_is_leap`. -/
def isLeap (y : Nat) : Bool := y % 4 == 0 && (y % 100 != 0 || y % 400 == 0)

/-- `_days_in_month`. -/
def daysInMonth (y m : Nat) : Nat :=
  match m with
  | 1 => 31 | 2 => if isLeap y then 29 else 28 | 3 => 31 | 4 => 30 | 5 => 31 | 6 => 30
  | 7 => 31 | 8 => 31 | 9 => 30 | 10 => 31 | 11 => 30 | 12 => 31 | _ => 0

/-- `_DAYS_BEFORE_MONTH` for a common year. -/
def daysBeforeMonth0 (m : Nat) : Nat :=
  match m with
  | 1 => 0 | 2 => 31 | 3 => 59 | 4 => 90 | 5 => 120 | 6 => 151
  | 7 => 181 | 8 => 212 | 9 => 243 | 10 => 273 | 11 => 304 | 12 => 334 | _ => 0

/-- `_days_before_month`. -/
def daysBeforeMonth (y m : Nat) : Nat := daysBeforeMonth0 m + (if m > 2 ∧ isLeap y then 1 else 0)

/-- `_days_before_year`. -/
def daysBeforeYear (y : Nat) : Nat := (y - 1) * 365 + (y - 1) / 4 - (y - 1) / 100 + (y - 1) / 400

/-- `_ymd2ord`: day number, 1 January of year 1 is 1. -/
def ymd2ord (y m d : Nat) : Nat := daysBeforeYear y + daysBeforeMonth y m + d

/-- `_ord2ymd`, last part: month and day from the 0-based day of the year. -/
def ordMonth (n : Nat) (leapyear : Bool) : Nat × Nat :=
  let month := (n + 50) / 32
  let preceding := daysBeforeMonth0 month + (if month > 2 ∧ leapyear then 1 else 0)
  if preceding > n then
    let month := month - 1
    let preceding := preceding - (if month = 2 ∧ leapyear then 29 else
      (match month with | 2 => 28 | 4 | 6 | 9 | 11 => 30 | _ => 31))
    (month, n - preceding + 1)
  else (month, n - preceding + 1)

/-- `_ord2ymd`. -/
def ord2ymd (n : Nat) : Nat × Nat × Nat :=
  let n := n - 1
  let n400 := n / 146097
  let n := n % 146097
  let n100 := n / 36524
  let n := n % 36524
  let n4 := n / 1461
  let n := n % 1461
  let n1 := n / 365
  let n := n % 365
  let year := n400 * 400 + 1 + n100 * 100 + n4 * 4 + n1
  if n1 = 4 ∨ n100 = 4 then (year - 1, 12, 31)
  else (year, ordMonth n (decide (n1 = 3 ∧ (n4 ≠ 24 ∨ n100 = 3))))

/-- Last ordinal: 31 December 9999 (`_MAXORDINAL`). -/
def maxOrdinal : Nat := 3652059

/-- Fields of a naive datetime. -/
structure DateTime where
  year : Nat
  month : Nat
  day : Nat
  hour : Nat
  minute : Nat
  second : Nat
  micro : Nat
  deriving DecidableEq, Repr

namespace DateTime

/-- The field checks of `datetime.__new__` (`_check_date_fields`, `_check_time_fields`). -/
def Valid (t : DateTime) : Prop :=
  1 ≤ t.year ∧ t.year ≤ 9999 ∧ 1 ≤ t.month ∧ t.month ≤ 12 ∧ 1 ≤ t.day ∧
  t.day ≤ daysInMonth t.year t.month ∧ t.hour ≤ 23 ∧ t.minute ≤ 59 ∧ t.second ≤ 59 ∧ t.micro ≤ 999999

instance (t : DateTime) : Decidable t.Valid := by unfold Valid; infer_instance

/-- time.py:27-36 `Datetime(year, month, ..., microsecond)` on ints: `ValueError` when out of range. -/
def make (y mo d h mi s us : Int) : Except PyErr DateTime :=
  if 0 ≤ y ∧ 0 ≤ mo ∧ 0 ≤ d ∧ 0 ≤ h ∧ 0 ≤ mi ∧ 0 ≤ s ∧ 0 ≤ us then
    let t : DateTime := ⟨y.toNat, mo.toNat, d.toNat, h.toNat, mi.toNat, s.toNat, us.toNat⟩
    if t.Valid then .ok t else .error .valueError
  else .error .valueError

/-- `toordinal()`. -/
def ordinal (t : DateTime) : Nat := ymd2ord t.year t.month t.day

/-- Seconds since midnight. -/
def secOfDay (t : DateTime) : Nat := t.hour * 3600 + t.minute * 60 + t.second

/-- `datetime._cmp`: lexicographic comparison of the fields; time.py:46-74. -/
def fields (t : DateTime) : List Nat := [t.year, t.month, t.day, t.hour, t.minute, t.second, t.micro]

/-- Lexicographic `<` on equally long lists (`_cmp` of tuples). -/
def lexLt : List Nat → List Nat → Bool
  | a :: as, b :: bs => a < b || (a == b && lexLt as bs)
  | _, _ => false

/-- time.py:46-49 `__lt__`. -/
def lt (a b : DateTime) : Bool := lexLt a.fields b.fields

end DateTime

/-! ### Timedelta -/

/-- time.py:108-122: a `Timedelta`: normalised `days`/`seconds` of the wrapped `timedelta` plus the
separately kept raw second count. -/
structure TimeDelta where
  days : Int
  seconds : Int
  raw : Int
  deriving DecidableEq, Repr

namespace TimeDelta

/-- time.py:15-22 `get_raw_seconds`. -/
def rawSeconds (weeks days hours minutes seconds : Int) : Int :=
  seconds + minutes * 60 + hours * 3600 + days * 86400 + weeks * 604800

/-- time.py:109-122 on int arguments; `timedelta` raises OverflowError when |days| > 999999999. -/
def make (weeks days hours minutes seconds : Int) : Except PyErr TimeDelta :=
  -- _pydatetime timedelta.__new__: days += weeks*7; seconds += minutes*60 + hours*3600;
  -- days, seconds = divmod(seconds, 24*3600)
  let d := days + weeks * 7
  let s := seconds + minutes * 60 + hours * 3600
  let d' := d + s.fdiv 86400
  let s' := s.fmod 86400
  if d' < -999999999 ∨ d' > 999999999 then .error .overflow
  else .ok ⟨d', s', rawSeconds weeks days hours minutes seconds⟩

/-- time.py:155-158 `__add__` with a Timedelta. -/
def add (a b : TimeDelta) : Except PyErr TimeDelta := make 0 (a.days + b.days) 0 0 (a.seconds + b.seconds)
/-- time.py:166-169 `__sub__` with a Timedelta. -/
def sub (a b : TimeDelta) : Except PyErr TimeDelta := make 0 (a.days - b.days) 0 0 (a.seconds - b.seconds)
/-- time.py:181-183 `__mul__` by an int. -/
def mulInt (a : TimeDelta) (n : Int) : Except PyErr TimeDelta := make 0 (a.days * n) 0 0 (a.seconds * n)
/-- time.py:178-180 `__mul__` by a Timedelta (component-wise). -/
def mulTd (a b : TimeDelta) : Except PyErr TimeDelta := make 0 (a.days * b.days) 0 0 (a.seconds * b.seconds)
/-- time.py:124-127 `__lt__` (timedelta compares `(days, seconds)`). -/
def lt (a b : TimeDelta) : Bool := decide (a.days < b.days) || (decide (a.days = b.days) && decide (a.seconds < b.seconds))
/-- time.py:134-137 `__eq__`. -/
def eq (a b : TimeDelta) : Bool := decide (a.days = b.days) && decide (a.seconds = b.seconds)
/-- time.py:194-196 `seconds`. -/
def getSeconds (a : TimeDelta) : Int := a.raw
/-- time.py:198-200 `minutes`. -/
def getMinutes (a : TimeDelta) : Int := a.raw.fdiv 60
/-- time.py:202-204 `hours`. -/
def getHours (a : TimeDelta) : Int := a.raw.fdiv 3600
/-- time.py:206-208 `days`. -/
def getDays (a : TimeDelta) : Int := a.raw.fdiv 86400
/-- time.py:210-212 `weeks`. -/
def getWeeks (a : TimeDelta) : Int := a.raw.fdiv 604800

end TimeDelta

namespace DateTime

/-- `datetime.__add__` of `_pydatetime` for a whole-second timedelta: move the ordinal and the
seconds, `OverflowError` outside years 1..9999. -/
def addRaw (t : DateTime) (days seconds : Int) : Except PyErr DateTime :=
  let total : Int := (t.secOfDay : Int) + seconds
  let ord : Int := (t.ordinal : Int) + days + total.fdiv 86400
  let rem := (total.fmod 86400).toNat
  if 0 < ord ∧ ord ≤ maxOrdinal then
    let (y, m, d) := ord2ymd ord.toNat
    .ok ⟨y, m, d, rem / 3600, rem % 3600 / 60, rem % 60, t.micro⟩
  else .error .overflow

/-- time.py:82-85 `Datetime.__add__`. -/
def add (t : DateTime) (d : TimeDelta) : Except PyErr DateTime := addRaw t d.days d.seconds

/-- time.py:171-173 `Timedelta.__sub__(Datetime)`: `other._datetime - self._timedelta`
(so `delta - date` is `date` moved back by `delta`). -/
def tdSubDt (d : TimeDelta) (t : DateTime) : Except PyErr DateTime := addRaw t (-d.days) (-d.seconds)

/-- time.py:76-80 `Datetime.__sub__`: the difference of the wrapped datetimes, keeping only whole
`days` and `seconds` of the normalised timedelta. -/
def sub (a b : DateTime) : Except PyErr TimeDelta :=
  let us : Int := (a.micro : Int) - (b.micro : Int)
  let secs : Int := (a.secOfDay : Int) - (b.secOfDay : Int) + us.fdiv 1000000
  let days : Int := (a.ordinal : Int) - (b.ordinal : Int) + secs.fdiv 86400
  TimeDelta.make 0 days 0 0 (secs.fmod 86400)

end DateTime

end Verif
