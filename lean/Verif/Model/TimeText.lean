import Verif.Model.Time
import Verif.Model.Digits
/-!
# `Datetime` and `Timedelta` as text (`contracting/stdlib/bridge/time.py`)

`str(Datetime)`, `str(Timedelta)` and `Datetime.strptime`. The standard library part follows
`datetime.py` and `_strptime.py` of CPython 3.11: the format is turned into a regular expression,
matched from the start of the text, and whatever is left over makes the call fail.

Simplifications: the numeric directives `%Y %m %d %H %M %S %f` and `%%` are modelled, the other
directives CPython knows (names of months and weekdays, time zones, week numbers, two-digit years)
are outside the model (`none`); `\d` accepts the ASCII digits only; letters of the format match
regardless of case for ASCII letters only.
-/
namespace Verif

/-- `%0wd`: the digits of `n`, with zeros in front up to width `w`. -/
def padNat (w n : Nat) : Str := List.replicate (w - (natToStr n).length) '0' ++ natToStr n

/-- time.py:87-88 `Datetime.__str__`: `str(self._datetime)`, that is `datetime.isoformat(sep=' ')`:
`"%04d-%02d-%02d %02d:%02d:%02d"`, followed by `".%06d"` when there are microseconds. -/
def DateTime.text (t : DateTime) : Str :=
  padNat 4 t.year ++ '-' :: padNat 2 t.month ++ '-' :: padNat 2 t.day ++ ' ' ::
  padNat 2 t.hour ++ ':' :: padNat 2 t.minute ++ ':' :: padNat 2 t.second ++
  (if t.micro = 0 then [] else '.' :: padNat 6 t.micro)

/-- time.py:187-188 `Timedelta.__str__`: `str(self._timedelta)`, that is `timedelta.__str__`:
`"%d day%s, "` when the days are not zero (`s` unless there is one day or minus one), then
`"%d:%02d:%02d"`; the seconds are those of the normalised timedelta, microseconds never occur. -/
def TimeDelta.text (d : TimeDelta) : Str :=
  (if d.days = 0 then [] else
    intToStr d.days ++ py! " day" ++ (if d.days = 1 ∨ d.days = -1 then [] else ['s']) ++ py! ", ") ++
  natToStr (d.seconds.toNat / 3600) ++ ':' :: padNat 2 (d.seconds.toNat % 3600 / 60) ++
  ':' :: padNat 2 (d.seconds.toNat % 60)

/-! ### `strptime` -/

/-- The numeric directives. -/
inductive TDir where
  | year | month | day | hour | minute | second | micro
  deriving DecidableEq, Repr

/-- A compiled format (`TimeRE.pattern`): ordinary characters, runs of white space, directives. -/
inductive TPiece where
  | lit (c : Char)
  | ws
  | dir (d : TDir)
  deriving DecidableEq, Repr

/-- `\s` for a character of a `str` pattern (`str.isspace`). -/
def isSpaceChar (c : Char) : Bool :=
  let n := c.toNat
  (9 ≤ n && n ≤ 13) || (28 ≤ n && n ≤ 32) || n == 0x85 || n == 0xa0 || n == 0x1680 ||
  (0x2000 ≤ n && n ≤ 0x200a) || n == 0x2028 || n == 0x2029 || n == 0x202f || n == 0x205f || n == 0x3000

/-- The key of a directive in the table of `TimeRE.__init__`. -/
def tdirOf : Char → Option TDir
  | 'Y' => some .year | 'm' => some .month | 'd' => some .day | 'H' => some .hour
  | 'M' => some .minute | 'S' => some .second | 'f' => some .micro | _ => none

/-- The other keys of that table; outside the model. -/
def tdirOther (c : Char) : Bool := c ∈ py! "IGjUwuVyzAaBbpZWcxX"

/-- `TimeRE.pattern` (`_strptime.py`): a run of white space becomes `\s+`, `%x` the expression of the
directive; an unknown directive or a `%` at the end raises `ValueError` (`_strptime`). The flag says
that the previous character was white space of the same run. -/
def compileFmt : Bool → Str → Option (Except PyErr (List TPiece))
  | _, [] => some (.ok [])
  | _, ['%'] => some (.error .valueError)
  | b, c :: c2 :: r =>
    if c = '%' then
      if c2 = '%' then (compileFmt false r).map (·.map (.lit '%' :: ·))
      else match tdirOf c2 with
        | some d => (compileFmt false r).map (·.map (.dir d :: ·))
        | none => if tdirOther c2 then none else some (.error .valueError)
    else if isSpaceChar c then
      if b then compileFmt true (c2 :: r) else (compileFmt true (c2 :: r)).map (·.map (.ws :: ·))
    else (compileFmt false (c2 :: r)).map (·.map (.lit c :: ·))
  | b, [c] =>
    if isSpaceChar c then if b then some (.ok []) else some (.ok [.ws]) else some (.ok [.lit c])

/-- The directives of a compiled format, in order. -/
def tdirs : List TPiece → List TDir
  | [] => []
  | .dir d :: r => d :: tdirs r
  | _ :: r => tdirs r

/-- `re.IGNORECASE` on an ordinary character (ASCII letters). -/
def lowerChar (c : Char) : Char := if 'A' ≤ c ∧ c ≤ 'Z' then Char.ofNat (c.toNat + 32) else c

/-- A two-digit number at the start of the text satisfying `p`. -/
def twoDigits (p : Nat → Bool) : Str → List (Nat × Str)
  | a :: b :: r => match digitVal? a, digitVal? b with
    | some x, some y => if p (10 * x + y) then [(10 * x + y, r)] else []
    | _, _ => []
  | _ => []

/-- A one-digit number satisfying `p`. -/
def oneDigit (p : Nat → Bool) : Str → List (Nat × Str)
  | a :: r => match digitVal? a with
    | some x => if p x then [(x, r)] else []
    | none => []
  | _ => []

/-- Four digits. -/
def fourDigits : Str → List (Nat × Str)
  | a :: b :: c :: d :: r => match digitVal? a, digitVal? b, digitVal? c, digitVal? d with
    | some w, some x, some y, some z => [(1000 * w + 100 * x + 10 * y + z, r)]
    | _, _, _, _ => []
  | _ => []

/-- `[0-9]{1,6}`, longest first; the value is padded with zeros on the right to six digits:
`k` is the number of digits still allowed, `acc` the value so far. -/
def fracDigits : Nat → Nat → Str → List (Nat × Str)
  | 0, _, _ => []
  | k + 1, acc, a :: r => match digitVal? a with
    | some x => fracDigits k (10 * acc + x) r ++ [((10 * acc + x) * 10 ^ k, r)]
    | none => []
  | _ + 1, _, [] => []

/-- The alternatives of a directive's expression (`TimeRE.__init__`), in the order in which the
regular expression tries them: the number read and the rest of the text. -/
def dirAlts (d : TDir) (s : Str) : List (Nat × Str) :=
  match d with
  | .year => fourDigits s                                            -- \d\d\d\d
  | .month => twoDigits (fun n => 1 ≤ n && n ≤ 12) s ++ oneDigit (fun n => 1 ≤ n) s
                                                                     -- 1[0-2]|0[1-9]|[1-9]
  | .day => twoDigits (fun n => 1 ≤ n && n ≤ 31) s ++ oneDigit (fun n => 1 ≤ n) s ++
      (match s with | ' ' :: r => oneDigit (fun n => 1 ≤ n) r | _ => [])
                                                                     -- 3[0-1]|[1-2]\d|0[1-9]|[1-9]| [1-9]
  | .hour => twoDigits (fun n => n ≤ 23) s ++ oneDigit (fun _ => true) s    -- 2[0-3]|[0-1]\d|\d
  | .minute => twoDigits (fun n => n ≤ 59) s ++ oneDigit (fun _ => true) s  -- [0-5]\d|\d
  | .second => twoDigits (fun n => n ≤ 61) s ++ oneDigit (fun _ => true) s  -- 6[0-1]|[0-5]\d|\d
  | .micro => fracDigits 6 0 s                                       -- [0-9]{1,6}

/-- `\s+`: what can be left after a run of white space, longest run first. -/
def wsAlts : Str → List Str
  | [] => []
  | c :: r => if isSpaceChar c then wsAlts r ++ [r] else []

/-- The numbers read so far. -/
abbrev TFields := List (TDir × Nat)

/-- `format_regex.match(data_string)`: the first way to match the pieces, by backtracking: what the
directives read, and the rest of the text. -/
def matchPieces : List TPiece → Str → Option (TFields × Str)
  | [], s => some ([], s)
  | .lit c :: ps, a :: s => if lowerChar a = lowerChar c then matchPieces ps s else none
  | .lit _ :: _, [] => none
  | .ws :: ps, s => (wsAlts s).findSome? (fun r => matchPieces ps r)
  | .dir d :: ps, s => (dirAlts d s).findSome? (fun (v, r) => (matchPieces ps r).map (fun (fs, r') => ((d, v) :: fs, r')))

/-- What the directive read, else the default of `_strptime`. -/
def fieldOr (fs : TFields) (d : TDir) (dflt : Nat) : Nat := ((fs.find? (fun p => p.1 = d)).map (·.2)).getD dflt

/-- time.py:103-106 `Datetime.strptime(date_string, format)`; `none`: outside the model. A directive
used twice makes the expression invalid (`re.error`); text left over, a field out of range and a day
that does not exist are `ValueError`s. -/
def DateTime.strptime (text format : Str) : Option (Except PyErr DateTime) :=
  (compileFmt false format).map fun e => do
    let ps ← e
    if (tdirs ps).Nodup then
      match matchPieces ps text with
      | none => .error .valueError
      | some (fs, rest) =>
        if rest = [] then
          DateTime.make (fieldOr fs .year 1900) (fieldOr fs .month 1) (fieldOr fs .day 1) (fieldOr fs .hour 0)
            (fieldOr fs .minute 0) (fieldOr fs .second 0) (fieldOr fs .micro 0)
        else .error .valueError
    else .error .exception

end Verif
