import Verif.Model.Digits
/-!
# `contracting/stdlib/bridge/decimal.py`

Model of Python's `decimal.Decimal` (finite values as sign/coefficient/exponent triples, following
the reference implementation `_pydecimal`, which the C module agrees with) under the context set by
the bridge, and of `ContractingDecimal` on top of it.

Simplifications: addition aligns exactly instead of using `_pydecimal._normalize`'s shortcut for
very different exponents (same rounded result); flags other than the trapped ones are ignored;
`__pow__` and `__rpow__` are in `Model/Power.lean`; `__float__` is not modelled; only ASCII digits are
parsed.
-/
namespace Verif

/-- A finite `decimal.Decimal`: `(-1)^neg * coef * 10^exp`. -/
structure Dec where
  neg : Bool
  coef : Nat
  exp : Int
  deriving DecidableEq, Repr

namespace Dec

/-- bridge/decimal.py:5-6,10: `prec = MAX_UPPER_PRECISION + MAX_LOWER_PRECISION`. -/
def prec : Nat := 60
/-- bridge/decimal.py:13 -/
def Emax : Int := 100
/-- bridge/decimal.py:12 -/
def Emin : Int := -100
/-- `Context.Etiny()` = Emin - prec + 1 -/
def Etiny : Int := -159
/-- `Context.Etop()` = Emax - prec + 1 -/
def Etop : Int := 41

/-- `len(self._int)`. -/
def numDigits (n : Nat) : Nat := (natToStr n).length

/-- `Decimal.adjusted()`. -/
def adjusted (d : Dec) : Int := d.exp + (numDigits d.coef : Int) - 1

/-- `Decimal._rescale(exp, ROUND_FLOOR)`. -/
def rescaleFloor (d : Dec) (e : Int) : Dec :=
  if d.coef = 0 then ⟨d.neg, 0, e⟩
  else if e ≤ d.exp then ⟨d.neg, d.coef * 10 ^ (d.exp - e).toNat, e⟩
  else
    let p := 10 ^ (e - d.exp).toNat
    ⟨d.neg, if d.neg = true ∧ d.coef % p ≠ 0 then d.coef / p + 1 else d.coef / p, e⟩

/-- `Decimal._fix(context)` for the bridge's context (ROUND_FLOOR, traps Overflow). -/
def fixCtx (d : Dec) : Except PyErr Dec :=
  if d.coef = 0 then .ok ⟨d.neg, 0, min (max d.exp Etiny) Emax⟩
  else
    let expMin0 : Int := (numDigits d.coef : Int) + d.exp - prec
    if expMin0 > Etop then .error .overflow
    else
      let expMin := max expMin0 Etiny
      if d.exp < expMin then
        let r := rescaleFloor d expMin
        let r := if numDigits r.coef > prec then ⟨r.neg, r.coef / 10, r.exp + 1⟩ else r
        if r.exp > Etop then .error .overflow else .ok r
      else .ok d

/-- Signed coefficient scaled to exponent `e ≤ d.exp`. -/
def scaled (d : Dec) (e : Int) : Int :=
  (if d.neg then -1 else 1) * ((d.coef * 10 ^ (d.exp - e).toNat : Nat) : Int)

/-- Exact comparison `a < b` (`Decimal.__lt__` on finite values). -/
def lt (a b : Dec) : Bool :=
  let e := min a.exp b.exp
  decide (scaled a e < scaled b e)

/-- Exact comparison `a == b`. -/
def eqv (a b : Dec) : Bool :=
  let e := min a.exp b.exp
  decide (scaled a e = scaled b e)

/-- `Decimal.__add__`; a zero result of operands with different signs is `-0` under ROUND_FLOOR. -/
def add (a b : Dec) : Except PyErr Dec :=
  let e := min a.exp b.exp
  let s := scaled a e + scaled b e
  fixCtx ⟨if s = 0 then a.neg || b.neg else decide (s < 0), s.natAbs, e⟩

/-- `copy_negate`. -/
def copyNegate (a : Dec) : Dec := { a with neg := !a.neg }

/-- `Decimal.__sub__` = `self.__add__(other.copy_negate())`. -/
def sub (a b : Dec) : Except PyErr Dec := add a b.copyNegate

/-- `Decimal.__mul__`. -/
def mul (a b : Dec) : Except PyErr Dec :=
  fixCtx ⟨a.neg != b.neg, a.coef * b.coef, a.exp + b.exp⟩

/-- Strip trailing zeros while the exponent is below `lim` (loops of `normalize` and `/`). -/
def stripZeros : Nat → Nat → Int → Int → Nat × Int
  | 0, c, e, _ => (c, e)
  | f + 1, c, e, lim =>
    if c % 10 = 0 ∧ e < lim then stripZeros f (c / 10) (e + 1) lim else (c, e)

/-- `Decimal.__truediv__`. -/
def div (a b : Dec) : Except PyErr Dec :=
  if b.coef = 0 then (if a.coef = 0 then .error .invalidOperation else .error .divisionByZero)
  else
    let sign := a.neg != b.neg
    if a.coef = 0 then fixCtx ⟨sign, 0, a.exp - b.exp⟩
    else
      let shift : Int := (numDigits b.coef : Int) - (numDigits a.coef : Int) + prec + 1
      let exp := a.exp - b.exp - shift
      let n := if 0 ≤ shift then a.coef * 10 ^ shift.toNat else a.coef
      let m := if 0 ≤ shift then b.coef else b.coef * 10 ^ (-shift).toNat
      let c := n / m
      if n % m ≠ 0 then
        fixCtx ⟨sign, if c % 5 = 0 then c + 1 else c, exp⟩
      else
        let ce := stripZeros (numDigits c) c exp (a.exp - b.exp)
        fixCtx ⟨sign, ce.1, ce.2⟩

/-- `Decimal._divide`: truncated integer quotient and remainder. -/
def divide (a b : Dec) : Except PyErr (Dec × Dec) :=
  let sign := a.neg != b.neg
  let ideal := min a.exp b.exp
  let expdiff := adjusted a - adjusted b
  if a.coef = 0 ∨ expdiff ≤ -2 then .ok (⟨sign, 0, 0⟩, rescaleFloor a ideal)
  else if expdiff ≤ prec then
    let x := a.coef * 10 ^ (a.exp - ideal).toNat
    let y := b.coef * 10 ^ (b.exp - ideal).toNat
    if x / y < 10 ^ prec then .ok (⟨sign, x / y, 0⟩, ⟨a.neg, x % y, ideal⟩)
    else .error .invalidOperation
  else .error .invalidOperation

/-- `Decimal.__floordiv__` (truncates towards zero). -/
def floordiv (a b : Dec) : Except PyErr Dec :=
  if b.coef = 0 then (if a.coef = 0 then .error .invalidOperation else .error .divisionByZero)
  else (divide a b).map Prod.fst

/-- `Decimal.__mod__` (sign of the dividend). -/
def mod (a b : Dec) : Except PyErr Dec :=
  if b.coef = 0 then .error .invalidOperation
  else (divide a b).bind fun qr => fixCtx qr.2

/-- `Decimal.__neg__` under ROUND_FLOOR: `copy_negate` then `_fix`. -/
def neg' (a : Dec) : Except PyErr Dec := fixCtx a.copyNegate

/-- `Decimal.__abs__`. -/
def abs (a : Dec) : Except PyErr Dec := if a.neg then neg' a else fixCtx a

/-- `Decimal.__int__`: truncation towards zero. -/
def toInt (a : Dec) : Int :=
  (if a.neg then -1 else 1) *
    ((if 0 ≤ a.exp then a.coef * 10 ^ a.exp.toNat else a.coef / 10 ^ (-a.exp).toNat : Nat) : Int)

/-- `n / p` rounded to the nearest natural number, ties to even (`_round_half_even`). -/
def roundHalfEven (n p : Nat) : Nat :=
  if 2 * (n % p) < p ∨ (2 * (n % p) = p ∧ n / p % 2 = 0) then n / p else n / p + 1

/-- bridge/decimal.py:42, MAX_DECIMAL = Decimal('1' + '0'*29). -/
def maxDecimal : Dec := ⟨false, 10 ^ 29, 0⟩

/-- bridge/decimal.py:43, exponent of MIN_DECIMAL = Decimal('0.' + '0'*29 + '1'). -/
def minExp : Int := -30

/-- `Decimal.quantize` to exponent `e` (within `Etiny..Emax`), rounding down as the context says. -/
def quantizeTo (d : Dec) (e : Int) : Except PyErr Dec :=
  if d.coef = 0 then fixCtx ⟨d.neg, 0, e⟩
  else if adjusted d > Emax ∨ adjusted d - e + 1 > prec then .error .invalidOperation
  else
    let r := rescaleFloor d e
    if adjusted r > Emax ∨ numDigits r.coef > prec then .error .invalidOperation
    else fixCtx r

/-- `x.quantize(MIN_DECIMAL, rounding=ROUND_FLOOR)`. -/
def quantize (d : Dec) : Except PyErr Dec := quantizeTo d minExp

/-- `Decimal.normalize()`. -/
def normalize (d : Dec) : Except PyErr Dec := do
  let dup ← fixCtx d
  if dup.coef = 0 then .ok ⟨dup.neg, 0, 0⟩
  else
    let ce := stripZeros (numDigits dup.coef) dup.coef dup.exp Emax
    .ok ⟨dup.neg, ce.1, ce.2⟩

/-- bridge/decimal.py:46-49 `fix_precision` on finite values. -/
def fixPrecision (x : Dec) : Except PyErr Dec :=
  if lt maxDecimal x then .ok maxDecimal
  else (quantize x).bind normalize

/-! ### Printing (`Decimal.__str__`, `to_eng_string`) -/

/-- `"%+d" % i`. -/
def signedStr (i : Int) : Str := if i < 0 then intToStr i else '+' :: intToStr i

/-- Position of the decimal point relative to the coefficient digits (`_pydecimal`
`__str__`: `dotplace`). -/
def dotPlace (eng : Bool) (d : Dec) : Int :=
  let leftdigits : Int := d.exp + numDigits d.coef
  if d.exp ≤ 0 ∧ leftdigits > -6 then leftdigits
  else if eng = false then 1
  else if d.coef = 0 then (leftdigits + 1) % 3 - 1
  else (leftdigits - 1) % 3 + 1

/-- `intpart + fracpart` of `_pydecimal` `__str__`. -/
def strBody (digs : Str) (dotplace : Int) : Str :=
  if dotplace ≤ 0 then '0' :: '.' :: (List.replicate (-dotplace).toNat '0' ++ digs)
  else if dotplace ≥ digs.length then digs ++ List.replicate (dotplace - digs.length).toNat '0'
  else digs.take dotplace.toNat ++ '.' :: digs.drop dotplace.toNat

/-- The exponent suffix (`leftdigits - dotplace`). -/
def expPart (i : Int) : Str := if i = 0 then [] else 'E' :: signedStr i

/-- `Decimal.__str__(eng)` of `_pydecimal`. -/
def toStr (eng : Bool) (d : Dec) : Str :=
  (if d.neg then ['-'] else []) ++ strBody (natToStr d.coef) (dotPlace eng d)
    ++ expPart (d.exp + numDigits d.coef - dotPlace eng d)

/-! ### Parsing (`Decimal(str)`) -/

/-- Result of `Decimal(str)`: finite, signed infinity or NaN. -/
inductive Num where
  | fin (d : Dec)
  | inf (neg : Bool)
  | nan
  deriving DecidableEq, Repr

/-- Characters removed by `str.strip()` (ASCII whitespace only). -/
def isSpace (c : Char) : Bool :=
  c == ' ' || c == '\t' || c == '\n' || c == '\r' || c == '\x0b' || c == '\x0c'

/-- `s.strip()`. -/
def strip (s : Str) : Str := ((s.dropWhile isSpace).reverse.dropWhile isSpace).reverse

/-- Longest digit prefix and the rest. -/
def spanDigits (s : Str) : Str × Str := s.span isDigit

/-- Optional exponent part at the end of the string: `(E[-+]?\d+)?\Z`. -/
def parseExp : Str → Option Int
  | [] => some 0
  | c :: s =>
    if c = 'e' ∨ c = 'E' then
      let (neg, t) : Bool × Str := match s with
        | '-' :: t => (true, t)
        | '+' :: t => (false, t)
        | t => (false, t)
      if t ≠ [] ∧ t.all isDigit then
        some ((if neg then -1 else 1) * (strToNat t : Int))
      else none
    else none

/-- Lowercase an ASCII letter (regex IGNORECASE). -/
def lowerAscii (s : Str) : Str := s.map Char.toLower

/-- Optional fraction: fraction digits, rest, and whether there was a point. -/
def splitFrac : Str → Str × Str × Bool
  | [] => ([], [], false)
  | c :: r => if c = '.' then ((spanDigits r).1, (spanDigits r).2, true) else ([], c :: r, false)

/-- The unsigned part of the `Decimal` grammar. -/
def parseUnsigned (neg : Bool) (s : Str) : Option Num :=
  let ip := (spanDigits s).1
  let fp := (splitFrac (spanDigits s).2).1
  let r := (splitFrac (spanDigits s).2).2.1
  let dot := (splitFrac (spanDigits s).2).2.2
  if ip = [] ∧ fp = [] then
    if dot then none
    else
      let l := lowerAscii s
      if l = py! "inf" ∨ l = py! "infinity" then some (.inf neg)
      else
        let l := match l with | 's' :: t => t | t => t
        if startsWith l (py! "nan") ∧ (l.drop 3).all isDigit then some .nan else none
  else
    match parseExp r with
    | some e => some (.fin ⟨neg, strToNat (ip ++ fp), e - fp.length⟩)
    | none => none

/-- Optional sign. -/
def parseSigned : Str → Option Num
  | [] => none
  | c :: t =>
    if c = '-' then parseUnsigned true t
    else if c = '+' then parseUnsigned false t
    else parseUnsigned false (c :: t)

/-- `Decimal(s)` for a string: `s.strip().replace('_', '')` matched against the number grammar;
`none` is `InvalidOperation` (ConversionSyntax). -/
def parse (s : Str) : Option Num := parseSigned ((strip s).filter (· ≠ '_'))

end Dec

open Dec

/-- bridge/decimal.py:46-49 on any `Decimal`: `inf > MAX` gives the cap, `-inf` cannot be quantised,
comparing NaN raises. -/
def fixPrecisionNum : Num → Except PyErr Dec
  | .fin d => fixPrecision d
  | .inf false => .ok maxDecimal
  | .inf true => .error .invalidOperation
  | .nan => .error .invalidOperation

/-- `s.split(sep)` for a two-character separator. -/
def split2 (a b : Char) : Str → List Str
  | [] => [[]]
  | [c] => [[c]]
  | c :: d :: s =>
    if c = a ∧ d = b then [] :: split2 a b s
    else match split2 a b (d :: s) with
      | [] => [[c]]            -- unreachable
      | x :: xs => (c :: x) :: xs

/-- The grammar accepted by `float(s)` as far as `neg_sci_not` needs it: `none` is `ValueError`,
`some b` says whether the value is greater than 9.  Same strings as `Decimal(s)` except that
`float` rejects misplaced underscores, modelled here by rejecting all underscores, and `s`/payload
NaNs. Infinity compares as usual, NaN is not greater. The nearest double of a number is above 9 exactly when the
number is above `9 + 2^-50`, half-way to the next double (`2^-50 = 5^50 * 10^-50`). -/
def floatGt9 (s : Str) : Option Bool :=
  if s.contains '_' then none
  else match Dec.parse s with
    | none => none
    | some (.fin d) => some (Dec.lt ⟨false, 9 * 10 ^ 50 + 5 ^ 50, -50⟩ d)
    | some (.inf n) => some (!n)
    | some .nan => some false

/-- `int(s)` of a string: `none` is `ValueError`. Underscores are rejected (simplification). -/
def pyInt (s : Str) : Option Int :=
  match strip s with
  | '-' :: t => if t ≠ [] ∧ t.all isDigit then some (-(strToNat t : Int)) else none
  | '+' :: t => if t ≠ [] ∧ t.all isDigit then some (strToNat t) else none
  | t => if t ≠ [] ∧ t.all isDigit then some (strToNat t) else none

/-- bridge/decimal.py:25-39 `neg_sci_not`. -/
def negSciNot (s : Str) : Str :=
  match split2 'e' '-' s with
  | [base, exp] =>
    match floatGt9 base with
    | none => s
    | some true => s
    | some false =>
      let base' := base.filter (· ≠ '.')
      match pyInt exp with
      | none => s
      | some e =>
        let numbers := List.replicate (e - 1).toNat '0' ++ base'
        if e > 0 then '0' :: '.' :: numbers else numbers
  | _ => s

/-- `ContractingDecimal(a)` for a string `a`, or for a float given by its `repr`
(bridge/decimal.py:61-64,71). -/
def cdOfStr (s : Str) : Except PyErr Dec :=
  match Dec.parse (negSciNot s) with
  | none => .error .invalidOperation
  | some n => fixPrecisionNum n

/-- `Decimal(str(i))` for an int (no `e-` in it, so `neg_sci_not` is the identity). -/
def decOfInt (i : Int) : Dec := ⟨decide (i < 0), i.natAbs, 0⟩

/-- `ContractingDecimal(i)` for an int; also `_get_other(i)` (bridge/decimal.py:56-57). -/
def cdOfInt (i : Int) : Except PyErr Dec := fixPrecision (decOfInt i)

/-- `ContractingDecimal(fix_precision(op(self._d, other)))`, the shape of every arithmetic method
(bridge/decimal.py:106-140): the constructor applies `fix_precision` a second time. -/
def cdOp (op : Dec → Dec → Except PyErr Dec) (a b : Dec) : Except PyErr Dec := do
  let r ← op a b
  let f ← fixPrecision r
  fixPrecision f

/-- bridge/decimal.py:106-107. -/
def cdAdd := cdOp Dec.add
/-- bridge/decimal.py:112-113. -/
def cdSub := cdOp Dec.sub
/-- bridge/decimal.py:118-119. -/
def cdMul := cdOp Dec.mul
/-- bridge/decimal.py:124-125. -/
def cdDiv := cdOp Dec.div
/-- bridge/decimal.py:130-131. -/
def cdMod := cdOp Dec.mod
/-- bridge/decimal.py:136-137. -/
def cdFloordiv := cdOp Dec.floordiv

/-- bridge/decimal.py:97-98 `__neg__`. -/
def cdNeg (a : Dec) : Except PyErr Dec := do fixPrecision (← Dec.neg' a)
/-- bridge/decimal.py:103-104 `__abs__`. -/
def cdAbs (a : Dec) : Except PyErr Dec := do fixPrecision (← Dec.abs a)
/-- bridge/decimal.py:73-74 `__bool__`: `self._d > 0`. -/
def cdBool (a : Dec) : Bool := Dec.lt ⟨false, 0, 0⟩ a
/-- bridge/decimal.py:79-80 `__lt__` between decimals. -/
def cdLt (a b : Dec) : Bool := Dec.lt a b
/-- bridge/decimal.py:82-83 `__le__`. -/
def cdLe (a b : Dec) : Bool := !Dec.lt b a
/-- bridge/decimal.py:76-77 `__eq__`. -/
def cdEq (a b : Dec) : Bool := Dec.eqv a b
/-- bridge/decimal.py:85-86 `__gt__`. -/
def cdGt (a b : Dec) : Bool := Dec.lt b a
/-- bridge/decimal.py:88-89 `__ge__`. -/
def cdGe (a b : Dec) : Bool := !Dec.lt a b
/-- Comparison with an int goes through `_get_other` (bridge/decimal.py:53-58,79-80). -/
def cdLtInt (a : Dec) (i : Int) : Except PyErr Bool := do return Dec.lt a (← cdOfInt i)
/-- bridge/decimal.py:88-89 with an int. -/
def cdGeInt (a : Dec) (i : Int) : Except PyErr Bool := do return !Dec.lt a (← cdOfInt i)
/-- bridge/decimal.py:76-77 with an int. -/
def cdEqInt (a : Dec) (i : Int) : Except PyErr Bool := do return Dec.eqv a (← cdOfInt i)
/-- bridge/decimal.py:91-95 `__str__`/`__repr__`: `to_eng_string`. -/
def cdStr (a : Dec) : Str := Dec.toStr true a
/-- bridge/decimal.py:148-149 `__int__`. -/
def cdInt (a : Dec) : Int := Dec.toInt a
/-- bridge/decimal.py:100-101 `__pos__`: the object itself. -/
def cdPos (a : Dec) : Dec := a
/-- bridge/decimal.py:154-155 `__round__` without a digit count: `round(Decimal)` is an `int`, ties go
to the even neighbour (`Decimal.__round__`). -/
def cdRound (a : Dec) : Int :=
  (if a.neg then -1 else 1) *
    ((if 0 ≤ a.exp then a.coef * 10 ^ a.exp.toNat
      else Dec.roundHalfEven a.coef (10 ^ (-a.exp).toNat) : Nat) : Int)
/-- bridge/decimal.py:154-155 `__round__` with a digit count: `Decimal.__round__(n)` is
`quantize(Decimal('1E-n'))`, which rounds as the context says (down). The result is a plain `Decimal`:
`fix_precision` is not applied to it. -/
def cdRoundTo (a : Dec) (n : Int) : Except PyErr Dec :=
  if Etiny ≤ -n ∧ -n ≤ Emax then Dec.quantizeTo a (-n) else .error .invalidOperation

end Verif
