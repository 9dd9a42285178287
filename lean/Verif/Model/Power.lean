import Verif.Model.Decimal
/-!
# `ContractingDecimal.__pow__` and `__rpow__` (`contracting/stdlib/bridge/decimal.py`)

`Decimal ** Decimal` follows libmpdec 2.5 (`mpdecimal.c`: `mpd_qpow`, `_mpd_qpow_int`, `_mpd_qpow_uint`,
`_mpd_qpow_mpd`, `_qcheck_pow_one`, `_qcheck_pow_bounds`, `_lower_bound_zeta`), the C code behind the
`decimal` module, whose results differ from the reference implementation `_pydecimal`.

Simplifications: powers with an exponent that is not a whole number (`_mpd_qpow_real`) are an arbitrary
parameter `real`; the exponent of a zero or one result is not followed (`fix_precision` normalises it
away); leaving the multiplication loop early when the product has become zero is left out (it stays zero).
-/
namespace Verif
namespace Dec

/-- A positive number `c * 10^e` while a power is computed; the sign is put on at the end. -/
abbrev Mag := Nat × Int

/-- `mpd_qfinalize` in the working context: `p` digits, half to even, the exponent range of the bridge's
context. -/
def fixHE (p c : Nat) (e : Int) : Except PyErr Mag :=
  if c = 0 then .ok (0, min (max e (Emin - p + 1)) Emax)
  else
    let expMin0 : Int := (numDigits c : Int) + e - p
    if expMin0 > Emax - p + 1 then .error .overflow
    else
      let expMin := max expMin0 (Emin - p + 1)
      if e < expMin then
        let r := roundHalfEven c (10 ^ (expMin - e).toNat)
        let m : Mag := if numDigits r > p then (r / 10, expMin + 1) else (r, expMin)
        if m.2 > Emax - p + 1 then .error .overflow else .ok m
      else .ok (c, e)

/-- `mpd_qmul` in the working context. -/
def mulHE (p : Nat) (x y : Mag) : Except PyErr Mag := fixHE p (x.1 * y.1) (x.2 + y.2)

/-- `mpd_qdiv(one, base)` in the working context. -/
def recipHE (p : Nat) (b : Mag) : Except PyErr Mag :=
  let shift := numDigits b.1 + p
  let n := 10 ^ shift
  let c := n / b.1
  let e : Int := -b.2 - shift
  if n % b.1 ≠ 0 then fixHE p (if c % 5 = 0 then c + 1 else c) e
  else
    let ce := stripZeros (numDigits c) c e (-b.2)
    fixHE p ce.1 ce.2

/-- `_mpd_qpow_uint`: exponents below `2^64`, from the highest bit down. -/
def powUint (p : Nat) (b : Mag) (n : Nat) : Except PyErr Mag :=
  if n ≤ 1 then .ok b
  else do
    let r ← powUint p b (n / 2)
    let r ← mulHE p r r
    if n % 2 = 1 then mulHE p r b else .ok r
termination_by n
decreasing_by omega

/-- `_mpd_qpow_mpd`: larger exponents, from the lowest bit up. -/
def powMpd (p : Nat) (r b : Mag) (n : Nat) : Except PyErr Mag :=
  if n = 0 then .ok r
  else
    (if n % 2 = 1 then mulHE p r b else .ok r).bind fun r =>
      if n / 2 = 0 then .ok r
      else (mulHE p b b).bind fun b => powMpd p r b (n / 2)
termination_by n
decreasing_by omega

/-- `_mpd_qpow_int` up to the final rounding: `b` to the power `n`; a negative power starts from the
reciprocal and works with one more digit. -/
def powInt (b : Mag) (n : Int) : Except PyErr Mag :=
  let p := 60 + numDigits n.natAbs + 2
  if n < 0 then do
    let t ← recipHE (p + 1) b
    if n.natAbs < 2 ^ 64 then powUint (p + 1) t n.natAbs else powMpd (p + 1) (1, 0) t n.natAbs
  else if n.natAbs < 2 ^ 64 then powUint p b n.natAbs else powMpd p (1, 0) b n.natAbs

/-- `_lower_bound_zeta`: a lower bound for the adjusted exponent of `log10 x`, for `x > 0` and `x ≠ 1`.
(`x - 1` is computed exactly.) -/
def zeta (x : Dec) : Int :=
  let t := adjusted x
  if 0 < t then (numDigits t.natAbs : Int) - 1
  else if t < -1 then (numDigits (t + 1).natAbs : Int) - 1
  else
    let e := min x.exp 0
    let u := e + (numDigits (scaled x e - scaled ⟨false, 1, 0⟩ e).natAbs : Int) - 1
    if t = 0 then u - 2 else u - 1

/-- What `_qcheck_pow_bounds` can tell in advance. -/
inductive Bounds where
  | overflow | underflow | unknown
  deriving DecidableEq, Repr

/-- `_qcheck_pow_bounds`; `Emax` and `Etiny` have three digits. -/
def powBounds (x : Dec) (n : Int) : Bounds :=
  let theta := (numDigits n.natAbs : Int) - 1 + zeta x
  if 3 < theta then (if (lt x ⟨false, 1, 0⟩) = decide (n < 0) then .overflow else .underflow) else .unknown

/-- `mpd_isinteger`. -/
def isInteger (b : Dec) : Bool := b.coef % 10 ^ (-b.exp).toNat = 0

/-- `mpd_qpow` on finite operands. -/
def power (real : Dec → Dec → Except PyErr Num) (a b : Dec) : Except PyErr Num :=
  let n := toInt b
  let sign := isInteger b && a.neg && decide (n % 2 = 1)
  if a.coef = 0 then
    if b.coef = 0 then .error .invalidOperation
    else if b.neg then .ok (.inf sign)
    else .ok (.fin ⟨sign, 0, 0⟩)
  else if a.neg && !isInteger b then .error .invalidOperation
  else if b.coef = 0 then .ok (.fin ⟨sign, 1, 0⟩)
  else
    let x : Dec := { a with neg := false }
    if eqv x ⟨false, 1, 0⟩ then .ok (.fin ⟨sign, 1, 0⟩)
    else if isInteger b then
      match powBounds x n with
      | .overflow => .error .overflow
      | .underflow => (fixCtx ⟨sign, 1, Etiny - 1⟩).map .fin
      | .unknown => do
        let m ← powInt (a.coef, a.exp) n
        (fixCtx ⟨sign, m.1, m.2⟩).map .fin
    else real a b

end Dec

open Dec

/-- bridge/decimal.py:142-143 `__pow__` between decimals (an `int` operand is converted first, and `__rpow__`,
lines 145-146, swaps the operands). -/
def cdPow (real : Dec → Dec → Except PyErr Dec.Num) (a b : Dec) : Except PyErr Dec := do
  let r ← Dec.power real a b
  let f ← fixPrecisionNum r
  fixPrecision f

end Verif
