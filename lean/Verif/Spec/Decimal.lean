import Mathlib.Data.Rat.Floor
import Mathlib.Algebra.Order.Field.Power
import Verif.Model.Decimal
/-!
# What contract decimals mean, in rational arithmetic

Independent of the digit-level model: a finite decimal denotes a rational number, and the only
rounding a contract author should ever see is `Spec.fix`.
-/
namespace Verif

/-- The number a decimal triple denotes. -/
def Dec.val (d : Dec) : ℚ := (if d.neg then -1 else 1) * (d.coef : ℚ) * (10 : ℚ) ^ d.exp

/-- Round a rational once, toward minus infinity, to 30 decimal places. -/
def Spec.floor30 (q : ℚ) : ℚ := (⌊q * 10 ^ 30⌋ : ℚ) / 10 ^ 30

/-- The number a contract sees for the exact value `q`: capped at `10^29`, otherwise rounded once
toward minus infinity to 30 places; `none` (an exception) when that is not above `-10^30`. -/
def Spec.fix (q : ℚ) : Option ℚ :=
  if 10 ^ 29 < q then some (10 ^ 29)
  else if -10 ^ 30 < Spec.floor30 q then some (Spec.floor30 q)
  else none

/-- The integer part: rounded toward zero. -/
def Spec.trunc (q : ℚ) : ℤ := if 0 ≤ q then ⌊q⌋ else ⌈q⌉

/-- `n` is the nearest integer, and the even one of two equally near. -/
def Spec.NearestEven (q : ℚ) (n : ℤ) : Prop := |q - n| ≤ 1 / 2 ∧ (|q - n| = 1 / 2 → n % 2 = 0)

/-- A model computation agrees with the specification: same number, or both fail. -/
def Agrees (r : Except PyErr Dec) (s : Option ℚ) : Prop :=
  match s with
  | some q => ∃ d, r = .ok d ∧ d.val = q
  | none => ∃ e, r = .error e

/-- The values a `decimal(...)` object can hold: the results of `fix_precision`, which every
constructor and operation ends with (bridge/decimal.py:71). -/
def IsCD (d : Dec) : Prop := ∃ x, Dec.fixPrecision x = .ok d

/-- Canonical representation: zero has exponent 0, other coefficients have no trailing zero, and
there are at most 30 decimal places. -/
def Canonical (d : Dec) : Prop :=
  -30 ≤ d.exp ∧ (d.coef = 0 → d.exp = 0) ∧ (d.coef ≠ 0 → d.coef % 10 ≠ 0)

end Verif
