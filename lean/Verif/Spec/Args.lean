import Verif.Spec.Decimal
import Verif.Spec.Value
/-!
# What a contract function should receive

Floats have no place in contracts: a float argument is to become the decimal of the same value.
-/
namespace Verif.Spec

/-- The exponent of a printed float. -/
def floatExp : Option (Str × Str) → ℤ
  | none => 0
  | some (sg, es) => if sg = ['-'] then -(strToNat es : ℤ) else strToNat es

/-- The number a finite printed float denotes. -/
def floatVal (neg : Bool) (ip : Nat) (frac : Str) (exp : Option (Str × Str)) : ℚ :=
  (if neg then -1 else 1) * (ip + (strToNat frac : ℚ) / 10 ^ frac.length) * 10 ^ floatExp exp

/-- Printed with a negative exponent (Python does so below 0.0001). -/
def Tiny (exp : Option (Str × Str)) : Prop := ∃ es, exp = some (['-'], es)

/-- As Python prints floats: when there is an exponent there is one digit before the point, and a negative exponent is not 0. -/
def Printed : FloatTok → Prop
  | .lit neg ip frac exp => (FloatTok.lit neg ip frac exp).WF ∧ (exp ≠ none → ip < 10) ∧ (Tiny exp → floatExp exp ≠ 0)
  | _ => True

/-- The decimal `d` a float becomes: its value rounded once, `10^29` for infinity. There is none for NaN, for minus infinity, for
values not above `-10^30`, and — a defect of the code — for tiny negative numbers. -/
def Becomes : FloatTok → Dec → Prop
  | .lit neg ip frac exp, d => ¬ (neg = true ∧ Tiny exp) ∧ Spec.fix (floatVal neg ip frac exp) = some d.val
  | .inf false, d => d.val = 10 ^ 29
  | .inf true, _ => False
  | .nan, _ => False

/-- The value a function receives for an argument. -/
def Passed : PyVal → PyVal → Prop
  | .flt t, w => ∃ d, w = .dec d ∧ IsCD d ∧ Becomes t d
  | v, w => w = v

end Verif.Spec
