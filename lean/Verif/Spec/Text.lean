import Verif.Spec.Decimal
/-!
# How numbers are written

Independent of the printing code: a plain text is an integer without leading zeros and, if needed, a point and a
fraction that does not end in zero.
-/
namespace Verif
namespace Spec

/-- The text is the plain decimal notation of the nonnegative number. -/
def PlainText (s : Str) (q : ℚ) : Prop :=
  ∃ (n : ℕ) (f : Str), (∀ c ∈ f, isDigit c = true) ∧ f.getLast? ≠ some '0' ∧
    q = n + (strToNat f : ℚ) / 10 ^ f.length ∧ s = natToStr n ++ (if f = [] then [] else '.' :: f)

/-- Numbers written with an exponent: nonzero ones below a millionth, and multiples of ten from a thousand on. -/
def Exponential (q : ℚ) : Prop := (0 < |q| ∧ |q| < 1 / 10 ^ 6) ∨ (1000 ≤ |q| ∧ ∃ z : ℤ, q = 10 * z)

/-- A signed exponent. -/
def signedText (k : ℤ) : Str := (if k < 0 then '-' else '+') :: natToStr k.natAbs

/-- The text, apart from a leading minus sign, of a number of this magnitude: plain, or a plain text of a number from
1 to below 1000 followed by `E` and a nonzero multiple of three. -/
def Magnitude (s : Str) (q : ℚ) : Prop :=
  (¬ Exponential q ∧ PlainText s |q|) ∨
  (Exponential q ∧ ∃ (m : ℚ) (k : ℤ) (u : Str), s = u ++ 'E' :: signedText (3 * k) ∧ k ≠ 0 ∧ PlainText u m ∧
    1 ≤ m ∧ m < 1000 ∧ |q| = m * 10 ^ (3 * k))

end Spec
end Verif
