import Verif.Model.Base
/-!
# Decimal digit strings

`str(n)` / `int(s)` for natural numbers and integers, as used by CPython's `int`, `decimal`
and `json`.  (CPython's 4300-digit limit on int/str conversion is not modelled.)
-/
namespace Verif

/-- Digits of `n`, least significant first; the fuel `n.log2 + 1` always suffices
(`digits_unfold`). -/
def digitsFuel : Nat → Nat → List Nat
  | 0, _ => []
  | f + 1, n => if n < 10 then [n] else (n % 10) :: digitsFuel f (n / 10)

/-- Digits of `n`, least significant first; `0` has the single digit `0`. -/
def digits10 (n : Nat) : List Nat := digitsFuel (n.log2 + 1) n

/-- The character of a digit `0..9`. -/
def digitChar : Nat → Char
  | 0 => '0' | 1 => '1' | 2 => '2' | 3 => '3' | 4 => '4'
  | 5 => '5' | 6 => '6' | 7 => '7' | 8 => '8' | _ => '9'

/-- The value of an ASCII digit. (Other Unicode digits, which CPython also accepts in `int()` and
`Decimal()`, are not modelled.) -/
def digitVal? : Char → Option Nat
  | '0' => some 0 | '1' => some 1 | '2' => some 2 | '3' => some 3 | '4' => some 4
  | '5' => some 5 | '6' => some 6 | '7' => some 7 | '8' => some 8 | '9' => some 9
  | _ => none

/-- Is it an ASCII digit? -/
def isDigit (c : Char) : Bool := (digitVal? c).isSome

/-- `str(n)` for a natural number. -/
def natToStr (n : Nat) : Str := ((digits10 n).map digitChar).reverse

/-- Value of a digit string, most significant first (non-digits count as 0; callers check). -/
def strToNat (s : Str) : Nat := s.foldl (fun a c => 10 * a + (digitVal? c).getD 0) 0

/-- `str(i)` for a Python int. -/
def intToStr : Int → Str
  | .ofNat n => natToStr n
  | .negSucc n => '-' :: natToStr (n + 1)

end Verif
