import Verif.Spec.Time
import Verif.Model.Digits
/-!
# Dates written as text: specification

What `strftime` writes for a format, and what a text says about a date. Only the record of fields
and the digit characters are shared with the model.
-/
namespace Verif.Spec

/-- `n` in exactly `w` decimal digits (its last `w` digits). -/
def fixedDigits : ℕ → ℕ → Str
  | 0, _ => []
  | w + 1, n => fixedDigits w (n / 10) ++ [digitChar (n % 10)]

/-- Unicode white space. -/
def White (c : Char) : Prop :=
  c.toNat ∈ Set.Icc 9 13 ∪ Set.Icc 28 32 ∪ Set.Icc 0x2000 0x200a ∪
    {0x85, 0xa0, 0x1680, 0x2028, 0x2029, 0x202f, 0x205f, 0x3000}

/-- What the format writes for a date; `none` when a `%` is not followed by one of the numeric
directives or `%`. -/
def write (t : DateTime) : Str → Option Str
  | [] => some []
  | '%' :: 'Y' :: r => (write t r).map (fixedDigits 4 t.year ++ ·)
  | '%' :: 'm' :: r => (write t r).map (fixedDigits 2 t.month ++ ·)
  | '%' :: 'd' :: r => (write t r).map (fixedDigits 2 t.day ++ ·)
  | '%' :: 'H' :: r => (write t r).map (fixedDigits 2 t.hour ++ ·)
  | '%' :: 'M' :: r => (write t r).map (fixedDigits 2 t.minute ++ ·)
  | '%' :: 'S' :: r => (write t r).map (fixedDigits 2 t.second ++ ·)
  | '%' :: 'f' :: r => (write t r).map (fixedDigits 6 t.micro ++ ·)
  | '%' :: '%' :: r => (write t r).map ('%' :: ·)
  | '%' :: _ => none
  | c :: r => (write t r).map (c :: ·)

/-- The letters after the `%` signs of a format, in order. -/
def letters : Str → List Char
  | [] => []
  | '%' :: '%' :: r => letters r
  | '%' :: c :: r => c :: letters r
  | _ :: r => letters r

/-- The date with every field the format does not mention set to its default
(1900-01-01 00:00:00). -/
def mentioned (format : Str) (t : DateTime) : DateTime where
  year := if 'Y' ∈ letters format then t.year else 1900
  month := if 'm' ∈ letters format then t.month else 1
  day := if 'd' ∈ letters format then t.day else 1
  hour := if 'H' ∈ letters format then t.hour else 0
  minute := if 'M' ∈ letters format then t.minute else 0
  second := if 'S' ∈ letters format then t.second else 0
  micro := if 'f' ∈ letters format then t.micro else 0

/-- The number written by some digits. -/
def digitsValue (s : Str) : ℕ := s.foldl (fun a c => 10 * a + (digitVal? c).getD 0) 0

/-- Between `lo` and `hi` digits. -/
def DigitText (lo hi : ℕ) (s : Str) : Prop := lo ≤ s.length ∧ s.length ≤ hi ∧ ∀ c ∈ s, isDigit c = true

/-- Equal up to the case of ASCII letters. -/
def SameLetter (a b : Char) : Prop :=
  a = b ∨ (('A' ≤ a ∧ a ≤ 'Z') ∧ b.toNat = a.toNat + 32) ∨ (('A' ≤ b ∧ b ≤ 'Z') ∧ a.toNat = b.toNat + 32)

/-- `Says format text t`: `text` is an instance of `format`, and where the format has a directive the
text has the number that `t` has in that field (`%d` may have a blank in place of the leading zero,
`%f` may leave out trailing zeros). -/
inductive Says (t : DateTime) : Str → Str → Prop
  | done : Says t [] []
  | year {f s a} : Says t f s → DigitText 4 4 a → digitsValue a = t.year → Says t ('%' :: 'Y' :: f) (a ++ s)
  | month {f s a} : Says t f s → DigitText 1 2 a → digitsValue a = t.month → Says t ('%' :: 'm' :: f) (a ++ s)
  | day {f s a} : Says t f s → DigitText 1 2 a → digitsValue a = t.day → Says t ('%' :: 'd' :: f) (a ++ s)
  | blankDay {f s a} : Says t f s → DigitText 1 1 a → digitsValue a = t.day → Says t ('%' :: 'd' :: f) (' ' :: a ++ s)
  | hour {f s a} : Says t f s → DigitText 1 2 a → digitsValue a = t.hour → Says t ('%' :: 'H' :: f) (a ++ s)
  | minute {f s a} : Says t f s → DigitText 1 2 a → digitsValue a = t.minute → Says t ('%' :: 'M' :: f) (a ++ s)
  | second {f s a} : Says t f s → DigitText 1 2 a → digitsValue a = t.second → Says t ('%' :: 'S' :: f) (a ++ s)
  | micro {f s a} : Says t f s → DigitText 1 6 a → digitsValue a * 10 ^ (6 - a.length) = t.micro →
      Says t ('%' :: 'f' :: f) (a ++ s)
  | percent {f s} : Says t f s → Says t ('%' :: '%' :: f) ('%' :: s)
  | char {f s a c} : Says t f s → SameLetter a c → c ≠ '%' → ¬ White c → Says t (c :: f) (a :: s)
  | white {f s u v} : Says t f s → (∀ c ∈ u, White c) → u ≠ [] → (∀ c ∈ v, White c) → v ≠ [] →
      Says t (u ++ f) (v ++ s)

/-- What follows does not continue a number: the format ends, or goes on with a character that is not a digit. -/
def NumberEnds (f : Str) : Prop := f = [] ∨ (∃ r, f = '%' :: '%' :: r) ∨ ∃ c r, f = c :: r ∧ c ≠ '%' ∧ isDigit c = false

/-- In the format no directive but `%Y` (which is exactly four digits) is directly followed by another one or by a
digit, so that it is clear where numbers end. -/
inductive Separated : Str → Prop
  | done : Separated []
  | dir {c r} : c ≠ '%' → c = 'Y' ∨ NumberEnds r → Separated r → Separated ('%' :: c :: r)
  | percent {r} : Separated r → Separated ('%' :: '%' :: r)
  | char {c r} : c ≠ '%' → Separated r → Separated (c :: r)

end Verif.Spec
