import Verif.Model.TokenSource
import Verif.Spec.Lang
import Verif.Spec.Token
/-!
# What is assumed of Python's data for the token contract
-/
namespace Verif.Lang
open Verif

/-- Python's comparison and arithmetic where the token contract needs it: `>=`, `-` and `+` of ints, contract decimals
and `None`; `is None`; `str(None)`. Nothing is said of other operands. -/
structure Arith (D : Data) : Prop where
  ge : ∀ a b p q, Spec.Money a p → Spec.Money b q → D.op (.cmp (py! "GtE")) [a, b] = (Token.numGe a b).map .bool
  sub : ∀ a b p q, Spec.Money a p → Spec.Money b q → D.op (.bin (py! "Sub")) [a, b] = Token.numSub a b
  add : ∀ a b p q, Spec.Money a p → Spec.Money b q → D.op (.bin (py! "Add")) [a, b] = Token.numAdd a b
  isNone : ∀ a, D.op (.cmp (py! "Is")) [a, .none] = .ok (.bool a.isNone)
  strNone : D.str .none = py! "None"

/-- The operations the contract uses, as `D` has them. -/
def Data.nums (D : Data) : Token.Nums where
  ge := fun a b => (D.op (.cmp (py! "GtE")) [a, b]).map truthy
  sub := fun a b => D.op (.bin (py! "Sub")) [a, b]
  add := fun a b => D.op (.bin (py! "Add")) [a, b]

/-- The arguments of a call by keywords are exactly `ps`. -/
def Given (kwargs : Dict Str PyVal) (ps : List Str) : Prop := (∀ k ∈ kwargs, k.1 ∈ ps) ∧ ∀ p ∈ ps, (Dict.get? kwargs p).isSome = true

/-- What the constructor does: two balances. -/
def Currency.seeded (c : Str) (cost : Nat → Nat × Nat) : Prog :=
  Token.tick cost 5 <| Token.setB c (.str (py! "stu")) (.int 1000000) <|
  Token.tick cost 6 <| Token.setB c (.str (py! "colin")) (.int 100) (.ret .none)

/-- A transaction on the token contract `c`, deployed on chain `C`: any function, any arguments but tuples; an
argument called `amount` is an int or a decimal and not negative, one called `to` is spelled as a plain name. -/
structure TokenTx (C : Chain) (n : Nat) (c : Str) (tx : Tx) : Prop where
  contract : tx.contract = c
  code : tx.code = C.codeFor n c tx.function
  isPublic : startsWith tx.function (py! "__") = false
  amount : ∀ kwargs v, fixKwargs tx.kwargs = .ok kwargs → Dict.get? kwargs (py! "amount") = some v → v ≠ .none ∧ ∃ q, Spec.Money v q ∧ 0 ≤ q
  dst : ∀ kwargs v, fixKwargs tx.kwargs = .ok kwargs → Dict.get? kwargs (py! "to") = some v →
    (∀ vs, v ≠ .tuple vs) ∧ Spec.Plain (compOf C.D v).text
  account : ∀ kwargs v, fixKwargs tx.kwargs = .ok kwargs → Dict.get? kwargs (py! "account") = some v → ∀ vs, v ≠ .tuple vs

end Verif.Lang
