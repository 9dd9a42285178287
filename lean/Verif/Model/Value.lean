import Verif.Model.Decimal
import Verif.Model.Time
/-!
# Python values that contracts store

`str`, `int`, `bool`, `None`, `bytes`, `float`, `ContractingDecimal`, `Datetime`, `Timedelta`,
`list`, `tuple`, `dict` and "any other object" (`obj`).

Simplifications: a float is carried as its `repr` text split into sign / integer part / fraction /
exponent (`FloatTok`), which determines it; dict keys are `str`, `int`, `bool` or `None`;
a `Timedelta` is its normalised `(days, seconds)`.
-/
namespace Verif

/-- The text of a Python float (`float.__repr__`). -/
inductive FloatTok where
  | lit (neg : Bool) (ip : Nat) (frac : Str) (exp : Option (Str × Str))
  | nan
  | inf (neg : Bool)
  deriving DecidableEq, Repr

/-- Dict keys that `json.dumps` accepts (float keys not modelled). -/
inductive PyKey where
  | str (s : Str)
  | int (i : Int)
  | bool (b : Bool)
  | none
  deriving DecidableEq, Repr

/-- Python values. -/
inductive PyVal where
  | none
  | bool (b : Bool)
  | int (i : Int)
  | flt (t : FloatTok)
  | str (s : Str)
  | bytes (bs : List (Fin 256))
  | dec (d : Dec)
  | time (t : DateTime)
  | delta (days seconds : Int)
  | list (xs : List PyVal)
  | tuple (xs : List PyVal)
  | dict (kvs : List (PyKey × PyVal))
  | obj (tag : Nat)
  deriving Repr

end Verif
