import Verif.Model.Runtime
import Verif.Model.Decimal
/-!
# The token contract as it runs

`tests/integration/test_contracts/currency.s.py`, statement by statement, on the storage and the metering of the
runtime. It is the contract whose balances the executor charges (executor.py:74-78, 163-180).
-/
namespace Verif.Token
open Verif

/-- currency.s.py:1 `balances = Hash()`; the compiler adds the contract and the name (C44). -/
def balances (c : Str) : HashVar := .make c (py! "balances")

/-- `a >= b` for ints and contract decimals: `int.__ge__`, bridge/decimal.py:88-89 `__ge__`, and 82-83 `__le__` of the
right operand when only that one is a decimal; 53-58 `_get_other` turns ints into decimals. `None >= b` and other
types end in a `TypeError` (`numGe`, `numSub`, `numAdd` are meant for amounts: ints, decimals, `None`). -/
def numGe : PyVal → PyVal → Except PyErr Bool
  | .int a, .int b => .ok (decide (a ≥ b))
  | .dec a, .dec b => .ok (cdGe a b)
  | .dec a, .int b => cdGeInt a b
  | .int a, .dec b => (cdOfInt a).map fun x => cdLe b x
  | _, _ => .error .typeError

/-- `a - b`: `int.__sub__`, bridge/decimal.py:112-116 `__sub__`, `__rsub__`. -/
def numSub : PyVal → PyVal → Except PyErr PyVal
  | .int a, .int b => .ok (.int (a - b))
  | .dec a, .dec b => (cdSub a b).map .dec
  | .dec a, .int b => (cdOfInt b).bind fun y => (cdSub a y).map .dec
  | .int a, .dec b => (cdOfInt a).bind fun x => (cdSub x b).map .dec
  | _, _ => .error .typeError

/-- `a + b`: `int.__add__`, bridge/decimal.py:106-110 `__add__`, `__radd__`. -/
def numAdd : PyVal → PyVal → Except PyErr PyVal
  | .int a, .int b => .ok (.int (a + b))
  | .dec a, .dec b => (cdAdd a b).map .dec
  | .dec a, .int b => (cdOfInt b).bind fun y => (cdAdd a y).map .dec
  | .int a, .dec b => (cdOfInt a).bind fun x => (cdAdd x b).map .dec
  | _, _ => .error .typeError

/-- Comparison and arithmetic on whatever is stored and passed. -/
structure Nums where
  ge : PyVal → PyVal → Except PyErr Bool
  sub : PyVal → PyVal → Except PyErr PyVal
  add : PyVal → PyVal → Except PyErr PyVal

/-- Those above. -/
def nums : Nums := ⟨numGe, numSub, numAdd⟩

/-- A source line: the tracer charges for it (tracer.py:88-131). What it costs is left open. -/
def tick (cost : Nat → Nat × Nat) (n : Nat) (k : Prog) : Prog :=
  .act (.line true (cost n).1 (cost n).2) fun
    | .ok _ => k
    | .error e => .raise e

/-- `balances[a]` (orm.py:120-122); `a` is anything but a tuple. -/
def getB (c : Str) (a : Comp) (k : PyVal → Prog) : Prog :=
  .act (.hashGet (balances c) (.one a)) fun
    | .ok v => k v
    | .error e => .raise e

/-- `balances[a] = v` (orm.py:115-118). -/
def setB (c : Str) (a : Comp) (v : PyVal) (k : Prog) : Prog :=
  .act (.hashSet (balances c) (.one a) v) fun
    | .ok _ => k
    | .error e => .raise e

/-- Use the result of a computation that may raise. -/
def useR {α : Type} (r : Except PyErr α) (k : α → Prog) : Prog :=
  match r with
  | .ok v => k v
  | .error e => .raise e

/-- currency.s.py:11-18: the rest of `transfer`, with the line numbers of the file. -/
def transferFrom (N : Nums) (c : Str) (cost : Nat → Nat × Nat) (amount : PyVal) (dst sender : Comp) : Prog :=
  tick cost 11 <| getB c sender fun b => useR (N.ge b amount) fun enough =>
  if enough then
    tick cost 13 <| getB c sender fun b => useR (N.sub b amount) fun v => setB c sender v <|
    tick cost 15 <| getB c dst fun t =>
    if t.isNone then tick cost 16 <| setB c dst amount (.ret .none)
    else tick cost 18 <| getB c dst fun t => useR (N.add t amount) fun v => setB c dst v (.ret .none)
  else .raise .assertion

/-- currency.s.py:9-18 `transfer(amount, to)`. (`ctx.signer` is a string in a transaction, executor.py:102, and `None`
outside of one; there is no third case.) -/
def transfer (N : Nums) (c : Str) (cost : Nat → Nat × Nat) (amount : PyVal) (dst : Comp) : Prog :=
  tick cost 10 <| .act .ctxSigner fun
    | .ok (.str sender) => transferFrom N c cost amount dst (.str sender)
    | .ok .none => transferFrom N c cost amount dst (.other (py! "None"))
    | .ok _ => .raise .typeError
    | .error e => .raise e

/-- currency.s.py:20-22 `balance(account)`. -/
def balance (c : Str) (cost : Nat → Nat × Nat) (account : Comp) : Prog :=
  tick cost 22 <| getB c account fun v => .ret v

end Verif.Token
