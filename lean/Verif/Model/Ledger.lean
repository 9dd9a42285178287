import Verif.Model.Decimal
/-!
# The token contract used throughout the repository's tests

`tests/integration/test_contracts/currency.s.py:8-20` (`transfer`): the typical client of contract
decimals.  Balances are contract decimals (the amount argument may be any decimal).
-/
namespace Verif

/-- The `balances` hash: account to balance. -/
abbrev Ledger := Dict Str Dec

/-- currency.s.py:8-20 `transfer(amount, to)` called by `sender`.  A missing sender balance compares
`None >= amount`, a `TypeError`. -/
def Ledger.transfer (l : Ledger) (sender to : Str) (amount : Dec) : Except PyErr Ledger :=
  match Dict.get? l sender with
  | none => .error .typeError
  | some a =>
    if ¬ cdGe a amount = true then .error .assertion
    else do
      let a' ← cdSub a amount
      let l1 := Dict.set l sender a'
      match Dict.get? l1 to with
      | none => .ok (Dict.set l1 to amount)
      | some b =>
        match cdAdd b amount with
        | .error e => .error e
        | .ok b' => .ok (Dict.set l1 to b')

/-- A sequence of transactions; a failing transaction is rolled back (executor.py:150). -/
def Ledger.runAll (l : Ledger) : List (Str × Str × Dec) → Ledger
  | [] => l
  | (s, t, x) :: txs =>
    match Ledger.transfer l s t x with
    | .ok l' => Ledger.runAll l' txs
    | .error _ => Ledger.runAll l txs

end Verif
