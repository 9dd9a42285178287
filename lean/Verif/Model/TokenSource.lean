import Verif.Model.Lang
/-!
# The source of the token contract

`tests/integration/test_contracts/currency.s.py` as a tree of the contract language, line by line. What it does is said
by the compiler (`Model/Lang.lean`) and the interpreter (`Model/Interp.lean`); `Model/Token.lean` says the same directly.
-/
namespace Verif.Lang.Currency
open Verif

/-- `balances[i]`. -/
def entry (i : Expr) : Expr := .sub (.name (py! "balances")) i

/-- currency.s.py:3-6 `seed`. -/
def seed : Fun :=
  { name := py! "seed", args := [], deco := .construct, body := [
    .assignSub (.name (py! "balances")) (.const (.str (py! "stu"))) (.const (.int 1000000)),
    .assignSub (.name (py! "balances")) (.const (.str (py! "colin"))) (.const (.int 100))] }

/-- currency.s.py:8-18 `transfer`. -/
def transfer : Fun :=
  { name := py! "transfer", args := [(py! "amount", some (py! "int")), (py! "to", some (py! "str"))], deco := .export, body := [
    .assign (py! "sender") (.attr (.name (py! "ctx")) (py! "signer")),
    .assert (.op (.cmp (py! "GtE")) [entry (.name (py! "sender")), .name (py! "amount")]) [.const (.str (py! "Not enough coins to send!"))],
    .augSub (py! "Sub") (.name (py! "balances")) (.name (py! "sender")) (.name (py! "amount")),
    .ite (.op (.cmp (py! "Is")) [entry (.name (py! "to")), .const .none])
      [.assignSub (.name (py! "balances")) (.name (py! "to")) (.name (py! "amount"))]
      [.augSub (py! "Add") (.name (py! "balances")) (.name (py! "to")) (.name (py! "amount"))]] }

/-- currency.s.py:20-22 `balance`. -/
def balance : Fun :=
  { name := py! "balance", args := [(py! "account", some (py! "str"))], deco := .export, body := [
    .ret [entry (.name (py! "account"))]] }

/-- currency.s.py, the whole file. -/
def source : Module :=
  [.decl (py! "balances") (py! "Hash") [], .def seed, .def transfer, .def balance]

end Verif.Lang.Currency
