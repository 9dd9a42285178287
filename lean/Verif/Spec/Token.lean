import Verif.Model.Token
import Verif.Spec.Guard
import Verif.Spec.Decimal
import Mathlib.Algebra.BigOperators.Group.Finset.Basic
import Mathlib.Data.Rat.Defs
/-!
# Money: what the entries of `balances` mean, and their total
-/
namespace Verif.Spec

/-- The amount a stored value stands for: nothing is zero, an int is itself, a contract decimal its value. -/
inductive Money : PyVal → ℚ → Prop where
  | absent : Money .none 0
  | int (i : ℤ) : Money (.int i) i
  | dec {d : Dec} : IsCD d → Money (.dec d) d.val

/-- The balance of account `a` in a state of the token contract. -/
def Holds (s : Str → Except PyErr PyVal) (a : Str) (q : ℚ) : Prop :=
  ∃ v, s (py! "balances:" ++ a) = .ok v ∧ Money v q

/-- All balances (of accounts with plain names) are amounts of money, none is negative, only finitely many accounts
have any, and together they have `T`, which is less than `10^29`, the largest decimal. -/
def Supply (s : Str → Except PyErr PyVal) (T : ℚ) : Prop :=
  ∃ (bal : Str → ℚ) (S : Finset Str), (∀ a, Plain a → Holds s a (bal a) ∧ 0 ≤ bal a) ∧ (∀ a ∈ S, Plain a) ∧
    (∀ a, Plain a → a ∉ S → bal a = 0) ∧ ∑ a ∈ S, bal a = T ∧ T < 10 ^ 29

/-- Two programs do the same in every state: same result, same state after. -/
def Does (p q : Prog) : Prop := ∀ H w, p.run H w = q.run H w

/-- On amounts, comparison, subtraction and addition are those of ints and contract decimals. -/
def Exact (N : Token.Nums) : Prop :=
  ∀ a b p q, Money a p → Money b q → N.ge a b = Token.numGe a b ∧ N.sub a b = Token.numSub a b ∧ N.add a b = Token.numAdd a b

/-- The functions the token contract exports: `balance`, and `transfer` of an amount that is not negative to an
account with a plain name. Called with wrong arguments they raise. -/
def TokenFn (c : Str) (body : Prog) : Prop :=
  (∃ e, Does body (.raise e)) ∨
  (∃ cost account, Does body (Token.balance c cost account)) ∨
  ∃ N cost amount dst q, Exact N ∧ Money amount q ∧ 0 ≤ q ∧ amount ≠ .none ∧ Plain dst.text ∧
    Does body (Token.transfer N c cost amount dst)

/-- A history of a node on which `c` is the currency, and an upper bound of the fees due in it: transactions by
senders with plain names, made of arbitrary code that calls the token contract; blocks, commits, rollbacks, expiring
caches, restarts. -/
inductive Circulates (H : Host) (c : Str) (disk : Disk) : World → ℚ → Prop where
  | start : Circulates H c disk { driver := .open disk } 0
  | tx {w w' : World} {D fee : ℚ} {cfg : ExecCfg} {tx : Tx} {o : Output} : Circulates H c disk w D →
      w.stack = [] → Plain tx.sender → tx.autoCommit = false → TxOutside c (TokenFn c) tx →
      (tx.metered cfg = true → cfg.currency = c ∧ cfg.balances = py! "balances" ∧
        ∃ d, cdOfStr (H.fdiv o.stampsUsed tx.stampCost).text = .ok d ∧ d.val = fee) → 0 ≤ fee →
      execute H cfg tx w = (.ok o, w') → Circulates H c disk w' (D + fee)
  | apply {w : World} {D : ℚ} (nanos : Int) : Circulates H c disk w D → Settled c w.driver →
      Circulates H c disk { w with driver := (w.driver.hardApply nanos).2 } D
  | commit {w : World} {D : ℚ} : Circulates H c disk w D → Settled c w.driver →
      Circulates H c disk { w with driver := w.driver.commit.2 } D
  | rollback {w : World} {D : ℚ} : Circulates H c disk w D → Circulates H c disk { w with driver := w.driver.rollback } D
  | evict {w : World} {D : ℚ} (keep : Str → Bool) : Circulates H c disk w D →
      Circulates H c disk { w with driver := w.driver.evict keep } D
  | restart {w : World} {D : ℚ} : Circulates H c disk w D → w.driver.pendingWrites = [] →
      Circulates H c disk { driver := .open w.driver.disk } D

end Verif.Spec
