import Verif.Spec.Runtime
import Verif.Spec.Transaction
import Verif.Spec.Driver
import Verif.Spec.Keys
import Verif.Spec.Replica
/-!
# A contract and the code around it

`c` is the contract of interest, `F` says what the bodies of its exported functions are. Everything else -- other
contracts, the code that calls them, modules loaded on the way -- is arbitrary code that has no storage object of
`c` to write with.
-/
namespace Verif.Spec

/-- The state of contract `c`, as it is read: for each name (`balances:alice`) what a read of `c.name` gives. -/
def stateOf (c : Str) (d : Driver) (n : Str) : Except PyErr PyVal := (d.get (c ++ '.' :: n)).1

/-- The call writes nothing under `c`: its storage object, if it has one, is not one of `c`'s. -/
def Spares (c : Str) : Action → Prop
  | .varSet x _ => ¬ Under c x.key
  | .hashSet h _ _ => ∀ s, ¬ Under c (h.key ++ ':' :: s)
  | .hashClear h _ => ∀ s, ¬ Under c (h.key ++ ':' :: s)
  | .mutate k _ _ _ => ¬ Under c k
  | .rawSet k _ => ¬ Under c k
  | _ => True

/-- Code outside of `c`: it writes nothing under `c`; where it calls an exported function of `c` the body is in `F`,
and so may be the bodies of other functions it calls, which otherwise are such code again. -/
def Outside (c : Str) (F : Prog → Prop) : Prog → Prop
  | .ret _ => True
  | .raise _ => True
  | .act a k => Spares c a ∧ ∀ r, Outside c F (k r)
  | .call c' body k => (c' = c → F body) ∧ (c' ≠ c → F body ∨ Outside c F body) ∧ ∀ r, Outside c F (k r)
  | .load _ _ body k => Outside c F body ∧ ∀ r, Outside c F (k r)

/-- Whatever the state, a body that returns leaves the state of `c` in relation `R` to what it was. -/
def KeepsState (H : Host) (c : Str) (R : (Str → Except PyErr PyVal) → (Str → Except PyErr PyVal) → Prop) (body : Prog) : Prop :=
  ∀ w v w', body.run H w = (.ok v, w') → R (stateOf c w.driver) (stateOf c w'.driver)

/-- Everybody who is a signer in the context of this state is one of `A`. -/
def SignersIn (A : Str → Prop) (w : World) : Prop :=
  (∀ s, w.base.signer = some s → A s) ∧ ∀ f ∈ w.stack, ∀ s, f.1.signer = some s → A s

/-- The same for calls on behalf of signers from `A` only. -/
def KeepsFor (A : Str → Prop) (H : Host) (c : Str) (R : (Str → Except PyErr PyVal) → (Str → Except PyErr PyVal) → Prop)
    (body : Prog) : Prop :=
  ∀ w v w', SignersIn A w → body.run H w = (.ok v, w') → R (stateOf c w.driver) (stateOf c w'.driver)

/-- A transaction made of such code: the module's top level and the function it calls, no exception is caught
(contracts cannot, C40), and no object stored under `c` is changed in place. -/
structure TxOutside (c : Str) (F : Prog → Prop) (tx : Tx) : Prop where
  top : Outside c F tx.code.top
  fn : ∀ fn kwargs, tx.code.fn = some fn → fixKwargs tx.kwargs = .ok kwargs → Outside c F (entryProg tx fn kwargs)
  topNoCatch : tx.code.top.NoCatch
  fnNoCatch : ∀ fn, tx.code.fn = some fn → ∀ kwargs, (fn.2 kwargs).NoCatch
  noMutate : ∀ n, tx.code.All (Action.NoMutate (c ++ '.' :: n))

/-- What is pending when a block is applied or committed: stable values under plain keys, and no deletion under
`c` (a deletion is read as the old value until then, C16/C17). -/
def Settled (c : Str) (d : Driver) : Prop :=
  ∀ p ∈ d.pendingWrites, PlainKey p.1 ∧ Stable p.2 ∧ (Under c p.1 → p.2 ≠ .none)

/-- A history of a node around contract `c`: transactions made of code outside of `c`, whose fees are not paid out
of `c`; blocks applied, commits, rollbacks; cache entries expiring; restarts when nothing is pending. -/
inductive Around (H : Host) (c : Str) (F : Prog → Prop) : World → World → Prop where
  | start (w : World) : Around H c F w w
  | tx {w0 w w' : World} {cfg : ExecCfg} {tx : Tx} {o : Output} : Around H c F w0 w → tx.autoCommit = false →
      TxOutside c F tx → (tx.metered cfg = true → ¬ Under c (balanceKey cfg tx.sender)) →
      execute H cfg tx w = (.ok o, w') → Around H c F w0 w'
  | apply {w0 w : World} (nanos : Int) : Around H c F w0 w → Settled c w.driver →
      Around H c F w0 { w with driver := (w.driver.hardApply nanos).2 }
  | commit {w0 w : World} : Around H c F w0 w → Settled c w.driver →
      Around H c F w0 { w with driver := w.driver.commit.2 }
  | rollback {w0 w : World} : Around H c F w0 w → Around H c F w0 { w with driver := w.driver.rollback }
  | evict {w0 w : World} (keep : Str → Bool) : Around H c F w0 w →
      Around H c F w0 { w with driver := w.driver.evict keep }
  | restart {w0 w : World} : Around H c F w0 w → w.driver.pendingWrites = [] →
      Around H c F w0 { driver := .open w.driver.disk }

end Verif.Spec
