import Verif.Spec.Reads
import Verif.Spec.Replica
/-!
# Transactions one after the other, in any order
-/
namespace Verif.Spec

/-- Transactions executed one after the other, with their outputs. -/
inductive Executed (H : Host) : World → List (ExecCfg × Tx) → List Output → World → Prop where
  | stop (w : World) : Executed H w [] [] w
  | tx {w w1 w' : World} {cfg : ExecCfg} {t : Tx} {o : Output} {ts : List (ExecCfg × Tx)} {os : List Output} :
      execute H cfg t w = (.ok o, w1) → Executed H w1 ts os w' → Executed H w ((cfg, t) :: ts) (o :: os) w'

/-- A transaction, and what it does on its own. -/
structure Trial where
  cfg : ExecCfg
  tx : Tx
  out : Output
  after : World

/-- The transaction was tried in the state `w`. -/
structure Trial.Of (H : Host) (w : World) (r : Trial) : Prop where
  ran : execute H r.cfg r.tx w = (.ok r.out, r.after)
  stack : r.after.stack = []
  blind : r.tx.code.All CacheBlind
  manual : r.tx.autoCommit = false

/-- The first transaction leaves alone what is pending under keys that the second one reports as read. -/
def Undisturbing (w : World) (r s : Trial) : Prop :=
  ∀ k, Reads s.out k → Dict.get? r.after.driver.pendingWrites k = Dict.get? w.driver.pendingWrites k

end Verif.Spec
