import Verif.Spec.Runtime
/-!
# Stamps a sender can pay for
-/
namespace Verif

/-- The funds check of the transaction (executor.py:73-92) passes for this number of stamps. -/
def Spec.FundsFor (cfg : ExecCfg) (tx : Tx) (w : World) (stamps : Int) : Prop :=
  ∃ balance, (if cfg.bypassBalance then balance = .int 9999999 else w.driver.find (balanceKey cfg tx.sender) = .ok balance) ∧
    hasFunds balance tx.stampCost stamps = .ok true

/-- The two outputs are those of the same execution: they differ at most in the fee. -/
structure Spec.SameButFee (cfg : ExecCfg) (tx : Tx) (o o' : Output) : Prop where
  result : o'.result = o.result
  events : o'.events = o.events
  writes : ∀ k, k ≠ balanceKey cfg tx.sender → Dict.get? o'.writes k = Dict.get? o.writes k

end Verif
