import Verif.Spec.Lang
/-!
# Contracts that never list or clear a hash
-/
namespace Verif.Lang
open Verif

/-- The source mentions no attribute `all` or `clear`. -/
def NeverLists (m : Module) : Prop := ∀ t ∈ m, t.All (fun _ => True) (fun a => a ≠ py! "all" ∧ a ≠ py! "clear")

/-- The transaction calls a public name of a deployed contract; the deployed contracts are accepted by the compiler, construct
storage in declarations only and never list or clear a hash. -/
def RunsUnlisted (tx : Tx) : Prop :=
  ∃ (I : PyInfo) (src : Str → Option Module) (C : Chain) (n : Nat), Deployed I src C ∧
    (∀ c m, src c = some m → Disciplined m ∧ NeverLists m) ∧
    startsWith tx.function (py! "__") = false ∧ tx.code = C.codeFor n tx.contract tx.function

end Verif.Lang
