import Verif.Spec.Node
/-!
# Imports of contracts
-/
namespace Verif.Lang
open Verif

/-- The top level of the code of `c` imports `d`. -/
def Imports (code : Str → Option Module) (c d : Str) : Prop := ∃ m a, code c = some m ∧ Top.import d a ∈ m

/-- Imports starting at `c` nest less than `r` deep. -/
inductive Nested (code : Str → Option Module) : Nat → Str → Prop where
  | mk {r c} : (∀ d, Imports code c d → Nested code r d) → Nested code (r + 1) c

/-- `c` is there, and so is, in the end, everything it imports: no import is missing, and none leads back to where it
started. (`submission` is part of every node.) -/
inductive Grounded (code : Str → Option Module) : Str → Prop where
  | submission : Grounded code (py! "submission")
  | mk {c} : code c ≠ none → (∀ d, Imports code c d → Grounded code d) → Grounded code c

end Verif.Lang
