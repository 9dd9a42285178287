import Verif.Model.Submission
import Verif.Spec.Driver
/-!
# What contract code may do to stored contracts
-/
namespace Verif.Spec

/-- The records that must never change once a contract is stored. -/
def fixedRecords : List Str := [py! "__code__", py! "__compiled__", py! "__owner__", py! "__submitted__"]

/-- All records kept about a contract. -/
def records : List Str := py! "__developer__" :: fixedRecords

/-- A name a contract can declare for a variable or hash: an identifier without leading underscore. -/
def VarName (v : Str) : Prop := Plain v ∧ v.head? ≠ some '_'

instance (v : Str) : Decidable (VarName v) := by unfold VarName; infer_instance

/-- The key of a variable, or of a hash entry, declared by a contract whose name satisfies `N`. -/
def UserKey (N : Str → Prop) (k : Str) : Prop :=
  ∃ c v rest, N c ∧ VarName v ∧ (rest = [] ∨ ∃ t, rest = ':' :: t) ∧ k = makeKey c v ++ rest

/-- API calls of contract code: variables and hashes have declared names, and the driver itself is out of
reach. -/
def UserAction (N : Str → Prop) : Action → Prop
  | .varSet x _ => ∃ c v, N c ∧ VarName v ∧ x.key = makeKey c v
  | .hashSet h _ _ => ∃ c v, N c ∧ VarName v ∧ h.key = makeKey c v
  | .hashClear h _ => ∃ c v, N c ∧ VarName v ∧ h.key = makeKey c v
  | .mutate key _ _ _ => UserKey N key
  | .rawGet _ => False
  | .rawSet _ _ => False
  | _ => True

/-- Executions of contract code, among contracts whose names satisfy `N`: API calls of contract code,
calls of other contracts, imports, and calls of the two functions of the submission contract (with
constructors that are themselves contract code). -/
inductive UserProg (H : Host) (T : Toolchain) (N : Str → Prop) : Prog → Prop
  | ret (v) : UserProg H T N (.ret v)
  | raise (e) : UserProg H T N (.raise e)
  | act {a k} : UserAction N a → (∀ r, UserProg H T N (k r)) → UserProg H T N (.act a k)
  | call {c body k} : UserProg H T N body → (∀ r, UserProg H T N (k r)) → UserProg H T N (.call c body k)
  | load {name dyn body k} : UserProg H T N body → (∀ r, UserProg H T N (k r)) →
      UserProg H T N (.load name dyn body k)
  | submit {name code owner top} : N name → UserProg H T N top →
      UserProg H T N (submitContract H T name code owner top)
  | changeDeveloper {contract new} : N contract → UserProg H T N (Verif.changeDeveloper contract new)

/-- All the code a transaction reaches is such code. -/
def UserCode (H : Host) (T : Toolchain) (N : Str → Prop) (c : Code) : Prop :=
  UserProg H T N c.top ∧ ∀ fn, c.fn = some fn → ∀ kwargs, UserProg H T N (fn.2 kwargs)

/-- The contract is stored: reading its code gives something. -/
def HasCode (n : Str) (d : Driver) : Prop := ∃ v, d.find (codeKey n) = .ok v ∧ v ≠ .none

end Verif.Spec

namespace Verif.Spec

/-- What happens to a node between two looks at its state: a transaction, or a call on the driver. -/
inductive NodeStep where
  | tx (cfg : ExecCfg) (t : Tx)
  | commit
  | hardApply (nanos : Int)
  | rollback
  | rollbackTo (nanos : Int)
  | flushCache
  | evict (keep : Str → Bool)

/-- Let it happen (whatever it returned or raised). -/
def NodeStep.run (H : Host) (w : World) : NodeStep → World
  | .tx cfg t => (execute H cfg t w).2
  | .commit => { w with driver := w.driver.commit.2 }
  | .hardApply n => { w with driver := (w.driver.hardApply n).2 }
  | .rollback => { w with driver := w.driver.rollback }
  | .rollbackTo n => { w with driver := w.driver.rollbackTo n }
  | .flushCache => { w with driver := w.driver.flushCache }
  | .evict keep => { w with driver := w.driver.evict keep }

/-- The world after a history. -/
def nodeAfter (H : Host) (w : World) (ss : List NodeStep) : World := ss.foldl (NodeStep.run H) w

/-- Transactions run contract code among contracts without ":" in their names; the currency is one. -/
def NodeStep.OK (H : Host) (T : Toolchain) : NodeStep → Prop
  | .tx cfg t => UserCode H T (fun c => ':' ∉ c) t.code ∧ ':' ∉ cfg.currency ∧ VarName cfg.balances
  | _ => True

end Verif.Spec
