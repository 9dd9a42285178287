import Verif.Model.Node
import Verif.Spec.Lang
import Verif.Spec.Submission
/-!
# Nodes on which everything is deployed through `submission`
-/
namespace Verif.Lang
open Verif

/-- Storage is declared under identifiers. -/
def Declares (m : Module) : Prop := ∀ x cls kws, Top.decl x cls kws ∈ m → Spec.Plain x

/-- The code object is the compiled form, for `c`, of a source that the compiler accepts under this name and that
constructs storage in declarations only. -/
def Genuine (N : Node) (c : Str) (blob : List (Fin 256)) : Prop :=
  ∃ m, Spec.Accepted N.info c (moduleAst m) ∧ Disciplined m ∧ Declares m ∧ N.load blob = some (compileModule c m)

/-- Running the code object of a written text means running the module it was written from. -/
def RoundTrip (N : Node) : Prop :=
  ∀ source m name blob, N.read source = some m → Spec.Accepted N.info name (moduleAst m) →
    N.marshal (N.write (compileModule name m)) = .ok blob → N.load blob = some (compileModule name m)

/-- All code on this disk is genuine; the submission contract is the node's own. -/
def GenuineDisk (N : Node) (disk : Disk) : Prop :=
  ∀ c v, Spec.Plain c → c ≠ py! "submission" → disk.get (locOf (compiledKey c)) = .ok v → v ≠ .none →
    ∃ blob, v = .bytes blob ∧ Genuine N c blob

/-- The same for what is read in this state. -/
def GenuineState (N : Node) (d : Driver) : Prop :=
  ∀ c v, Spec.Plain c → c ≠ py! "submission" → d.find (compiledKey c) = .ok v → v ≠ .none →
    ∃ blob, v = .bytes blob ∧ Genuine N c blob

/-- The arguments of calls of `submission`: contracts get plain names other than `submission`, sources construct storage
in declarations only; developers change for plain names. (Without this: `C52_refuted`, `C93_refuted`.) -/
def FairArgs (N : Node) (kwargs : Dict Str PyVal) : Prop :=
  (∀ name, dget kwargs (py! "name") = .str name → Spec.Plain name ∧ name ≠ py! "submission") ∧
  (∀ source m, dget kwargs (py! "code") = .str source → N.read source = some m → Disciplined m ∧ Declares m) ∧
  ∀ contract, dget kwargs (py! "contract") = .str contract → Spec.Plain contract

/-- A transaction on such a node: it calls a public function, and the code is what the state says. -/
structure NodeTx (N : Node) (H : Host) (d : Driver) (tx : Tx) : Prop where
  auto : tx.autoCommit = false
  pub : startsWith tx.function (py! "__") = false
  code : ∃ n, tx.code = N.codeFor H n d tx.contract tx.function
  fair : tx.contract = py! "submission" → ∀ kwargs, fixKwargs tx.kwargs = .ok kwargs → FairArgs N kwargs

/-- Fees are paid out of a hash of a contract with a plain name. -/
def PlainFees (cfg : ExecCfg) : Prop := Spec.Plain cfg.currency ∧ Spec.VarName cfg.balances

/-- What is pending when a block is applied or committed: stable values under plain keys. -/
def StablePending (d : Driver) : Prop := ∀ p ∈ d.pendingWrites, Spec.PlainKey p.1 ∧ Spec.Stable p.2

/-- A history of such a node: anybody submits contracts and calls what is deployed; blocks, commits, rollbacks,
expiring caches, restarts. `fees` and `settled` are further conditions, on the transactions and on
what is pending when it is written to disk. -/
inductive NodeHistory (N : Node) (H : Host) (fees : ExecCfg → Tx → Prop) (settled : Driver → Prop) : World → World → Prop where
  | start (w : World) : NodeHistory N H fees settled w w
  | tx {w0 w w' : World} {cfg : ExecCfg} {tx : Tx} {o : Output} : NodeHistory N H fees settled w0 w →
      NodeTx N H w.driver tx → PlainFees cfg → fees cfg tx →
      execute H cfg tx w = (.ok o, w') → NodeHistory N H fees settled w0 w'
  | apply {w0 w : World} (nanos : Int) : NodeHistory N H fees settled w0 w → StablePending w.driver → settled w.driver →
      NodeHistory N H fees settled w0 { w with driver := (w.driver.hardApply nanos).2 }
  | commit {w0 w : World} : NodeHistory N H fees settled w0 w → StablePending w.driver → settled w.driver →
      NodeHistory N H fees settled w0 { w with driver := w.driver.commit.2 }
  | rollback {w0 w : World} : NodeHistory N H fees settled w0 w →
      NodeHistory N H fees settled w0 { w with driver := w.driver.rollback }
  | evict {w0 w : World} (keep : Str → Bool) : NodeHistory N H fees settled w0 w →
      NodeHistory N H fees settled w0 { w with driver := w.driver.evict keep }
  | restart {w0 w : World} : NodeHistory N H fees settled w0 w → w.driver.pendingWrites = [] →
      NodeHistory N H fees settled w0 { driver := .open w.driver.disk }

/-- Two states of a contract differ at most in who its developer is. -/
def SameButDeveloper (s t : Str → Except PyErr PyVal) : Prop := ∀ n, n ≠ py! "__developer__" → s n = t n

end Verif.Lang
