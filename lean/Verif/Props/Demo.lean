import Verif.Proofs.ValueEq
import Verif.Spec.Runtime
/-!
# A concrete process for the examples: a host, a stored contract `con_a`, a rich sender `bob`
-/
namespace Verif.Demo
open Verif

/-- A host without importable modules except `os`; its generator always answers `true`. -/
def host : Host where
  strOf := fun _ => py! "?"
  uniAlnum := fun _ => false
  uniDigit := fun _ => false
  uniLower := fun _ => false
  uniUpper := fun _ => false
  stdlib := fun s => s = py! "os"
  imported := fun s => s = py! "os"
  importable := fun _ => false
  hostCall := fun _ _ => .ok (.int 0)
  bit := fun _ => true
  draw := fun _ _ => .ok (.int 0)
  fdiv := fun a b => .lit (decide (a < 0)) (a.natAbs / b.natAbs) ['0'] none

def conA : Str := py! "con_a"
def bob : Str := py! "bob"
def x : Variable := .make conA (py! "x")
def bobKey : Str := balanceKey {} bob

/-- Stored code of a contract. -/
def stored (c : Str) : Dict Str PyVal :=
  [(makeKey c (py! "__code__"), .str (py! "src")), (makeKey c (py! "__compiled__"), .bytes [])]

/-- A process right after start, on these pending writes. -/
def world (pending : Dict Str PyVal) : World := { driver := { pendingWrites := pending } }

/-- `con_a` is deployed and `bob` has 100. -/
def w0 : World := world (stored conA ++ [(bobKey, .int 100)])

/-- Continue with a fixed program, letting exceptions through. -/
def andThen (p : Prog) : Except PyErr PyVal → Prog
  | .ok _ => p
  | .error e => .raise e

/-- One API call, then `p`. -/
def step (a : Action) (p : Prog) : Prog := .act a (andThen p)

/-- A transaction of `bob` calling an exported function of `con_a` that behaves like `p`. -/
def tx (p : Prog) : Tx :=
  { sender := bob, contract := conA, function := py! "f", stamps := 50, stampCost := 1,
    code := { top := .ret .none, fn := some (true, fun _ => p) } }

end Verif.Demo
