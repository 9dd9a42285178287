import Verif.Spec.Node
import Verif.Spec.Replica
/-!
# Nodes that get the same requests

Unlike in `Spec/Replica.lean` the code a transaction runs is not part of what is asked for: each node finds it in its
own state.
-/
namespace Verif.Lang
open Verif Verif.Spec

/-- What nodes are asked to do. -/
inductive Request where
  /-- execute a transaction; the field `code` of `t` is not looked at -/
  | tx (cfg : ExecCfg) (t : Tx)
  /-- apply a block -/
  | apply (nanos : Int)
  | commit
  | rollback

/-- The transaction with the code that the node has in its state `d`. -/
def Request.load (N : Node) (H : Host) (n : Nat) (d : Driver) (t : Tx) : Tx := { t with code := N.codeFor H n d t.contract t.function }

/-- The step a node in the state `d` makes. -/
def Request.step (N : Node) (H : Host) (n : Nat) (d : Driver) : Request → NodeOp
  | .tx cfg t => .tx cfg (Request.load N H n d t)
  | .apply nanos => .apply nanos
  | .commit => .commit
  | .rollback => .rollback

/-- The node does what it is asked to. -/
def Request.run (N : Node) (H : Host) (n : Nat) (w : World) (q : Request) : Report × World := (q.step N H n w.driver).run H w

/-- The reports of a node that runs without any disturbance, and its final state. -/
def smooth (N : Node) (H : Host) (n : Nat) (w : World) : List Request → List Report × World
  | [] => ([], w)
  | q :: qs => ((q.run N H n w).1 :: (smooth N H n (q.run N H n w).2 qs).1, (smooth N H n (q.run N H n w).2 qs).2)

/-- What a node may live through: the requests in order, and between any two of them cache entries may expire or be
evicted, and, when nothing is pending, the process may be restarted on its disk. -/
inductive NodeLives (N : Node) (H : Host) (n : Nat) : World → List Request → List Report → World → Prop where
  | stop (w : World) : NodeLives N H n w [] [] w
  | step {w w' : World} {q : Request} {qs : List Request} {rs : List Report} :
      NodeLives N H n (q.run N H n w).2 qs rs w' → NodeLives N H n w (q :: qs) ((q.run N H n w).1 :: rs) w'
  | evict {w w' : World} {qs : List Request} {rs : List Report} (keep : Str → Bool) :
      NodeLives N H n { w with driver := w.driver.evict keep } qs rs w' → NodeLives N H n w qs rs w'
  | restart {w w' : World} {qs : List Request} {rs : List Report} :
      w.driver.pendingWrites = [] → w.driver.pendingReads = [] →
      NodeLives N H n { driver := .open w.driver.disk } qs rs w' → NodeLives N H n w qs rs w'

/-- Neither `.all` nor `.clear` is mentioned. -/
def Listless (m : Module) : Prop := ∀ t ∈ m, t.All (fun _ => True) (fun a => a ≠ py! "all" ∧ a ≠ py! "clear")

/-- Only contracts without listings are submitted and deployed (other sources and code objects are as if they could not
be read). -/
structure NoListings (N : Node) : Prop where
  read : ∀ {source m}, N.read source = some m → Listless m
  load : ∀ {blob m}, N.load blob = some m → Listless m

/-- What is asked for, given the undisturbed run: calls of public functions with fair arguments, `execute` returns (as
opposed to raising an exception), and what is pending when a block is applied or committed are stable values under plain keys. -/
def Orderly (N : Node) (H : Host) (n : Nat) (w : World) : List Request → Prop
  | [] => True
  | q :: qs =>
    (match q with
      | .tx cfg t => t.autoCommit = false ∧ startsWith t.function (py! "__") = false ∧
          (t.contract = py! "submission" → ∀ kwargs, fixKwargs t.kwargs = .ok kwargs → FairArgs N kwargs) ∧ PlainFees cfg ∧
          ∃ o, (execute H cfg (Request.load N H n w.driver t) w).1 = .ok o
      | .apply _ | .commit => StablePending w.driver
      | .rollback => True) ∧
    Orderly N H n (q.run N H n w).2 qs

end Verif.Lang
