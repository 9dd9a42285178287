import Verif.Spec.Runtime
import Verif.Spec.Keys
/-!
# Nodes that process the same transactions and blocks
-/
namespace Verif.Spec

/-- An API call whose answer cannot depend on which entries the driver happens to have cached: neither a
listing (`Hash.all`, `Hash._items`, `Hash.clear`) nor an in-place change of a stored list or dict. -/
def CacheBlind : Action → Prop
  | .hashAll _ _ | .hashItems _ _ | .hashClear _ _ | .mutate _ _ _ _ => False
  | _ => True

/-- An API call that does not delete an entry (by storing `None`). -/
def KeepsKeys : Action → Prop
  | .varSet _ v | .hashSet _ _ v | .rawSet _ v => v.isNone = false
  | .hashClear _ _ => False
  | _ => True

/-- A value that is exactly the same object after its JSON text has been read back. -/
def Stable (v : PyVal) : Prop := v = .none ∨ ∃ s, encode v = .ok s ∧ decode s = .ok v

/-- What a node does at a certain point of its history. -/
inductive NodeOp where
  /-- `executor.execute(...)` -/
  | tx (cfg : ExecCfg) (t : Tx)
  /-- `driver.hard_apply(nanos)` at the end of a block -/
  | apply (nanos : Int)
  /-- `driver.commit()` -/
  | commit
  /-- `driver.rollback()` -/
  | rollback
  /-- `driver.flush_cache()` -/
  | flush

/-- What the caller gets back. -/
inductive Report where
  | output (o : Except PyErr Output)
  | done (r : Except PyErr Unit)

/-- Perform a step. -/
def NodeOp.run (H : Host) (w : World) : NodeOp → Report × World
  | .tx cfg t => let r := execute H cfg t w; (.output r.1, r.2)
  | .apply n => let r := w.driver.hardApply n; (.done r.1, { w with driver := r.2 })
  | .commit => let r := w.driver.commit; (.done r.1, { w with driver := r.2 })
  | .rollback => (.done (.ok ()), { w with driver := w.driver.rollback })
  | .flush => (.done (.ok ()), { w with driver := w.driver.flushCache })

/-- The reports of a node that runs without any disturbance, and its final state. -/
def undisturbed (H : Host) (w : World) : List NodeOp → List Report × World
  | [] => ([], w)
  | s :: ss =>
    let r := s.run H w
    let q := undisturbed H r.2 ss
    (r.1 :: q.1, q.2)

/-- A history of a node: the steps in order, and between any two of them cache entries may expire or be
evicted, and, when nothing is pending, the process may be restarted on its disk. -/
inductive Lives (H : Host) : World → List NodeOp → List Report → World → Prop where
  | stop (w : World) : Lives H w [] [] w
  | step {w w' : World} {s : NodeOp} {ss : List NodeOp} {rs : List Report} :
      Lives H (s.run H w).2 ss rs w' → Lives H w (s :: ss) ((s.run H w).1 :: rs) w'
  | evict {w w' : World} {ss : List NodeOp} {rs : List Report} (keep : Str → Bool) :
      Lives H { w with driver := w.driver.evict keep } ss rs w' → Lives H w ss rs w'
  | restart {w w' : World} {ss : List NodeOp} {rs : List Report} :
      w.driver.pendingWrites = [] → w.driver.pendingReads = [] →
      Lives H { driver := .open w.driver.disk } ss rs w' → Lives H w ss rs w'

/-- What the steps may be, given the undisturbed run: contract code uses cache-blind calls only and does not
commit by itself, `execute` returns and leaves no context frame behind, and what is pending when a block is
applied or committed are stable values under plain keys. -/
def Steady (H : Host) (w : World) : List NodeOp → Prop
  | [] => True
  | s :: ss =>
    (match s with
      | .tx cfg t => t.autoCommit = false ∧ t.code.All CacheBlind ∧ (∃ o, (execute H cfg t w).1 = .ok o) ∧
          (execute H cfg t w).2.stack = []
      | .apply _ | .commit => ∀ p ∈ w.driver.pendingWrites, PlainKey p.1 ∧ Stable p.2
      | _ => True) ∧
    Steady H (s.run H w).2 ss

end Verif.Spec
