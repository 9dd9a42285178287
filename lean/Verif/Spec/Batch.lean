import Verif.Spec.Replica
import Verif.Spec.Reads
import Verif.Spec.Driver
import Verif.Props.Isolation
/-!
# Runs of the same transactions that write to disk, and restart, at different moments
-/
namespace Verif.Spec

/-- What is pending can be stored: values that read back as they are, under plain keys, and no deletions. -/
def Settleable (d : Driver) : Prop := ∀ p ∈ d.pendingWrites, PlainKey p.1 ∧ Stable p.2 ∧ p.2.isNone = false

/-- The transactions are executed one after the other, with these outputs; in between, whenever it pleases the node, what is
pending is committed or applied as a block, cache entries expire, and the process is started again on what is on disk, when nothing is
pending. -/
inductive Batched (H : Host) : World → List (ExecCfg × Tx) → List Output → World → Prop where
  | stop (w : World) : Batched H w [] [] w
  | tx {w w1 w' : World} {cfg : ExecCfg} {t : Tx} {o : Output} {ts : List (ExecCfg × Tx)} {os : List Output} :
      execute H cfg t w = (.ok o, w1) → Batched H w1 ts os w' → Batched H w ((cfg, t) :: ts) (o :: os) w'
  | commit {w w' : World} {ts : List (ExecCfg × Tx)} {os : List Output} : Settleable w.driver →
      Batched H { w with driver := w.driver.commit.2 } ts os w' → Batched H w ts os w'
  | apply {w w' : World} {ts : List (ExecCfg × Tx)} {os : List Output} (nanos : Int) : Settleable w.driver →
      Batched H { w with driver := (w.driver.hardApply nanos).2 } ts os w' → Batched H w ts os w'
  | evict {w w' : World} {ts : List (ExecCfg × Tx)} {os : List Output} (keep : Str → Bool) :
      Batched H { w with driver := w.driver.evict keep } ts os w' → Batched H w ts os w'
  | restart {w w' : World} {ts : List (ExecCfg × Tx)} {os : List Output} : w.driver.pendingWrites = [] → w.stack = [] →
      Batched H { driver := .open w.driver.disk } ts os w' → Batched H w ts os w'

/-- A node between blocks: any history of transactions behind it, nothing pending, the cache empty, and nothing on its disk that
cannot be decoded. -/
structure Idle (H : Host) (w : World) : Prop where
  served : Served H w
  bypass : w.driver.bypass = false
  deltas : w.driver.pendingDeltas = []
  pending : w.driver.pendingWrites = []
  cache : w.driver.cache = []
  readable : Readable w.driver.disk

end Verif.Spec
