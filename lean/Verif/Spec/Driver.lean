import Verif.Model.Driver
import Verif.Spec.Keys
import Verif.Spec.Value
/-!
# What storage operations may change
-/
namespace Verif.Spec

/-- Keys under a contract's name. -/
def Under (c k : Str) : Prop := (c ++ ['.']) <+: k

/-- Nothing outside contract `c` changed: not on disk, not in the cache, and in the pending and the
transaction writes only keys under `c`. -/
def OnlyUnder (c : Str) (d d' : Driver) : Prop :=
  d'.disk = d.disk ∧ d'.cache = d.cache ∧
  ∀ k, ¬ Under c k → Dict.get? d'.pendingWrites k = Dict.get? d.pendingWrites k ∧
    Dict.get? d'.txWrites k = Dict.get? d.txWrites k

/-! ## Histories of driver calls -/

/-- A call on the driver, as a node or the executor makes it. `m` is the meter at the moment of a
write (arbitrary). `evict` is the cache dropping entries by itself. -/
inductive Call where
  | set (m : Meter) (k : Str) (v : PyVal) (txn : Bool)
  | delete (m : Meter) (k : Str)
  | get (k : Str)
  | items (pre : Str)
  | commit
  | hardApply (nanos : Int)
  | rollback
  | rollbackTo (nanos : Int)
  | flushCache
  | evict (keep : Str → Bool)

/-- Make a call: what it returned (`None` for calls without result) and the driver afterwards. -/
def Call.run (d : Driver) : Call → Except PyErr PyVal × Driver
  | .set m k v txn => let r := d.set m k v txn; (r.1.map fun _ => .none, r.2.2)
  | .delete m k => let r := d.delete m k; (r.1.map fun _ => .none, r.2.2)
  | .get k => d.get k
  | .items pre => let r := d.items pre; (r.1.map fun _ => .none, r.2)
  | .commit => let r := d.commit; (r.1.map fun _ => .none, r.2)
  | .hardApply n => let r := d.hardApply n; (r.1.map fun _ => .none, r.2)
  | .rollback => (.ok .none, d.rollback)
  | .rollbackTo n => (.ok .none, d.rollbackTo n)
  | .flushCache => (.ok .none, d.flushCache)
  | .evict keep => (.ok .none, d.evict keep)

/-- Writes use keys made of plain names and components, and storable values. -/
def Call.OK : Call → Prop
  | .set _ k v _ => PlainKey k ∧ Storable v
  | .delete _ k => PlainKey k
  | _ => True

/-- Is the call an eviction? -/
def Call.isEvict : Call → Bool
  | .evict _ => true
  | _ => false

/-- The driver after a history. -/
def after (d : Driver) : List Call → Driver
  | [] => d
  | c :: cs => after (c.run d).2 cs

/-! ## The pair of maps -/

/-- Committed values (`None`: nothing stored) and uncommitted writes (`some None`: deletion). -/
structure Maps where
  committed : Str → PyVal
  overlay : Str → Option PyVal

/-- What a read sees. -/
def Maps.read (s : Maps) (k : Str) : PyVal :=
  match s.overlay k with
  | some v => v
  | none => s.committed k

/-- What a read sees when deletions show only once they are committed. -/
def Maps.readDeferred (s : Maps) (k : Str) : PyVal :=
  match s.overlay k with
  | some .none => s.committed k
  | some v => v
  | none => s.committed k

/-- Record an uncommitted write. -/
def Maps.write (s : Maps) (k : Str) (v : PyVal) : Maps :=
  { s with overlay := fun k' => if k' = k then some v else s.overlay k' }

/-- Make the uncommitted writes permanent. -/
def Maps.persist (s : Maps) : Maps := { committed := s.read, overlay := fun _ => none }

/-- Forget the uncommitted writes. -/
def Maps.discard (s : Maps) : Maps := { s with overlay := fun _ => none }

/-- Effect of a call on the maps; `accepted` tells whether the call returned normally. A float is
stored as the decimal of its text. -/
def Maps.step (s : Maps) (accepted : Bool) : Call → Maps
  | .set _ k v _ => if accepted then (match normValue v with | .ok w => s.write k w | .error _ => s) else s
  | .delete _ k => if accepted then s.write k .none else s
  | .commit => s.persist
  | .hardApply _ => s.persist
  | .rollback => s.discard
  | .flushCache => s.discard
  | _ => s

/-- Did it return normally? -/
def accepted (r : Except PyErr PyVal × Driver) : Bool := r.1.isOk

/-- The maps after a history that started in driver state `d`. -/
def Maps.after (s : Maps) (d : Driver) : List Call → Maps
  | [] => s
  | c :: cs => Maps.after (s.step (accepted (c.run d)) c) (c.run d).2 cs

/-! ## What was seen of a key -/

/-- The write gets as far as looking at the key: the value is serialisable and the bytes are paid. -/
def reaches (m : Meter) (k : Str) (v : PyVal) : Bool :=
  match encode v with
  | .error _ => false
  | .ok t => (m.deductWrite (utf8Len k + t.length)).1.isOk

/-- What a read would show. -/
def shown (d : Driver) (k : Str) : PyVal :=
  match d.find k with
  | .ok w => w
  | .error _ => .none

/-- Values a read of `k` would show at the accesses of `k` since uncommitted changes were last
committed or dropped, oldest first. -/
def seenStep (k : Str) (d : Driver) (c : Call) (acc : List PyVal) : List PyVal :=
  match c with
  | .get k' => if k' = k then acc ++ [shown d k'] else acc
  | .set m k' v _ => if k' = k ∧ reaches m k' v = true then acc ++ [shown d k'] else acc
  | .delete m k' => if k' = k ∧ reaches m k' .none = true then acc ++ [shown d k'] else acc
  | .commit | .hardApply _ | .rollback | .flushCache => []
  | .items _ | .rollbackTo _ | .evict _ => acc

/-- The values seen in a history. -/
def seen (k : Str) (d : Driver) : List Call → List PyVal → List PyVal
  | [], acc => acc
  | c :: cs, acc => seen k (c.run d).2 cs (seenStep k d c acc)

/-- The first value other than `None`, `None` if there are only such, nothing for no value. -/
def firstSeen : List PyVal → Option PyVal
  | [] => none
  | x :: xs => some (((x :: xs).find? fun v => !v.isNone).getD .none)

/-- Every stored text on the disk can be decoded. -/
def Readable (disk : Disk) : Prop := ∀ l, ∃ w, disk.get l = .ok w

/-- The maps of a fresh driver: what is on disk. -/
def Maps.ofDisk (disk : Disk) : Maps :=
  { committed := fun k => match disk.get (locOf k) with | .ok w => w | .error _ => .none
    overlay := fun _ => none }

end Verif.Spec
