import Verif.Model.Hdf5
import Verif.Model.Meter
/-!
# `contracting/storage/driver.py`

Pending writes over a cache over the disk. Operations that can raise return the exception together
with the state reached so far. `set` also threads the meter (`rt.deduct_write`).
-/
namespace Verif

/-- A recorded event (orm.py:220-236). -/
structure Event where
  contract : Option Str
  event : Str
  signer : Option Str
  caller : Option Str
  dataIndexed : Dict Str PyVal
  data : Dict Str PyVal
  deriving Repr

/-- driver.py:32-42 `Driver.__init__`: the fields. `pendingDeltas` keeps only the `writes` part (the
`reads` part is never used). The disk is shared by all drivers on the same directory. -/
structure Driver where
  pendingDeltas : Dict Int (Dict Str (PyVal × PyVal)) := []
  pendingWrites : Dict Str PyVal := []
  pendingReads : Dict Str PyVal := []
  txWrites : Dict Str PyVal := []
  events : List Event := []
  cache : Dict Str PyVal := []
  bypass : Bool := false
  disk : Disk := []
  deriving Repr

/-- A fresh driver on a directory (driver.py:32-46). -/
def Driver.open (disk : Disk) : Driver := { disk := disk }

/-- `x is None`. -/
def PyVal.isNone : PyVal → Bool
  | .none => true
  | _ => false

/-- `d.get(k)` of a Python dict: `None` when absent. -/
def dget (d : Dict Str PyVal) (k : Str) : PyVal := (Dict.get? d k).getD .none

/-- Bytes of the UTF-8 encoding of a string. -/
def utf8Len (s : Str) : Nat := (s.map Char.utf8Size).sum

/-- driver.py:95-96: raw `float` becomes a contract decimal (`FloatTok.text` has JSON's `NaN` and `Infinity` for `nan` and
`inf`, which `Decimal` reads alike). -/
def normValue : PyVal → Except PyErr PyVal
  | .flt t => (cdOfStr t.text).map .dec
  | v => .ok v

namespace Driver

/-- driver.py:164-170 `value_from_disk`. -/
def fromDisk (d : Driver) (key : Str) : Except PyErr PyVal := d.disk.get (locOf key)

/-- driver.py:102-120 `find`. -/
def find (d : Driver) (key : Str) : Except PyErr PyVal :=
  if d.bypass then d.fromDisk key
  else
    let v := dget d.pendingWrites key
    let v := if v.isNone then dget d.cache key else v
    if v.isNone then d.fromDisk key else .ok v

/-- driver.py:77-88 `get` with `save=True`. -/
def get (d : Driver) (key : Str) : Except PyErr PyVal × Driver :=
  match d.find key with
  | .error e => (.error e, d)
  | .ok v =>
    (.ok v, if (dget d.pendingReads key).isNone then
        { d with pendingReads := Dict.set d.pendingReads key v } else d)

/-- driver.py:91-99 `set`. -/
def set (m : Meter) (d : Driver) (key : Str) (v : PyVal) (txn : Bool) : Except PyErr Unit × Meter × Driver :=
  match encode v with
  | .error e => (.error e, m, d)
  | .ok text =>
    match m.deductWrite (utf8Len key + text.length) with
    | (.error e, m) => (.error e, m, d)
    | (.ok _, m) =>
      match (if (dget d.pendingReads key).isNone then d.get key else (.ok .none, d)) with
      | (.error e, d) => (.error e, m, d)
      | (.ok _, d) =>
        match normValue v with
        | .error e => (.error e, m, d)
        | .ok v =>
          (.ok (), m,
            { d with
              pendingWrites := Dict.set d.pendingWrites key v
              txWrites := if txn then Dict.set d.txWrites key v else d.txWrites })

/-- driver.py:320-324 `delete`. -/
def delete (m : Meter) (d : Driver) (key : Str) : Except PyErr Unit × Meter × Driver :=
  set m d key .none false

/-- driver.py:292-298 `flush_cache`. -/
def flushCache (d : Driver) : Driver :=
  { d with pendingWrites := [], pendingReads := [], pendingDeltas := [], txWrites := [], events := [], cache := [] }

/-- driver.py:330-335 `rollback()`. -/
def rollback (d : Driver) : Driver :=
  { d with cache := [], pendingReads := [], pendingWrites := [], pendingDeltas := [] }

/-- Insertion into a list sorted by stamp. -/
def insertSorted (p : Int × Dict Str (PyVal × PyVal)) :
    List (Int × Dict Str (PyVal × PyVal)) → List (Int × Dict Str (PyVal × PyVal))
  | [] => [p]
  | q :: qs => if p.1 ≤ q.1 then p :: q :: qs else q :: insertSorted p qs

/-- `sorted(pending_deltas.items())`. -/
def sortDeltas (ds : Dict Int (Dict Str (PyVal × PyVal))) : List (Int × Dict Str (PyVal × PyVal)) :=
  ds.foldr insertSorted []

/-- driver.py:337-346 `rollback(nanos)`: from the newest delta down to the given stamp, put the old
values into the cache and forget the delta. -/
def rollbackTo (d : Driver) (nanos : Int) : Driver :=
  let undone := ((sortDeltas d.pendingDeltas).reverse).takeWhile fun p => decide (nanos ≤ p.1)
  let cache := undone.foldl (fun c p => p.2.foldl (fun c kv => Dict.set c kv.1 kv.2.1) c) d.cache
  { d with cache := cache, pendingDeltas := undone.foldl (fun ds p => Dict.erase ds p.1) d.pendingDeltas }

/-- The disk operations `commit` performs for one pending write (driver.py:352-358). -/
def commitKeyOps (disk : Disk) (k : Str) (v : PyVal) : Except PyErr (List DiskOp) :=
  match v with
  | .none => .ok (Disk.deleteOps disk (locOf k))
  | v => Disk.setValueOps (locOf k) v none

/-- driver.py:352-358: the loop of `commit`. -/
def commitLoop (disk : Disk) : List (Str × PyVal) → Except PyErr Unit × Disk
  | [] => (.ok (), disk)
  | (k, v) :: ps =>
    match commitKeyOps disk k v with
    | .error e => (.error e, disk)
    | .ok ops => commitLoop (disk.applyAll ops) ps

/-- The elementary disk operations of the loop of `commit` (driver.py:352-358), in order. Used to say
what is on disk when the process dies inside `commit`. -/
def commitTrace (disk : Disk) : List (Str × PyVal) → List DiskOp
  | [] => []
  | (k, v) :: ps =>
    match commitKeyOps disk k v with
    | .error _ => []
    | .ok ops => ops ++ commitTrace (disk.applyAll ops) ps

/-- driver.py:348-362 `commit`. -/
def commit (d : Driver) : Except PyErr Unit × Driver :=
  match commitLoop d.disk d.pendingWrites with
  | (.error e, disk) => (.error e, { d with disk := disk })
  | (.ok _, disk) => (.ok (), { d with disk := disk, cache := [], pendingWrites := [], pendingReads := [] })

/-- driver.py:386-390: write the new values of one delta with a block stamp. -/
def applyWrites (disk : Disk) (nanos : Int) : List (Str × (PyVal × PyVal)) → Except PyErr Unit × Disk
  | [] => (.ok (), disk)
  | (k, _, v) :: ps =>
    match Disk.setValueOps (locOf k) v (some nanos) with
    | .error e => (.error e, disk)
    | .ok ops => applyWrites (disk.applyAll ops) nanos ps

/-- driver.py:384-394: apply the deltas from oldest to newest, up to the given stamp; returns the
stamps to forget. -/
def applyDeltas (disk : Disk) (nanos : Int) : List (Int × Dict Str (PyVal × PyVal)) →
    Except PyErr (List Int) × Disk
  | [] => (.ok [], disk)
  | (n, w) :: ds =>
    match applyWrites disk nanos w with
    | (.error e, disk) => (.error e, disk)
    | (.ok _, disk) =>
      if n = nanos then (.ok [n], disk)
      else
        match applyDeltas disk nanos ds with
        | (.error e, disk) => (.error e, disk)
        | (.ok ns, disk) => (.ok (n :: ns), disk)

/-- driver.py:365-397 `hard_apply`. -/
def hardApply (d : Driver) (nanos : Int) : Except PyErr Unit × Driver :=
  let deltas : Dict Str (PyVal × PyVal) := d.pendingWrites.map fun kv => (kv.1, dget d.pendingReads kv.1, kv.2)
  let cache := d.pendingWrites.foldl (fun c kv => Dict.set c kv.1 kv.2) d.cache
  let d := { d with cache := cache, pendingDeltas := Dict.set d.pendingDeltas nanos deltas,
                    pendingReads := [], pendingWrites := [] }
  match applyDeltas d.disk nanos (sortDeltas d.pendingDeltas) with
  | (.error e, disk) => (.error e, { d with disk := disk })
  | (.ok ns, disk) =>
    (.ok (), { d with disk := disk, pendingDeltas := ns.foldl (fun ds n => Dict.erase ds n) d.pendingDeltas })

/-- Expiry or eviction of cache entries (`TTLCache(maxsize=1000, ttl=6*3600)`, driver.py:38): any
entries may disappear at any moment. -/
def evict (d : Driver) (keep : Str → Bool) : Driver :=
  { d with cache := d.cache.filter fun kv => keep kv.1 }

/-- driver.py:148-162 `iter_from_disk`: the top-level group names of the prefix's file that start with
the prefix. -/
def iterFromDisk (d : Driver) (pre : Str) : List Str :=
  (d.disk.groups (parseKey pre).1).filter fun g => startsWith g pre

/-- driver.py:195-196: read the keys found on disk only. -/
def itemsFromDisk (d : Driver) (acc : Dict Str PyVal) : List Str → Except PyErr (Dict Str PyVal) × Driver
  | [] => (.ok acc, d)
  | k :: ks =>
    match d.get k with
    | (.error e, d) => (.error e, d)
    | (.ok v, d) => itemsFromDisk d (Dict.set acc k v) ks

/-- driver.py:172-198 `items`. -/
def items (d : Driver) (pre : Str) : Except PyErr (Dict Str PyVal) × Driver :=
  let pick (acc : Dict Str PyVal) (kv : Str × PyVal) : Dict Str PyVal :=
    if startsWith kv.1 pre ∧ kv.2.isNone = false then Dict.set acc kv.1 kv.2 else acc
  let acc := d.pendingWrites.foldl pick []
  let acc := d.cache.foldl pick acc
  itemsFromDisk d acc ((d.iterFromDisk pre).filter fun k => k ∉ Dict.keys acc)

/-- driver.py:230-234 `get_owner`: an empty owner means none. -/
def getOwner (d : Driver) (name : Str) : Except PyErr PyVal × Driver :=
  match d.get (makeKey name (py! "__owner__")) with
  | (.error e, d) => (.error e, d)
  | (.ok (.str []), d) => (.ok .none, d)
  | (.ok v, d) => (.ok v, d)

/-- driver.py:432-436 `clear_transaction_writes`. -/
def clearTxWrites (d : Driver) : Driver := { d with txWrites := [] }

/-- driver.py:438-439 `clear_events`. -/
def clearEvents (d : Driver) : Driver := { d with events := [] }

/-- driver.py:310-311 `set_event`. -/
def setEvent (d : Driver) (e : Event) : Driver := { d with events := d.events ++ [e] }

end Driver
end Verif
