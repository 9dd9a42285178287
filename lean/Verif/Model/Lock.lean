import Verif.Model.Hdf5
/-!
# `contracting/storage/hdf5.py` called from several threads

Writers take a per-file lock of the process (hdf5.py:8-20); readers take none. A step of the machine is one attribute
operation, a lock operation or a time-out. Simplifications: opening and closing a file always succeeds and has no other
effect (HDF5's own file locks are not modelled, so other processes are not either); h5py serializes its calls, so an
attribute operation is atomic; `file_locks[path]` (a `defaultdict`) always gives the same lock for a path.
-/
namespace Verif

/-- A call of hdf5.py:54-72 `set` (with the encoded value) or hdf5.py:102-115 `delete`. -/
inductive DiskCall where
  | set (l : Loc) (text : Option Str) (block : Int)
  | delete (l : Loc)
  deriving DecidableEq, Repr

/-- The place the call is about; the lock is that of its file (hdf5.py:59, 103). -/
def DiskCall.loc : DiskCall → Loc
  | .set l _ _ | .delete l => l

/-- One step under the lock: an attribute operation, or `del …attrs["value"]` whose `KeyError` ends the call
(hdf5.py:107-111). -/
inductive Micro where
  | op (o : DiskOp)
  | delOrStop (l : Loc)
  deriving Repr

/-- The steps of a call under the lock (hdf5.py:63-66 with 87-99; 106-111). -/
def DiskCall.micros : DiskCall → List Micro
  | .set l text block => (Disk.setOps l text block).map .op
  | .delete l => [.delOrStop l, .op (.delBlock l)]

/-- Perform one step: the disk, and what is left to do. -/
def Micro.run (d : Disk) (rest : List Micro) : Micro → Disk × List Micro
  | .op o => (d.apply o, rest)
  | .delOrStop l => if (d.attrs l).value = none then (d, []) else (d.apply (.delValue l), rest)

/-- Where a thread is. -/
inductive ThreadSt where
  | idle
  | waiting (c : DiskCall)
  | inside (c : DiskCall) (rest : List Micro)

/-- The disk, the holder of each file's lock, and the threads. -/
structure Threads where
  disk : Disk
  holder : Str → Option Nat
  status : Nat → ThreadSt

/-- No call in progress. -/
def Threads.init (d : Disk) : Threads := { disk := d, holder := fun _ => none, status := fun _ => .idle }

/-- What a scheduler can let happen. -/
inductive SchedEvent where
  /-- Thread `t` calls. -/
  | call (t : Nat) (c : DiskCall)
  /-- hdf5.py:60, 104: it gets the lock. -/
  | acquire (t : Nat)
  /-- hdf5.py:70-71, 114-115: it does not get the lock within the time-out; the call raises `TimeoutError`. -/
  | timeout (t : Nat)
  /-- It performs one operation on the file. -/
  | step (t : Nat)
  /-- hdf5.py:67-69, 112-113: it releases the lock and returns. -/
  | release (t : Nat)
  deriving Repr

/-- Replace one value of a function. -/
def upd {α β : Type} [DecidableEq α] (f : α → β) (a : α) (b : β) : α → β := fun x => if x = a then b else f x

/-- hdf5.py:54-72, 102-115: one event, if it is possible now. -/
def Threads.next (s : Threads) : SchedEvent → Option Threads
  | .call t c =>
    match s.status t with
    | .idle => some { s with status := upd s.status t (.waiting c) }
    | _ => none
  | .acquire t =>
    match s.status t with
    | .waiting c =>
      if s.holder c.loc.1 = none then
        some { s with holder := upd s.holder c.loc.1 (some t), status := upd s.status t (.inside c c.micros) }
      else none
    | _ => none
  | .timeout t =>
    match s.status t with
    | .waiting _ => some { s with status := upd s.status t .idle }
    | _ => none
  | .step t =>
    match s.status t with
    | .inside c (m :: rest) =>
      let r := m.run s.disk rest
      some { s with disk := r.1, status := upd s.status t (.inside c r.2) }
    | _ => none
  | .release t =>
    match s.status t with
    | .inside c [] => some { s with holder := upd s.holder c.loc.1 none, status := upd s.status t .idle }
    | _ => none

/-- A whole schedule, if it is possible. -/
def Threads.play (s : Threads) : List SchedEvent → Option Threads
  | [] => some s
  | e :: es =>
    match s.next e with
    | some s => s.play es
    | none => none

end Verif
