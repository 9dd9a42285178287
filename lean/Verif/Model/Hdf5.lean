import Verif.Model.Keys
import Verif.Model.Encoder
import Mathlib.Data.List.Dedup
/-!
# `contracting/storage/hdf5.py`

The disk as a map from places (file, group) to the two attributes the code uses. An intermediate
group without attributes reads like an absent one, so only groups that were required by a write are
entries. Simplifications: operating-system errors, lock timeouts and HDF5's own limits are not
modelled; each attribute operation is one atomic, ordered step.
-/
namespace Verif

/-- The attributes of a group (hdf5.py:12-14): `value` holds JSON text. -/
structure Attrs where
  value : Option Str := none
  block : Option Int := none
  deriving DecidableEq, Repr

/-- All HDF5 files. -/
abbrev Disk := Dict Loc Attrs

/-- The elementary attribute operations (hdf5.py:87-99, 107-109). -/
inductive DiskOp where
  | require (l : Loc)
  | delValue (l : Loc)
  | putValue (l : Loc) (text : Str)
  | delBlock (l : Loc)
  | putBlock (l : Loc) (b : Int)
  deriving Repr

/-- The place an operation touches. -/
def DiskOp.loc : DiskOp → Loc
  | .require l | .delValue l | .putValue l _ | .delBlock l | .putBlock l _ => l

namespace Disk

/-- Attributes at a place (empty when there is no such group). -/
def attrs (d : Disk) (l : Loc) : Attrs := (Dict.get? d l).getD {}

/-- Effect of one operation. -/
def apply (d : Disk) (op : DiskOp) : Disk :=
  match op with
  | .require l => Dict.set d l (attrs d l)
  | .delValue l => Dict.set d l { attrs d l with value := none }
  | .putValue l t => Dict.set d l { attrs d l with value := some t }
  | .delBlock l => Dict.set d l { attrs d l with block := none }
  | .putBlock l b => Dict.set d l { attrs d l with block := some b }

/-- Effect of a sequence of operations. -/
def applyAll (d : Disk) (ops : List DiskOp) : Disk := ops.foldl apply d

/-- hdf5.py:22-41,131-132 `get_value_from_disk`: decoded `value` attribute, `None` when missing. -/
def get (d : Disk) (l : Loc) : Except PyErr PyVal :=
  match (attrs d l).value with
  | none => .ok .none
  | some t => decode t

/-- hdf5.py:26-27 `get_block`. -/
def getBlock (d : Disk) (l : Loc) : Option Int := (attrs d l).block

/-- hdf5.py:54-72, 87-99: `set` writes the two attributes one after the other, each by
require-delete-create. -/
def setOps (l : Loc) (text : Option Str) (block : Int) : List DiskOp :=
  [.require l, .delValue l] ++ (match text with | some t => [.putValue l t] | none => []) ++
  [.require l, .delBlock l, .putBlock l block]

/-- hdf5.py:118-124 `set_value_to_disk`: operations, or the encoder's exception. -/
def setValueOps (l : Loc) (v : PyVal) (block : Option Int) : Except PyErr (List DiskOp) :=
  match v with
  | .none => .ok (setOps l none (block.getD (-1)))
  | v => (encode v).map fun t => setOps l (some t) (block.getD (-1))

/-- hdf5.py:102-115 `delete`: `KeyError` when there is no `value` attribute stops it silently. -/
def deleteOps (d : Disk) (l : Loc) : List DiskOp :=
  if (attrs d l).value = none then [] else [.delValue l, .delBlock l]

/-- hdf5.py:44-50 `get_groups`: names of the top-level groups of a file. -/
def groups (d : Disk) (file : Str) : List Str :=
  ((d.filter fun p => p.1.1 = file).filterMap fun p => p.1.2.head?).dedup

end Disk
end Verif
