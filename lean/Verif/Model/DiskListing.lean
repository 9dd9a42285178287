import Verif.Model.DriverMore
import Mathlib.Data.List.Sort
import Mathlib.Data.List.Lex
import Mathlib.Data.Char
/-!
# Listings of what is on disk (`contracting/storage/driver.py`)

Simplifications: a file exists when it has a group (a read or an append of a missing group can create an empty
file, which has no groups to list, but which `os.listdir` reports; such files are not modelled). The order in which
HDF5 reports the groups of a file is the order of the model's disk; no theorem depends on it.
-/
namespace Verif
namespace Driver

/-- `sorted` on a list of strings: by code points. -/
def sortStr (xs : List Str) : List Str := xs.insertionSort (· ≤ ·)

/-- The files of the two directories, driver.py:64-68: the name decides which one a file is in. -/
def runFiles (disk : Disk) : List Str :=
  ((Dict.keys disk).map Prod.fst).dedup.filter fun f => startsWith f (py! "__")

/-- driver.py:70-71 `__get_files`. -/
def getFiles (disk : Disk) : List Str := sortStr (contractFiles disk ++ runFiles disk)

/-- driver.py:73-75 `is_file`. -/
def isFile (disk : Disk) (file : Str) : Bool := file ∈ (Dict.keys disk).map Prod.fst

/-- driver.py:277-281 `get_contract_files`. -/
def getContractFiles (d : Driver) : List Str := sortStr (contractFiles d.disk)

/-- driver.py:131-142: the loop over all groups of all files; `keys` is a set, and reaching the length stops it. -/
def collectKeys (pre : Str) (length : Int) : List Str → List Str → List Str
  | keys, [] => keys
  | keys, k :: ks =>
    let keys := if (pre = [] ∨ startsWith k pre) ∧ k ∉ keys then keys ++ [k] else keys
    if 0 < length ∧ length ≤ keys.length then keys else collectKeys pre length keys ks

/-- driver.py:123-124,126-146 `keys_from_disk`; no prefix is the same as an empty one. -/
def keysFromDisk (d : Driver) (pre : Str) (length : Int) : List Str :=
  sortStr (collectKeys pre length [] ((getFiles d.disk).flatMap fun f => d.disk.groups f))

/-- driver.py:148-162 `iter_from_disk` with a length; a negative one drops from the end (a slice). -/
def iterFromDiskN (d : Driver) (pre : Str) (length : Int) : List Str :=
  let file := (parseKey pre).1
  if isFile d.disk file then
    let keys := sortStr (d.iterFromDisk pre)
    if length = 0 then keys
    else if 0 < length then keys.take length.toNat else keys.take (keys.length - (-length).toNat)
  else []

/-- driver.py:422-427: the groups of one file of the run state, read past the cache. -/
def runStateGroups (disk : Disk) (file : Str) (acc : Dict Str PyVal) : List Str → Except PyErr (Dict Str PyVal)
  | [] => .ok acc
  | g :: gs => do
    let v ← disk.get (file, [g])
    runStateGroups disk file (Dict.set acc (file ++ '.' :: g) v) gs

/-- driver.py:420-421: the files of the run state. -/
def runStateFiles (disk : Disk) (acc : Dict Str PyVal) : List Str → Except PyErr (Dict Str PyVal)
  | [] => .ok acc
  | f :: fs => do
    let acc ← runStateGroups disk f acc (disk.groups f)
    runStateFiles disk acc fs

/-- driver.py:416-429 `get_run_state`. (It turns the name into a path twice; with the absolute paths of the
storage home the second time changes nothing.) -/
def getRunState (d : Driver) : Except PyErr (Dict Str PyVal) := runStateFiles d.disk [] (runFiles d.disk)

end Driver
end Verif
