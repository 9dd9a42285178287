import Verif.Model.Submission
/-!
# The rest of `contracting/storage/driver.py`, and the client's use of it
-/
namespace Verif
namespace Driver

/-- driver.py:283-290 `delete_key_from_disk`: file names of 255 characters or more are skipped
(constants.py:27 `FILENAME_LEN_MAX`). -/
def deleteKeyFromDisk (d : Driver) (k : Str) : Driver :=
  if (parseKey k).1.length < 255 then { d with disk := d.disk.applyAll (Disk.deleteOps d.disk (locOf k)) } else d

/-- driver.py:268-275: the body of the loop of `delete_contract`. -/
def deleteContractKey (d : Driver) (k : Str) : Driver :=
  let d := if (dget d.cache k).isNone then d else { d with cache := Dict.erase d.cache k }
  let d := if (dget d.pendingWrites k).isNone then d else { d with pendingWrites := Dict.erase d.pendingWrites k }
  d.deleteKeyFromDisk k

/-- driver.py:264-275 `delete_contract`: all keys listed under the bare name as a prefix. -/
def deleteContract (d : Driver) (name : Str) : Except PyErr Unit × Driver :=
  match d.items name with
  | (.error e, d) => (.error e, d)
  | (.ok r, d) => (.ok (), (Dict.keys r).foldl deleteContractKey d)

/-- driver.py:300-303 `flush_disk`. -/
def flushDisk (d : Driver) : Driver := { d with disk := [] }

/-- driver.py:305-308 `flush_file`: remove one file (the directory is determined by the name). -/
def flushFile (d : Driver) (file : Str) : Driver := { d with disk := d.disk.filter fun p => p.1.1 ≠ file }

/-- driver.py:313-318 `flush_full`. -/
def flushFull (d : Driver) : Driver := d.flushDisk.flushCache

/-- hdf5.py:136-152 `get_all_keys_from_file`: the names of all groups of a file, including those that only lead to
others, joined by `:`. (HDF5 reports them in a fixed order; the order is not modelled.) -/
def allKeysFromFile (disk : Disk) (file : Str) : List Str :=
  ((disk.filter fun p => p.1.1 = file).flatMap fun p => (p.1.2.inits.filter fun g => g ≠ []).map joinColon).dedup
where
  /-- `name.replace('/', ':')` of a group's path. -/
  joinColon (g : List Str) : Str := (g.map fun c => ':' :: c).flatten.drop 1

/-- The files of the directory `contract_state`: those whose names do not start with `__` (driver.py:64-68). -/
def contractFiles (disk : Disk) : List Str :=
  ((Dict.keys disk).map Prod.fst).dedup.filter fun f => !startsWith f (py! "__")

/-- driver.py:400-413 `get_all_contract_state`: every key is read through `get`. -/
def getAllContractState (d : Driver) : Except PyErr (Dict Str PyVal) × Driver :=
  d.itemsFromDisk [] ((contractFiles d.disk).flatMap fun f => (allKeysFromFile d.disk f).map fun k => f ++ '.' :: k)

/-- `s.replace(sub, '')`, for a non-empty `sub`. -/
def removeAll (sub : Str) : Str → Str
  | [] => []
  | c :: s => if sub ≠ [] ∧ startsWith (c :: s) sub then removeAll sub (s.drop (sub.length - 1)) else c :: removeAll sub s
termination_by s => s.length
decreasing_by all_goals simp [List.length_drop]; try omega

/-- client.py:336-341 `get_contracts`. -/
def getContracts (d : Driver) : Except PyErr (List Str) × Driver :=
  match d.items [] with
  | (.error e, d) => (.error e, d)
  | (.ok r, d) => (.ok (((Dict.keys r).filter fun k => endsWith k (py! ".__code__")).map (removeAll (py! ".__code__"))), d)

/-- Writes, outside any transaction, one after the other. -/
def setMany (d : Driver) : List (Str × PyVal) → Except PyErr Unit × Driver
  | [] => (.ok (), d)
  | (k, v) :: ps =>
    match d.set {} k v false with
    | (.error e, _, d) => (.error e, d)
    | (.ok _, _, d) => setMany d ps

/-- driver.py:245-262 `set_contract` called outside a transaction, with the default owner, time and developer
(the time is that of the import of the module, `T.importTime`). -/
def setContractDefault (T : Toolchain) (d : Driver) (name text : Str) : Except PyErr Unit × Driver :=
  match d.get (codeKey name) with
  | (.error e, d) => (.error e, d)
  | (.ok v, d) =>
    if v.isNone then
      match T.marshal text with
      | .error e => (.error e, d)
      | .ok blob =>
        d.setMany [(codeKey name, .str text), (compiledKey name, .bytes blob), (ownerKey name, .none),
          (timeKey name, T.importTime), (developerKey name, .none)]
    else (.ok (), d)

/-- client.py:218-237 `set_submission_contract(filename)`, for a readable file with contents `text`; its
`get_contract` calls (lines 219, 237) read the code and parse it, which can only raise or return. `parses` says whether
`ast.parse` accepts the code stored. -/
def setSubmissionContract (T : Toolchain) (parses : PyVal → Bool) (d : Driver) (text : Str) (commit : Bool) :
    Except PyErr Unit × Driver :=
  match d.get (codeKey (py! "submission")) with
  | (.error e, d) => (.error e, d)
  | (.ok v, d) =>
    if parses v = false then (.error .exception, d)
    else
      match d.deleteContract (py! "submission") with
      | (.error e, d) => (.error e, d)
      | (.ok _, d) =>
        match d.setContractDefault T (py! "submission") text with
        | (.error e, d) => (.error e, d)
        | (.ok _, d) =>
          match (if commit then d.commit else (.ok (), d)) with
          | (.error e, d) => (.error e, d)
          | (.ok _, d) =>
            match d.get (codeKey (py! "submission")) with
            | (.error e, d) => (.error e, d)
            | (.ok v, d) => if parses v = false then (.error .exception, d) else (.ok (), d)

/-- client.py:239-246 `flush`. -/
def clientFlush (T : Toolchain) (parses : PyVal → Bool) (d : Driver) (text : Str) : Except PyErr Unit × Driver :=
  setSubmissionContract T parses d.flushFull.flushCache text true

end Driver
end Verif
