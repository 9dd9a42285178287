import Verif.Model.Encoder
/-!
# `convert_dict` (`contracting/storage/encoder.py`)

Turning JSON data that was loaded without the object hook into contract values.
-/
namespace Verif

mutual
/-- `json.loads(s)` without a hook: plain Python data (duplicate names collapse). -/
def plainJson : JVal → PyVal
  | .null => .none
  | .bool b => .bool b
  | .int i => .int i
  | .flt t => .flt t
  | .str s => .str s
  | .arr xs => .list (plainJsonList xs)
  | .obj kvs => .dict ((Dict.ofPairs (plainJsonItems kvs)).map fun p => (PyKey.str p.1, p.2))
/-- Elements. -/
def plainJsonList : List JVal → List PyVal
  | [] => []
  | x :: xs => plainJson x :: plainJsonList xs
/-- Members. -/
def plainJsonItems : List (Str × JVal) → List (Str × PyVal)
  | [] => []
  | (k, v) :: kvs => (k, plainJson v) :: plainJsonItems kvs
end

/-- encoder.py:164-178 `TYPES` and `convert`: the conversion belonging to a reserved name. -/
def convertTag (k : PyKey) : Option (PyVal → Except PyErr PyVal) :=
  if k = .str tagFixed then some fixedOf
  else if k = .str tagDelta then some deltaOf
  else if k = .str tagBytes then some bytesOf
  else if k = .str tagTime then some timeOf
  else if k = .str tagBigInt then some bigIntOf
  else none

mutual
/-- encoder.py:181-201 `convert_dict`: a dict is converted member by member, anything else is returned
as it is. -/
def convertDict : PyVal → Except PyErr PyVal
  | .dict kvs => convertItems [] kvs
  | v => .ok v
/-- encoder.py:186-201: the loop over the members, `acc` being `d2` in reverse: a reserved name ends
the loop, dicts are converted, and so are the elements of lists. -/
def convertItems : List (PyKey × PyVal) → List (PyKey × PyVal) → Except PyErr PyVal
  | acc, [] => .ok (.dict acc.reverse)
  | acc, (k, v) :: kvs =>
    match convertTag k with
    | some f => f v
    | none =>
      match convertMember v with
      | .error e => .error e
      | .ok w => convertItems ((k, w) :: acc) kvs
/-- encoder.py:190-199: the value of one member. -/
def convertMember : PyVal → Except PyErr PyVal
  | .dict kvs => convertItems [] kvs
  | .list xs => (convertElems xs).map .list
  | v => .ok v
/-- encoder.py:193-196: the elements of a list. -/
def convertElems : List PyVal → Except PyErr (List PyVal)
  | [] => .ok []
  | x :: xs => do return (← convertDict x) :: (← convertElems xs)
end

end Verif
