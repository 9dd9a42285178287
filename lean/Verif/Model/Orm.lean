import Verif.Model.Driver
/-!
# `contracting/storage/orm.py`: `Variable`, `Hash`, `ForeignVariable`, `ForeignHash`

Objects are their constructor arguments; the driver and the meter are threaded explicitly.
-/
namespace Verif

/-- Classes usable as the `t=` of a Variable. -/
inductive PyType where
  | str | int | bool | float | bytes | decimal | datetime | timedelta | list | tuple | dict | other (n : Nat)
  deriving DecidableEq, Repr

/-- `isinstance(v, t)` (a `bool` is an `int`). -/
def isInstance : PyVal → PyType → Bool
  | .str _, .str => true
  | .int _, .int => true
  | .bool _, .int => true
  | .bool _, .bool => true
  | .flt _, .float => true
  | .bytes _, .bytes => true
  | .dec _, .decimal => true
  | .time _, .datetime => true
  | .delta _ _, .timedelta => true
  | .list _, .list => true
  | .tuple _, .tuple => true
  | .dict _, .dict => true
  | .obj n, .other k => n = k
  | _, _ => false

/-- orm.py:16-25 `Variable(contract, name, t=None, default_value=None)`: `_type` is `None` unless `t`
is a class. -/
structure Variable where
  key : Str
  type : Option PyType := none
  default : PyVal := .none

/-- orm.py:10-13,17-25. -/
def Variable.make (contract name : Str) (t : Option PyType := none) (default : PyVal := .none) : Variable :=
  { key := makeKey contract name, type := t, default := default }

/-- orm.py:27-34 `Variable.set`. -/
def Variable.set (x : Variable) (m : Meter) (d : Driver) (v : PyVal) : Except PyErr Unit × Meter × Driver :=
  match x.type with
  | some t =>
    if v.isNone = false ∧ isInstance v t = false then (.error .assertion, m, d)
    else d.set m x.key v true
  | none => d.set m x.key v true

/-- orm.py:36-40 `Variable.get`. -/
def Variable.get (x : Variable) (d : Driver) : Except PyErr PyVal × Driver :=
  match d.get x.key with
  | (.error e, d) => (.error e, d)
  | (.ok v, d) => (.ok (if v.isNone then x.default else v), d)

/-- orm.py:42-46 `Hash(contract, name, default_value=None)`. -/
structure HashVar where
  key : Str
  default : PyVal := .none

/-- orm.py:43-46. -/
def HashVar.make (contract name : Str) (default : PyVal := .none) : HashVar :=
  { key := makeKey contract name, default := default }

/-- orm.py:48-49: `f"{self._key}{self._delimiter}{key}"`. -/
def HashVar.entry (h : HashVar) (s : Str) : Str := h.key ++ ':' :: s

/-- orm.py:115-118 `Hash.__setitem__` and 48-49 `_set`. -/
def HashVar.setItem (h : HashVar) (m : Meter) (d : Driver) (ix : Index) (v : PyVal) :
    Except PyErr Unit × Meter × Driver :=
  match validateKey ix with
  | .error e => (.error e, m, d)
  | .ok s => d.set m (h.entry s) v true

/-- orm.py:58-59: floats and decimals are re-read through `ContractingDecimal(str(value))`. -/
def hashValue : PyVal → Except PyErr PyVal
  | .flt t => (cdOfStr t.text).map .dec
  | .dec x => (cdOfStr (Dec.toStr false x)).map .dec
  | v => .ok v

/-- orm.py:120-122 `Hash.__getitem__` and 51-61 `_get`. -/
def HashVar.getItem (h : HashVar) (d : Driver) (ix : Index) : Except PyErr PyVal × Driver :=
  match validateKey ix with
  | .error e => (.error e, d)
  | .ok s =>
    match d.get (h.entry s) with
    | (.error e, d) => (.error e, d)
    | (.ok v, d) => (hashValue (if v.isNone then h.default else v), d)

/-- orm.py:93-99 `_prefix_for_args`. -/
def HashVar.prefixFor (h : HashVar) (args : List Comp) : Except PyErr Str :=
  (validateKey (.tuple args)).map fun multi =>
    if multi = [] then h.key ++ [':'] else h.key ++ ':' :: (multi ++ [':'])

/-- orm.py:105-107 `_items`. -/
def HashVar.items (h : HashVar) (d : Driver) (args : List Comp) : Except PyErr (Dict Str PyVal) × Driver :=
  match h.prefixFor args with
  | .error e => (.error e, d)
  | .ok p => d.items p

/-- orm.py:101-103 `all` (driver.py:204-206 calls `items` twice). -/
def HashVar.all (h : HashVar) (d : Driver) (args : List Comp) : Except PyErr (List PyVal) × Driver :=
  match h.items d args with
  | (.error e, d) => (.error e, d)
  | (.ok _, d) =>
    match h.items d args with
    | (.error e, d) => (.error e, d)
    | (.ok kvs, d) => (.ok (Dict.values kvs), d)

/-- Delete a list of keys, stopping at the first exception. -/
def deleteKeys (m : Meter) (d : Driver) : List Str → Except PyErr Unit × Meter × Driver
  | [] => (.ok (), m, d)
  | k :: ks =>
    match d.delete m k with
    | (.error e, m, d) => (.error e, m, d)
    | (.ok _, m, d) => deleteKeys m d ks

/-- orm.py:109-113 `clear`. -/
def HashVar.clear (h : HashVar) (m : Meter) (d : Driver) (args : List Comp) : Except PyErr Unit × Meter × Driver :=
  match h.items d args with
  | (.error e, d) => (.error e, m, d)
  | (.ok kvs, d) => deleteKeys m d (Dict.keys kvs)

/-! Foreign objects: the key is the foreign contract's, writing methods raise. -/

/-- orm.py:128-133 `ForeignVariable`. -/
def foreignVariable (foreignContract foreignName : Str) : Variable := { key := makeKey foreignContract foreignName }
/-- orm.py:135-136 `ForeignVariable.set`. -/
def foreignVariableSet (_x : Variable) (m : Meter) (d : Driver) (_v : PyVal) : Except PyErr Unit × Meter × Driver :=
  (.error .referenceError, m, d)
/-- orm.py:139-144 `ForeignHash`. -/
def foreignHash (foreignContract foreignName : Str) : HashVar := { key := makeKey foreignContract foreignName }
/-- orm.py:149-150 `ForeignHash.__setitem__`. -/
def foreignHashSetItem (_h : HashVar) (m : Meter) (d : Driver) (_ix : Index) (_v : PyVal) :
    Except PyErr Unit × Meter × Driver := (.error .referenceError, m, d)
/-- orm.py:155-156 `ForeignHash.clear`. -/
def foreignHashClear (_h : HashVar) (m : Meter) (d : Driver) (_args : List Comp) :
    Except PyErr Unit × Meter × Driver := (.error .exception, m, d)

end Verif
