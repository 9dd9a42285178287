import Verif.Model.Ast
import Verif.Model.Runtime
/-!
# `importlib.enforce_interface` (`stdlib/bridge/imports.py`) and the attributes of loaded contract modules
-/
namespace Verif

/-- The classes of storage objects that contracts create: `V`, `H`, `FV`, `FH`, `LE` (stdlib/bridge/orm.py:6-45),
all of them deriving from `Datum` (storage/orm.py:10). -/
inductive DatumClass where
  | variable | hash | foreignVariable | foreignHash | logEvent
  deriving DecidableEq, Repr

/-- The class a contract knows by this name (stdlib/bridge/orm.py:49-56). -/
def datumClass (id : Str) : Option DatumClass :=
  if id = py! "Variable" then some .variable
  else if id = py! "Hash" then some .hash
  else if id = py! "ForeignVariable" then some .foreignVariable
  else if id = py! "ForeignHash" then some .foreignHash
  else if id = py! "LogEvent" then some .logEvent
  else none

/-- `f.__code__.co_name` and `f.__code__.co_varnames[:f.__code__.co_argcount]`. -/
structure FnCode where
  name : Str
  params : List Str
  deriving DecidableEq, Repr

/-- What the first cell of a closure holds: a function, or something else. -/
inductive Cell where
  | function (c : FnCode)
  | other
  deriving DecidableEq, Repr

/-- Attributes of a module: `None`, a storage object, a Python function with its code and the first cell of its
closure (if it has one), or anything else (classes, modules, numbers, ...). -/
inductive Attr where
  | none
  | datum (c : DatumClass)
  | function (code : FnCode) (closure : Option Cell)
  | other
  deriving DecidableEq, Repr

/-- The items of an interface. `args` is `none` if what was given is not a tuple of strings, and so is different
from every `co_varnames[:n]`. -/
inductive Item where
  | func (name : Str) (args : Option (List Str))
  | var (name : Str) (t : DatumClass)
  deriving DecidableEq, Repr

/-- `i.name`. -/
def Item.name : Item → Str
  | .func n _ => n
  | .var n _ => n

/-- imports.py:17-23 `Func(name, args, private)`. -/
def Item.mkFunc (name : Str) (args : Option (List Str)) (priv : Bool) : Item :=
  .func (if priv then privatize name else name) args

/-- imports.py:39-42 `Var(name, t)`, for `t` one of the classes above (other classes: `AssertionError`, or, for
the base classes of storage/orm.py, not reachable from contract code). -/
def Item.mkVar (name : Str) (t : DatumClass) : Item := .var (privatize name) t

/-- imports.py:25-35 `Func.is_of`, imports.py:44-47 `Var.is_of`, for attributes that are storage objects or
functions. Storage objects have no `__closure__`; what is not a function has no `__code__`. -/
def Item.isOf : Item → Attr → Except PyErr Bool
  | .func n args, .function code none => .ok (code.name = n && args = some code.params)
  | .func n args, .function _ (some (.function code)) => .ok (code.name = n && args = some code.params)
  | .func _ _, _ => .error .attributeError
  | .var _ t, .datum c => .ok (c = t)
  | .var _ _, _ => .ok false

/-- `isinstance(attribute, Datum) or isinstance(attribute, FunctionType)`. -/
def Attr.checked : Attr → Bool
  | .datum _ => true
  | .function _ _ => true
  | _ => false

/-- imports.py:68-85 `enforce_interface`. -/
def enforceInterface (attrs : Dict Str Attr) : List Item → Except PyErr Bool
  | [] => .ok true
  | i :: rest =>
    match Dict.get? attrs i.name with
    | none => .ok false
    | some .none => .ok false
    | some a =>
      if a.checked then
        match i.isOf a with
        | .error e => .error e
        | .ok false => .ok false
        | .ok true => enforceInterface attrs rest
      else enforceInterface attrs rest

/-! ## The attributes of a contract module -/

/-- stdlib/env.py:18-30 `gather`: the names contracts start with; all of them are classes, modules or other objects
that are neither storage nor plain functions. -/
def stdNames : List Str :=
  [py! "Variable", py! "Hash", py! "ForeignVariable", py! "ForeignHash", py! "LogEvent", py! "__Contract", py! "hashlib",
   py! "datetime", py! "random", py! "importlib", py! "__export", py! "ctx", py! "rt", py! "Any", py! "decimal", py! "crypto"]

/-- The attributes that a new module has: `__name__`, `__loader__`, `__package__` (`None` or text), `__spec__`, and
`__doc__`, which is `None`. -/
def moduleNames : List (Str × Attr) :=
  [(py! "__name__", .other), (py! "__doc__", .none), (py! "__package__", .other), (py! "__loader__", .other), (py! "__spec__", .other)]

/-- The scope before the contract's code is run (module.py:109-112), with the attributes of the new module.
`env` is `rt.env`. -/
def startScope (env : Dict Str PyVal) : Dict Str Attr :=
  Dict.set
    (Dict.update (Dict.update moduleNames (stdNames.map fun n => (n, .other)))
      (env.map fun kv => (kv.1, if kv.2.isNone then .none else .other)))
    (py! "__contract__") .other

/-- What a statement of a compiled module binds, for the kinds of statement that are modelled: imports, function
definitions without decorator or with the system's `__export` (`contextlib.ContextDecorator.__call__` returns
`inner`, whose closure starts with the decorated function), and the construction of storage.
Simplifications: function definitions have ordinary arguments only (`co_varnames[:co_argcount]` would start with the
positional-only ones); `__export` and the storage classes have their system meaning; evaluating defaults, annotations
and the arguments of constructions succeeds. -/
def binds : Ast → List (Str × Attr)
  | .import names => names.map fun n => (n.2.getD (n.1.takeWhile (· ≠ '.')), .other)
  | .functionDef nm as _ _ [] _ => [(nm, .function ⟨nm, as.filterMap argName⟩ none)]
  | .functionDef nm as _ _ [.call (.name w) _ _] _ =>
    if w = py! "__export" then [(nm, .function ⟨py! "inner", []⟩ (some (.function ⟨nm, as.filterMap argName⟩)))] else []
  | .assign [.name x] (.call (.name cls) _ _) => (datumClass cls).toList.map fun c => (x, .datum c)
  | _ => []
where
  /-- The name of an argument. -/
  argName : Ast → Option Str
    | .arg x _ => some x
    | _ => none

/-- module.py:95-119 `exec_module`: the attributes of the module, for a compiled body made of such statements. -/
def loadScope (env : Dict Str PyVal) (body : List Ast) : Dict Str Attr :=
  Dict.update (startScope env) (body.flatMap binds)

end Verif
