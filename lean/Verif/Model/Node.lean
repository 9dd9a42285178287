import Verif.Model.Interp
import Verif.Model.Proxy
/-!
# A node: code comes in through `submission` and runs from the state

What a transaction runs is read from the state it starts on. Everything but the contract `submission` itself is code of
the contract language (`Model/Lang.lean`), compiled and stored by `submit_contract` (`Model/Submission.lean`) and run by
the interpreter (`Model/Interp.lean`).

Simplifications: language contracts do not import `submission` (from one of them `submit_contract` is refused, C51);
contracts are loaded under plain names only (no "." ":" "/"); a source text outside of the modelled language is refused.
-/
namespace Verif.Lang
open Verif

/-- What a node needs to know about texts and about Python. -/
structure Node where
  info : PyInfo
  D : Data
  cost : Str → Stmt → Nat × Nat
  topCost : Str → Top → Nat × Nat
  /-- `ast.parse` of a source text (compiler.py:21), as a module of the language -/
  read : Str → Option Module
  /-- the text of a compiled module (compiler.py:61-64, `astor.to_source`) -/
  write : Module → Str
  /-- what a stored code object means when it is run (module.py:104-119) -/
  load : List (Fin 256) → Option Module
  /-- `marshal.dumps(compile(code, "", "exec"))` (driver.py:255-256) -/
  marshal : Str → Except PyErr (List (Fin 256))
  importTime : PyVal
  /-- what is raised where a bound of the interpreter is reached -/
  out : PyErr := .recursion

/-- compiler.py:18-46, 61-64 `parse_to_code(source, lint=True)`. -/
def Node.parse (N : Node) (name source : Str) : Except PyErr Str :=
  match N.read source with
  | none => .error .unmodelled
  | some m => ((moduleAst m).compile N.info name).map fun _ => N.write (compileModule name m)

/-- What submission uses. -/
def Node.tools (N : Node) : Toolchain := { parse := N.parse, marshal := N.marshal, importTime := N.importTime }

/-- module.py:79-82, 95-107: the code a contract is loaded from: there has to be a `__code__` record; what is run is
the `__compiled__` record. Simplification: one that is no `bytes` is not run (`set_contract` stores `bytes`). -/
def Node.code (N : Node) (d : Driver) (c : Str) : Option Module :=
  if c = py! "submission" ∨ c = [] ∨ '.' ∈ c ∨ ':' ∈ c ∨ '/' ∈ c then none
  else
    match d.find (codeKey c) with
    | .error _ => none
    | .ok .none => none
    | .ok _ =>
      match d.find (compiledKey c) with
      | .ok (.bytes blob) => N.load blob
      | _ => none

/-- All code of a state. -/
def Node.chain (N : Node) (d : Driver) : Chain := { D := N.D, cost := N.cost, topCost := N.topCost, code := N.code d, out := N.out }

/-- The code of a chain with one more contract: the one that is being submitted. -/
def Chain.plus (C : Chain) (name : Str) (m : Module) : Chain := { C with code := fun c => if c = name then some m else C.code c }

/-- `constructor_args` (contract.py:29-31): nothing, or a dictionary with string keys. -/
def constructorArgs : PyVal → Except PyErr (List (Str × Val))
  | .none => .ok []
  | .dict kvs => kvs.mapM fun p => match p.1 with | .str k => .ok (k, .data p.2) | _ => .error .typeError
  | _ => .error .typeError

/-- contract.py:33: what the module binds to `now`, if it does, as `submit` expects it (C65). -/
def Chain.boundNow (C : Chain) (name : Str) : Prog :=
  match C.global name (py! "now") with
  | some (.ok (.data v)) => .ret (.list [v])
  | some (.ok _) => .raise .unmodelled
  | some (.error e) => .raise e
  | none => .ret .none

/-- contract.py:26-33: run the top level of a new module, then its constructor `____` (constants.py:13), if it has one. -/
def Chain.deploy (C : Chain) (n : Nat) (name : Str) (args : PyVal) : Prog :=
  (C.top n name).bind fun r => orRaise r fun _ =>
    match C.global name (py! "____") with
    | none => C.boundNow name
    | some (.ok (.fn c i)) => orRaise (constructorArgs args) fun ks => C.call n c i [] ks fun _ => C.boundNow name
    | some _ => .raise .typeError

/-- contract.py:20-33, for the source submitted. -/
def Node.deploy (N : Node) (n : Nat) (d : Driver) (name source : Str) (args : PyVal) : Prog :=
  match N.read source with
  | none => .raise .unmodelled
  | some m => ((N.chain d).plus name (compileModule name m)).deploy n name args

/-- submission.s.py:19-28 `change_developer` as found in the loaded module. -/
def developerFn : Bool × (Dict Str PyVal → Prog) :=
  (true, bindParams [(py! "contract", none), (py! "new_developer", none)] fun kw =>
    match dget kw (py! "contract") with
    | .str contract => changeDeveloper contract (dget kw (py! "new_developer"))
    | _ => .raise .typeError)

/-- executor.py:115-128: the code a transaction reaches in this state. `n` bounds the depth of calls and loops. -/
def Node.codeFor (N : Node) (H : Host) (n : Nat) (d : Driver) (c fname : Str) : Code :=
  if c = py! "submission" then
    { top := .ret .none
      fn := if fname = py! "submit_contract" then some (submitFn H N.tools fun name source args => N.deploy n d name source args)
        else if fname = py! "change_developer" then some developerFn
        else none }
  else (N.chain d).codeFor n c fname

end Verif.Lang
