import Verif.Model.Executor
/-!
# Deploying contracts: `contracts/submission.s.py`, `storage/contract.py`, `Driver.set_contract`

The two functions of the submission contract as programs. They reach the driver directly
(`Action.rawGet`, `Action.rawSet`); contract code cannot (names with a leading underscore are refused by
the linter, C39).

Simplifications: names and code are strings; the traced lines of these functions are left out (an abort by
the tracer ends them like a refused write does); the compiler is an arbitrary function (`Toolchain`).
-/
namespace Verif

/-- What submission uses of the compiler and of the process. -/
structure Toolchain where
  /-- `ContractingCompiler(module_name=name).parse_to_code(code, lint=True)` (contract.py:18-20) -/
  parse : Str → Str → Except PyErr Str
  /-- `marshal.dumps(compile(code, "", "exec"))` (driver.py:255-256) -/
  marshal : Str → Except PyErr (List (Fin 256))
  /-- the default of the parameter `timestamp` (driver.py:251): the clock when `driver.py` was imported -/
  importTime : PyVal

/-- Run `p`, then continue with its outcome. -/
def Prog.bind : Prog → (Except PyErr PyVal → Prog) → Prog
  | .ret v, f => f (.ok v)
  | .raise e, f => f (.error e)
  | .act a k, f => .act a fun r => (k r).bind f
  | .call c body k, f => .call c body fun r => (k r).bind f
  | .load n d body k, f => .load n d body fun r => (k r).bind f

/-- One API call; its exception ends the program. -/
def perform (a : Action) (k : PyVal → Prog) : Prog :=
  .act a fun r => match r with | .ok v => k v | .error e => .raise e

/-- driver.py:242-243 `get_contract` (`CODE_KEY`, driver.py:22). -/
def codeKey (n : Str) : Str := makeKey n (py! "__code__")
/-- driver.py:239-240 `get_compiled`. -/
def compiledKey (n : Str) : Str := makeKey n (py! "__compiled__")
/-- driver.py:230-234 `get_owner`. -/
def ownerKey (n : Str) : Str := makeKey n (py! "__owner__")
/-- driver.py:236-237 `get_time_submitted`. -/
def timeKey (n : Str) : Str := makeKey n (py! "__submitted__")
/-- `DEVELOPER_KEY` (driver.py:28, 262). -/
def developerKey (n : Str) : Str := makeKey n (py! "__developer__")

/-- driver.py:245-262 `set_contract` (the parameter `overwrite` is never read). -/
def setContract (T : Toolchain) (name text : Str) (owner time developer : PyVal) : Prog :=
  perform (.rawGet (codeKey name)) fun v =>
    if v.isNone then
      match T.marshal text with
      | .error e => .raise e
      | .ok blob =>
        perform (.rawSet (codeKey name) (.str text)) fun _ =>
        perform (.rawSet (compiledKey name) (.bytes blob)) fun _ =>
        perform (.rawSet (ownerKey name) owner) fun _ =>
        perform (.rawSet (timeKey name) time) fun _ =>
        perform (.rawSet (developerKey name) developer) fun _ => .ret .none
    else .ret .none

/-- contract.py:34-50: the rest of `submit`, for the value the new module binds to `now`. -/
def storeContract (T : Toolchain) (name text : Str) (owner developer now : PyVal) : Prog :=
  setContract T name text owner (if now.isNone then T.importTime else now) developer

/-- contract.py:14-50 `Contract.submit`. `top` is what the module's top level and its constructor do
(contract.py:26-33); it answers `[v]` when the module binds the name `now` to `v`, and anything else when it
does not: then `scope.get('now')` is the environment's (contract.py:24, 33). -/
def submit (T : Toolchain) (name code : Str) (owner developer : PyVal) (top : Prog) : Prog :=
  perform (.rawGet (codeKey name)) fun v =>
    if v.isNone then
      match T.parse name code with
      | .error e => .raise e
      | .ok text =>
        top.bind fun r =>
          match r with
          | .error e => .raise e
          | .ok (.list [now]) => storeContract T name text owner developer now
          | .ok _ => perform (.envGet (py! "now")) fun now => storeContract T name text owner developer now
    else .raise .exception

/-- `a == b` for what `ctx` and the developer record hold; anything but strings and `None` is unequal. -/
def strEq : PyVal → PyVal → Bool
  | .str a, .str b => a = b
  | .none, .none => true
  | _, _ => false

/-- submission.s.py:1-16 `submit_contract`, the function inside `__export('submission')`. -/
def submitContract (H : Host) (T : Toolchain) (name code : Str) (owner : PyVal) (top : Prog) : Prog :=
  perform .ctxCaller fun caller =>
    if !strEq caller (.str (py! "sys")) && !startsWith name (py! "con_") then .raise .assertion
    else
      perform .ctxSigner fun signer =>
        if !strEq caller signer then .raise .assertion
        else if name.length > 64 then .raise .assertion
        else if !H.strIsLower name then .raise .assertion
        else submit T name code owner caller top

/-- submission.s.py:19-28 `change_developer`. -/
def changeDeveloper (contract : Str) (newDeveloper : PyVal) : Prog :=
  perform (.rawGet (developerKey contract)) fun d =>
    perform .ctxCaller fun caller =>
      if !strEq caller d then .raise .assertion
      else perform (.rawSet (developerKey contract) newDeveloper) fun _ => .ret .none

end Verif
