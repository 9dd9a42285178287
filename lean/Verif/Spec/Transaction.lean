import Verif.Spec.Runtime
/-!
# What contract code a transaction runs
-/
namespace Verif.Spec

/-- The program behind the function a transaction calls: an exported one is entered through its wrapper. -/
def entryProg (tx : Tx) (fn : Bool × (Dict Str PyVal → Prog)) (kwargs : Dict Str PyVal) : Prog :=
  if fn.1 then .call tx.contract (fn.2 kwargs) fun r => match r with | .ok v => .ret v | .error e => .raise e
  else fn.2 kwargs

/-- The world in which the module of a transaction's contract is looked up: funds checked, environment and
base frame in place (executor.py:72-114). `none`: refused before. -/
def txPrepared (cfg : ExecCfg) (tx : Tx) (w : World) : Option World :=
  match (if tx.metered cfg then checkFunds cfg tx (startWorld w) else (.ok (), startWorld w)) with
  | (.error _, _) => none
  | (.ok _, w) =>
    match setBase tx { w with env := Dict.update w.env tx.environment } with
    | (.error _, _) => none
    | (.ok _, w) => some w

/-- The world in which the top level of the contract's module runs, if it has to be loaded (executor.py:115). -/
def topWorld (H : Host) (tx : Tx) (w : World) : Option World :=
  match lookup H w tx.contract with
  | (.ok .contract, w) =>
    match fetchCompiled w tx.contract with
    | (.ok _, w) => some w
    | _ => none
  | _ => none

/-- The function a transaction calls, with its arguments, and the world in which it is called (executor.py:116-128). -/
def fnWorld (H : Host) (cfg : ExecCfg) (tx : Tx) (w : World) : Option (World × Prog) :=
  match loadEntry H tx w with
  | (.ok false, w) =>
    match tx.code.fn, fixKwargs tx.kwargs with
    | some fn, .ok kwargs =>
      let w := if tx.contract = py! "submission" then
        { w with base := { w.base with submission := (Dict.get? tx.kwargs (py! "name")).getD .none } } else w
      some (setUp tx (tx.metered cfg) w, entryProg tx fn kwargs)
    | _, _ => none
  | _ => none

/-- Contract code a transaction runs, with the worlds in which it starts: the module's top level, if it has
to be loaded, then the function. -/
def txRuns (H : Host) (cfg : ExecCfg) (tx : Tx) (w : World) : List (World × Prog) :=
  match (if !cfg.bypassPrivates && startsWith tx.function (py! "__") then none else txPrepared cfg tx w) with
  | none => []
  | some w =>
    ((topWorld H tx w).map fun w => (w, tx.code.top)).toList ++ (fnWorld H cfg tx w).toList

/-- Everything that happens in the contract code of a transaction. -/
def txEvents (H : Host) (cfg : ExecCfg) (tx : Tx) (w : World) : List (World × Ev) :=
  (txRuns H cfg tx w).flatMap fun r => events H r.2 r.1

end Verif.Spec
