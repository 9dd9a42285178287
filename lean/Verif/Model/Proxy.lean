import Verif.Model.Client
import Verif.Model.Interface
import Verif.Model.Submission
/-!
# `contracting/client.py`: the callables and attributes of an `AbstractContract`

Not modelled: function names that are attributes of `AbstractContract` itself (`name`, `signer`, `environment`,
`executor`, `functions`, `keys`, `quick_read`, `quick_write`, `run_private_function`, `now`), which the proxy would
overwrite; the keywords `contract_name`, `executor`, `func`, `return_full_output` given by the caller.
-/
namespace Verif

/-- client.py:254-263: the functions found in the tree of a contract's stored code, in the order of `ast.walk`, with the
names of their ordinary arguments. -/
def proxyFuncs (t : Ast) : List (Str × List Str) :=
  (walk t.size [t]).filterMap fun n =>
    match n with
    | .functionDef nm as _ _ _ _ => some (nm, as.filterMap binds.argName)
    | _ => none

/-- client.py:40-45: the keywords given by the proxy itself. -/
def proxyKeywords : List Str := [py! "signer", py! "contract_name", py! "executor", py! "func", py! "return_full_output"]

/-- client.py:152-155: further parameters of `_abstract_function_call` that do not reach the contract. -/
def callKeywords : List Str := [py! "environment", py! "stamps", py! "metering", py! "now"]

/-- client.py:30-47: the callables, by attribute name: the parameters they pass. Giving a keyword twice to `partial` is a
`TypeError`. -/
def makeProxies (d : Dict Str (List Str)) : List (Str × List Str) → Except PyErr (Dict Str (List Str))
  | [] => .ok d
  | (f, params) :: fs => if params.any (proxyKeywords.contains ·) then .error .typeError else makeProxies (Dict.set d f params) fs

/-- client.py:248-271 `get_contract`, for stored code: `t` is its tree. -/
def getContract (t : Ast) : Except PyErr (Dict Str (List Str)) := makeProxies [] (proxyFuncs t)

/-- The keywords of a call of one of these callables: the ones meant for the client, and `kwargs`, the other ones. -/
structure Given where
  signer : Option Str := none
  environment : Dict Str PyVal := []
  stamps : Option Int := none
  metering : Option Bool := none
  now : PyVal := .none
  kwargs : Dict Str PyVal := []

/-- client.py:40-47 and 146-158: the call of a callable, up to the body of `_abstract_function_call`. A parameter
named `stamps` makes the client pass `None` for the stamps unless they are given (`execute` then ends with a
`TypeError`; its effects on the process are not modelled); `self` is given twice. -/
def bindCall (c : Client) (func : Str) (params : List Str) (g : Given) (clock : PyVal) (code : Code) : Except PyErr ClientCall :=
  if params.contains (py! "self") || (params.contains (py! "stamps") && g.stamps.isNone) then .error .typeError
  else .ok
    { func := func, signer := g.signer.getD c.signer, env := g.environment, stamps := g.stamps.getD 1000000, metering := g.metering,
      now := g.now, clock := clock, code := code
      kwargs := Dict.update ((params.filter fun p => !callKeywords.contains p).map fun p => (p, .none)) g.kwargs }

/-- A call `contract.f(**given)`. -/
def Client.proxyCall (H : Host) (c : Client) (func : Str) (params : List Str) (g : Given) (clock : PyVal) (code : Code) :
    Except PyErr PyVal × Client :=
  match bindCall c func params g clock code with
  | .error e => (.error e, c)
  | .ok q => c.call H q

/-- Python's `func(**kwargs)` (executor.py:128) for a function with these parameters, some of them with a default value:
unknown and missing keywords are `TypeError`s. -/
def bindParams (params : List (Str × Option PyVal)) (body : Dict Str PyVal → Prog) (kwargs : Dict Str PyVal) : Prog :=
  if (Dict.keys kwargs).all ((params.map Prod.fst).contains ·) && params.all (fun p => p.2.isSome || (Dict.get? kwargs p.1).isSome) then
    body (params.map fun p => (p.1, ((Dict.get? kwargs p.1).orElse fun _ => p.2).getD .none))
  else .raise .typeError

/-! ### Attribute access -/

/-- What `contract.item` gives when `item` is no attribute of the object itself. -/
inductive Resolved where
  | value (v : PyVal)
  | variable (x : Variable)
  | hash (h : HashVar)

/-- client.py:113-140 `__getattr__`, after the ordinary lookup failed. `driver.values` lists twice (driver.py:204-206). -/
def getAttr (d : Driver) (name item : Str) : Except PyErr Resolved × Driver :=
  match d.items name with
  | (.error e, d) => (.error e, d)
  | (.ok r, d) =>
    if (Dict.get? r (makeKey name item)).isSome then
      if startsWith item (py! "__") then
        match (Variable.make name item).get d with
        | (.error e, d) => (.error e, d)
        | (.ok v, d) => (.ok (.value v), d)
      else (.ok (.variable (.make name item)), d)
    else
      match d.items (name ++ '.' :: item ++ [':']) with
      | (.error e, d) => (.error e, d)
      | (.ok _, d) =>
        match d.items (name ++ '.' :: item ++ [':']) with
        | (.error e, d) => (.error e, d)
        | (.ok r, d) => if r.length > 0 then (.ok (.hash (.make name item)), d) else (.error .attributeError, d)

/-! ### Submitting -/

/-- submission.s.py:1-17: `submit_contract` as found in the loaded module; `top` is what the submitted source does when it is
run with the constructor arguments. Names and sources that are no strings are not modelled further. -/
def submitFn (H : Host) (T : Toolchain) (top : Str → Str → PyVal → Prog) : Bool × (Dict Str PyVal → Prog) :=
  (true, bindParams [(py! "name", none), (py! "code", none), (py! "owner", some .none), (py! "constructor_args", some (.dict []))] fun kw =>
    match dget kw (py! "name"), dget kw (py! "code") with
    | .str name, .str code => submitContract H T name code (dget kw (py! "owner")) (top name code (dget kw (py! "constructor_args")))
    | _, _ => .raise .typeError)

/-- The arguments of client.py:313 `submit`, for source text; the owner is a name or `None`. -/
structure SubmitArgs where
  source : Str
  name : Option Str := none
  metering : Option Bool := none
  owner : Option Str := none
  args : Dict PyKey PyVal := []
  signer : Option Str := none

/-- client.py:313-334 `submit`; `c` is the client's object for the submission contract, whose callable has these parameters. Functions as
source (`closure_to_code_string`) are not modelled. -/
def Client.submit (H : Host) (c : Client) (a : SubmitArgs) (clock : PyVal) (code : Code) : Except PyErr Unit × Client :=
  match a.name with
  | none => (.error .assertion, c)
  | some name =>
    let r := c.proxyCall H (py! "submit_contract") [py! "name", py! "code", py! "owner", py! "constructor_args"]
      { signer := some (a.signer.getD c.signer), metering := a.metering
        kwargs := [(py! "name", .str name), (py! "code", .str a.source), (py! "owner", optStr a.owner), (py! "constructor_args", .dict a.args)] }
      clock code
    (r.1.map fun _ => (), r.2)

end Verif
