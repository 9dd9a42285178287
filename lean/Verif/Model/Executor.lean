import Verif.Model.Runtime
/-!
# `contracting/execution/executor.py`

Simplification: the `driver=` argument of `execute` is not modelled (the executor's own driver is used).
-/
namespace Verif

/-- executor.py:14-35: the configuration of an `Executor`. -/
structure ExecCfg where
  metering : Bool := true
  currency : Str := py! "currency"
  balances : Str := py! "balances"
  bypassPrivates : Bool := false
  bypassBalance : Bool := false

/-- What the code stored for a contract does: its top level when the module is loaded, and, if the module
has the requested attribute, whether it is wrapped in `__export` and what it does for given arguments. -/
structure Code where
  top : Prog
  fn : Option (Bool × (Dict Str PyVal → Prog))

/-- The arguments of `execute` (executor.py:43-49), together with the code reached by them. -/
structure Tx where
  sender : Str
  contract : Str
  function : Str
  kwargs : Dict Str PyVal := []
  environment : Dict Str PyVal := []
  autoCommit : Bool := false
  stamps : Int := 1000000
  stampCost : Int := 20
  metering : Option Bool := none
  code : Code

/-- executor.py:186-193. `result` holds the status code: an exception means 1. -/
structure Output where
  result : Except PyErr PyVal
  stampsUsed : Int
  writes : Dict Str PyVal
  reads : Dict Str PyVal
  events : List Event

/-- `status_code`. -/
def Output.status (o : Output) : Nat := if o.result.isOk then 0 else 1

/-- executor.py:74-78: the key of the sender's balance. -/
def balanceKey (cfg : ExecCfg) (sender : Str) : Str := cfg.currency ++ '.' :: (cfg.balances ++ ':' :: sender)

/-- `ContractingDecimal(x)` of `balance.get('__fixed__')` (executor.py:87). -/
def cdOfVal : PyVal → Except PyErr Dec
  | .str s => cdOfStr s
  | .int i => cdOfInt i
  | .bool b => cdOfInt (if b then 1 else 0)
  | .dec d => .ok d
  | .flt t => cdOfStr t.text
  | _ => .error .typeError

/-- `balance * stamp_cost >= stamps` (executor.py:86-92) for the balance found. Values that are not
numbers end in a `TypeError`. A raw float balance cannot be stored and counts as one of those. -/
def hasFunds (balance : PyVal) (stampCost stamps : Int) : Except PyErr Bool :=
  let viaDec (d : Dec) : Except PyErr Bool := do
    let p ← cdMul d (← cdOfInt stampCost)
    cdGeInt p stamps
  match balance with
  | .none => .ok (decide (0 * stampCost ≥ stamps))
  | .int i => .ok (decide (i * stampCost ≥ stamps))
  | .bool b => .ok (decide ((if b then 1 else 0) * stampCost ≥ stamps))
  | .dec d => viaDec d
  | .dict kvs => do viaDec (← cdOfVal ((Dict.get? kvs (.str (py! "__fixed__"))).getD .none))
  | _ => .error .typeError

/-- executor.py:73-93: the funds check. -/
def checkFunds (cfg : ExecCfg) (tx : Tx) (w : World) : Except PyErr Unit × World :=
  let r : Except PyErr PyVal × Driver :=
    if cfg.bypassBalance then (.ok (.int 9999999), w.driver) else w.driver.get (balanceKey cfg tx.sender)
  let w := { w with driver := r.2 }
  match r.1 with
  | .error e => (.error e, w)
  | .ok balance =>
    match hasFunds balance tx.stampCost tx.stamps with
    | .error e => (.error e, w)
    | .ok false => (.error .assertion, w)
    | .ok true => (.ok (), w)

/-- executor.py:101-111: the base frame and the owner check. -/
def setBase (tx : Tx) (w : World) : Except PyErr Unit × World :=
  match w.driver.getOwner tx.contract with
  | (.error e, d) => (.error e, { w with driver := d })
  | (.ok owner, d) =>
    let f : Frame :=
      { signer := some tx.sender, caller := some tx.sender, this := some tx.contract,
        entry := some (tx.contract, tx.function), owner := owner, submission := .none }
    let w := { w with driver := d, base := f }
    if ownerRefuses w.current.owner w.current.caller then (.error .exception, w) else (.ok (), w)

/-- executor.py:122-124: raw floats become decimals. -/
def fixKwargs : Dict Str PyVal → Except PyErr (Dict Str PyVal)
  | [] => .ok []
  | (k, v) :: kvs => do
    let v' ← normValue v
    let r ← fixKwargs kvs
    .ok ((k, v') :: r)

/-- executor.py:115 `importlib.import_module(contract_name)`: says whether a host module was found. -/
def loadEntry (H : Host) (tx : Tx) (w : World) : Except PyErr Bool × World :=
  match lookup H w tx.contract with
  | (.error e, w) => (.error e, w)
  | (.ok .missing, w) => (.error .importError, w)
  | (.ok .host, w) => (.ok true, w)
  | (.ok .loaded, w) => (.ok false, w)
  | (.ok .contract, w) =>
    match fetchCompiled w tx.contract with
    | (.error e, w) => (.error e, w)
    | (.ok _, w) =>
      match tx.code.top.run H w with
      | (.error e, w) => (.error e, w)
      | (.ok _, w) => (.ok false, w.addLoaded tx.contract)

/-- runtime.py:102-109 `set_up`, after `enable_restricted_imports` (executor.py:126-127). -/
def setUp (tx : Tx) (metering : Bool) (w : World) : World :=
  { w with
    restricted := true
    meter := if metering then { w.meter with supplied := tx.stamps * 1000 }.start else w.meter
    stack := [] }

/-- executor.py:128: the call of the function found. -/
def callEntry (H : Host) (tx : Tx) (kwargs : Dict Str PyVal) (fn : Bool × (Dict Str PyVal → Prog)) (w : World) :
    Except PyErr PyVal × World :=
  if fn.1 then (Prog.call tx.contract (fn.2 kwargs) fun r => match r with | .ok v => .ret v | .error e => .raise e).run H w
  else (fn.2 kwargs).run H w

/-- executor.py:116-128: attribute lookup, arguments, set-up and the call. -/
def invoke (H : Host) (tx : Tx) (metering host : Bool) (w : World) : Except PyErr PyVal × World :=
  if host then
    let w := setUp tx metering { w with hostCalls := w.hostCalls ++ [(tx.contract, tx.function)] }
    (H.hostCall tx.contract tx.function, w)
  else
    match tx.code.fn with
    | none => (.error .attributeError, w)
    | some fn =>
      let w := if tx.contract = py! "submission" then
          { w with base := { w.base with submission := (Dict.get? tx.kwargs (py! "name")).getD .none } } else w
      match fixKwargs tx.kwargs with
      | .error e => (.error e, w)
      | .ok kwargs => callEntry H tx kwargs fn (setUp tx metering w)

/-- executor.py:72-128: the `try` block up to the return of the contract function. -/
def attempt (H : Host) (cfg : ExecCfg) (tx : Tx) (metering : Bool) (w : World) : Except PyErr PyVal × World :=
  match (if metering then checkFunds cfg tx w else (.ok (), w)) with
  | (.error e, w) => (.error e, w)
  | (.ok _, w) =>
    match setBase tx { w with env := Dict.update w.env tx.environment } with
    | (.error e, w) => (.error e, w)
    | (.ok _, w) =>
      match loadEntry H tx w with
      | (.error e, w) => (.error e, w)
      | (.ok host, w) => invoke H tx metering host w

/-- What the `try` statement leaves behind: result, reported writes and events. -/
structure Outcome where
  result : Except PyErr PyVal
  writes : Dict Str PyVal
  events : List Event

/-- executor.py:137-145: the `except` block. -/
def onError (tx : Tx) (snapshot : Dict Str PyVal) (e : PyErr) (w : World) : Outcome × World :=
  let d := { w.driver with pendingWrites := snapshot }
  ({ result := .error e, writes := [], events := [] },
   { w with driver := if tx.autoCommit then d.flushCache else d })

/-- executor.py:72-145: the `try` and `except` blocks. -/
def tryBlock (H : Host) (cfg : ExecCfg) (tx : Tx) (metering : Bool) (snapshot : Dict Str PyVal) (w : World) :
    Outcome × World :=
  match attempt H cfg tx metering w with
  | (.error e, w) => onError tx snapshot e w
  | (.ok v, w) =>
    let o : Outcome := { result := .ok v, writes := w.driver.txWrites, events := w.driver.events }
    let w := { w with meter := w.meter.stop, restricted := false }
    if tx.autoCommit then
      match w.driver.commit with
      | (.error e, d) => onError tx snapshot e { w with driver := d }
      | (.ok _, d) => (o, { w with driver := d })
    else (o, w)

/-- executor.py:155-161. -/
def stampsUsed (tx : Tx) (w : World) : Int :=
  let u : Int := w.meter.cost / 1000 + 5
  if u > tx.stamps then tx.stamps else u

/-- executor.py:171-174: `max(balance - to_deduct, 0)`. -/
def afterFee (balance : PyVal) (fee : Dec) : Except PyErr PyVal :=
  let viaDec (b : Dec) : Except PyErr PyVal := do
    let r ← cdSub b fee
    if (← cdLtInt r 0) then .ok (.int 0) else .ok (.dec r)
  match balance with
  | .none => do viaDec (← cdOfInt 0)
  | .int i => do viaDec (← cdOfInt i)
  | .bool b => do viaDec (← cdOfInt (if b then 1 else 0))
  | .dec d => viaDec d
  | _ => .error .typeError

/-- executor.py:166-168: the fee as a contract decimal. -/
def feeOf (H : Host) (tx : Tx) (used : Int) : Except PyErr Dec :=
  if tx.stampCost = 0 then .error .divisionByZero else cdOfStr (H.fdiv used tx.stampCost).text

/-- executor.py:163-180: the fee deduction; an exception here leaves `execute`. -/
def chargeFee (H : Host) (cfg : ExecCfg) (tx : Tx) (used : Int) (writes : Dict Str PyVal) (w : World) :
    Except PyErr (Dict Str PyVal) × World :=
  match feeOf H tx used with
  | .error e => (.error e, w)
  | .ok fee =>
    let key := balanceKey cfg tx.sender
    match w.driver.get key with
    | (.error e, d) => (.error e, { w with driver := d })
    | (.ok balance, d) =>
      let w := { w with driver := d }
      match afterFee balance fee with
      | .error e => (.error e, w)
      | .ok b =>
        match w.driver.set w.meter key b false with
        | (.error e, m, d) => (.error e, { w with meter := m, driver := d })
        | (.ok _, m, d) =>
          let w := { w with meter := m, driver := d }
          let writes := Dict.set writes key b
          if tx.autoCommit then
            match w.driver.commit with
            | (.error e, d) => (.error e, { w with driver := d })
            | (.ok _, d) => (.ok writes, { w with driver := d })
          else (.ok writes, w)

/-- executor.py:182-184 with runtime.py:111-125 `clean_up`, and 195. -/
def cleanUp (w : World) : World :=
  { w with seeded := false, meter := { w.meter.stop.reset with writes := 0 }, loaded := [], env := [], logs := [],
           restricted := false }

/-- executor.py:43-196 `execute`. An exception outcome means it escaped to the caller of `execute`. -/
def execute (H : Host) (cfg : ExecCfg) (tx : Tx) (w : World) : Except PyErr Output × World :=
  let snapshot := w.driver.pendingWrites
  let w := { w with driver := w.driver.clearTxWrites.clearEvents }
  if !cfg.bypassPrivates && startsWith tx.function (py! "__") then (.error .assertion, w)
  else
    let metering := tx.metering.getD cfg.metering
    let r := tryBlock H cfg tx metering snapshot w
    let o := r.1
    let w := r.2
    let w := { w with driver := w.driver.clearEvents.clearTxWrites, meter := w.meter.stop }
    let used := stampsUsed tx w
    match (if metering then chargeFee H cfg tx used o.writes w else (.ok o.writes, w)) with
    | (.error e, w) => (.error e, w)
    | (.ok writes, w) =>
      (.ok { result := o.result, stampsUsed := used, writes := writes, reads := w.driver.pendingReads,
             events := o.events }, cleanUp w)

end Verif
