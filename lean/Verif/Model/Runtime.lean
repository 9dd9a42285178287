import Verif.Model.Orm
/-!
# Contract execution: `execution/runtime.py`, `execution/module.py`, `stdlib/bridge/*`

Contract code is represented by the tree of its interactions with the system (`Prog`): every call it
makes into the API, with a continuation for each possible answer. A theorem about all `Prog`s is a
theorem about every terminating contract execution, whatever Python computes in between.

Simplifications: a mutable object stored under a key is shared only with the records of that same key
(`Action.mutate`); trace events inside library code are separate `line false` actions placed before the
library operation; `RecursionError`, `KeyboardInterrupt` and the like are exceptions a `Prog` may raise.
-/
namespace Verif

/-- What Python's random generator has been asked for (bridge/random.py:51, 61, 66, 71, 76, 81). -/
inductive DrawReq where
  | bit                          -- `random.random() > 0.5`
  | shuffle (n : Nat)
  | randrange (k : Int)
  | randint (a b : Int)
  | choice (n : Nat)
  | choices (n : Nat) (k : Int)
  deriving DecidableEq, Repr

/-- State of Python's global generator: the text it was last seeded with (`none`: the operating
system's entropy) and the requests made since. The Mersenne twister is a function of these. -/
structure RngState where
  seed : Option Str := none
  drawn : List DrawReq := []
  deriving DecidableEq, Repr

/-- Everything outside the modelled code: Python's `str` of compound values, its Unicode tables beyond
ASCII, the modules of the host interpreter, the random generator, and float division. Nothing is
assumed about them. -/
structure Host where
  strOf : PyVal → Str
  uniAlnum : Char → Bool
  uniDigit : Char → Bool
  uniLower : Char → Bool
  uniUpper : Char → Bool
  /-- names in `sys.stdlib_module_names` / `sys.builtin_module_names` -/
  stdlib : Str → Bool
  /-- Python modules already in `sys.modules` -/
  imported : Str → Bool
  /-- Python modules the remaining finders can load -/
  importable : Str → Bool
  /-- what a function of a host module answers -/
  hostCall : Str → Str → Except PyErr PyVal
  bit : RngState → Bool
  draw : RngState → DrawReq → Except PyErr PyVal
  /-- `float` true division of two ints -/
  fdiv : Int → Int → FloatTok

/-! ### Characters -/

/-- ASCII letter in lower case. -/
def isLowerA (c : Char) : Bool := 'a' ≤ c && c ≤ 'z'
/-- ASCII letter in upper case. -/
def isUpperA (c : Char) : Bool := 'A' ≤ c && c ≤ 'Z'
/-- ASCII digit. -/
def isDigitA (c : Char) : Bool := '0' ≤ c && c ≤ '9'
/-- ASCII character. -/
def isAscii (c : Char) : Bool := c.toNat < 128

/-- `c.isalnum()`. -/
def Host.isAlnum (H : Host) (c : Char) : Bool :=
  if isAscii c then isLowerA c || isUpperA c || isDigitA c else H.uniAlnum c
/-- `c.isdigit()`. -/
def Host.isDigit (H : Host) (c : Char) : Bool := if isAscii c then isDigitA c else H.uniDigit c
/-- A lower case character. -/
def Host.isLower (H : Host) (c : Char) : Bool := if isAscii c then isLowerA c else H.uniLower c
/-- An upper or title case character. -/
def Host.isUpper (H : Host) (c : Char) : Bool := if isAscii c then isUpperA c else H.uniUpper c
/-- `s.islower()`: some cased character, none of them upper or title case. -/
def Host.strIsLower (H : Host) (s : Str) : Bool := s.any H.isLower && !s.any H.isUpper
/-- `s.isdigit()`. -/
def Host.strIsDigit (H : Host) (s : Str) : Bool := s ≠ [] && s.all H.isDigit

/-! ### Values -/

/-- `str(v)`. -/
def Host.str (H : Host) : PyVal → Str
  | .none => py! "None"
  | .bool true => py! "True"
  | .bool false => py! "False"
  | .int i => intToStr i
  | .flt .nan => py! "nan"
  | .flt (.inf false) => py! "inf"
  | .flt (.inf true) => py! "-inf"
  | .flt (.lit neg ip frac exp) => (FloatTok.lit neg ip frac exp).text
  | .str s => s
  | .dec d => cdStr d
  | v => H.strOf v

/-- `bool(v)`. -/
def truthy : PyVal → Bool
  | .none => false
  | .bool b => b
  | .int i => i ≠ 0
  | .flt (.lit _ ip frac _) => ip ≠ 0 || frac.any (· ≠ '0')
  | .flt _ => true
  | .str s => s ≠ []
  | .bytes bs => bs.length ≠ 0
  | .dec d => cdBool d
  | .time _ => true
  | .delta _ _ => true
  | .list xs => xs.length ≠ 0
  | .tuple xs => xs.length ≠ 0
  | .dict kvs => kvs.length ≠ 0
  | .obj _ => true

/-! ### Context frames -/

/-- access.py:17-24 and executor.py:101-108: one context state. -/
structure Frame where
  this : Option Str := none
  caller : Option Str := none
  signer : Option Str := none
  owner : PyVal := .none
  entry : Option (Str × Str) := none
  submission : PyVal := .none

/-- One declared parameter of an event (orm.py:175-186): the accepted classes and the `idx` flag. -/
structure Param where
  types : List PyType
  idx : Bool
  deriving DecidableEq, Repr

/-- orm.py:166-170: a constructed `LogEvent`; `signer` is the context's signer at construction. -/
structure LogEvent where
  event : Str
  params : Dict Str Param
  signer : Option Str

/-- The process: the singletons `rt` (runtime.py:83-100, 10-15), `Seeded` (random.py:20-21),
`DatabaseFinder.driver`, Python's generator and `builtins.__import__`. The environment does not list
the `__Driver` entry (it is always the driver). The top of the stack is the head. `logs` are the
`LogEvent` objects alive; `hostCalls` records calls of functions of host modules. -/
structure World where
  driver : Driver
  meter : Meter := {}
  base : Frame := {}
  stack : List (Frame × Nat) := []
  seeded : Bool := false
  rng : RngState := {}
  env : Dict Str PyVal := []
  loaded : List Str := []
  restricted : Bool := false
  logs : List LogEvent := []
  hostCalls : List (Str × Str) := []

namespace World

/-- runtime.py:22-25 `_get_state`. -/
def current (w : World) : Frame :=
  match w.stack with
  | [] => w.base
  | (f, _) :: _ => f

/-- `constants.RECURSION_LIMIT` (runtime.py:11). -/
def maxFrames : Nat := 1024

/-- runtime.py:27-30 `_add_state`. -/
def addState (w : World) (f : Frame) : World :=
  if w.current.this ≠ f.this ∧ w.stack.length < maxFrames then { w with stack := (f, 1) :: w.stack } else w

/-- runtime.py:32-34 `_ins_state`. -/
def insState (w : World) : World :=
  match w.stack with
  | [] => w
  | (f, n) :: s => { w with stack := (f, n + 1) :: s }

/-- runtime.py:36-41 `_pop_state`. -/
def popState (w : World) : World :=
  match w.stack with
  | [] => w
  | (f, n) :: s => if n - 1 = 0 then { w with stack := s } else { w with stack := (f, n - 1) :: s }

end World

/-- `owner == caller`. -/
def ownerIs : PyVal → Option Str → Bool
  | .str o, some c => o = c
  | _, _ => false

/-- access.py:28, executor.py:110: the caller is refused. -/
def ownerRefuses (owner : PyVal) (caller : Option Str) : Bool := !owner.isNone && !ownerIs owner caller

/-- access.py:11-31 `__export.__enter__`. -/
def enter (c : Str) (w : World) : Except PyErr Unit × World :=
  if w.current.this ≠ some c then
    match w.driver.getOwner c with
    | (.error e, d) => (.error e, { w with driver := d })
    | (.ok owner, d) =>
      let cur := w.current
      let f : Frame :=
        { owner := owner, caller := cur.this, signer := cur.signer, this := some c, entry := cur.entry,
          submission := cur.submission }
      let w := ({ w with driver := d }).addState f
      if ownerRefuses f.owner f.caller then (.error .exception, w) else (.ok (), w)
  else (.ok (), w.insState)

/-! ### API calls -/

/-- What contract code (or the submission contract) can ask of the system in one step. -/
inductive Action where
  /-- a traced line (tracer.py:88-131) -/
  | line (contract : Bool) (opCost mem : Nat)
  /-- `n` library lines inside a library `try` block that swallows every exception: `crypto.verify`
  (bridge/crypto.py:11-15), `Hash.all`/`Hash.clear` through `iter_from_disk` (driver.py:149-152) -/
  | guarded (n : Nat)
  | varSet (x : Variable) (v : PyVal)
  | varGet (x : Variable)
  | hashSet (h : HashVar) (ix : Index) (v : PyVal)
  | hashGet (h : HashVar) (ix : Index)
  | hashAll (h : HashVar) (args : List Comp)
  | hashItems (h : HashVar) (args : List Comp)
  | hashClear (h : HashVar) (args : List Comp)
  | foreignVarSet (x : Variable) (v : PyVal)
  | foreignHashSet (h : HashVar) (ix : Index) (v : PyVal)
  | foreignHashClear (h : HashVar) (args : List Comp)
  /-- in-place change of a list or dict obtained from `key` (the object is the one held by the pending
  writes or the cache, and possibly by the read and transaction-write records) -/
  | mutate (key : Str) (v : PyVal) (inReads inTx : Bool)
  | ctxThis | ctxCaller | ctxSigner | ctxOwner | ctxEntry | ctxSubmission
  | envGet (name : Str)
  | newLog (event : Str) (params : Dict Str Param)
  /-- in-place change of the parameter dict a `LogEvent` was built from (orm.py:168 keeps the caller's
  object) -/
  | alterLog (log : Nat) (params : Dict Str Param)
  | emit (log : Nat) (data : Dict Str PyVal)
  | seed (salt : Option Str)
  | getrandbits (k : Nat)
  | draw (r : DrawReq)
  | ownerOf (name : Str)
  /-- `driver.get_var` / `driver.set_var`: only the submission contract holds a driver
  (`__Contract()._driver`, submission.s.py:21-28; contract.py:15-45) -/
  | rawGet (key : Str)
  | rawSet (key : Str) (v : PyVal)

/-- `some c` as a Python string, `none` as `None`. -/
def optStr : Option Str → PyVal
  | some s => .str s
  | none => .none

/-- orm.py:166-186: `LogEvent.__init__`; at most three indexed parameters, at least one parameter, and
classes among str, int, float, bool, decimal. -/
def newLog (w : World) (event : Str) (params : Dict Str Param) : Except PyErr PyVal × World :=
  let allowed : PyType → Bool := fun t => t = .str ∨ t = .int ∨ t = .float ∨ t = .bool ∨ t = .decimal
  if params.length = 0 then (.error .assertion, w)
  else if ((Dict.values params).filter fun p => p.idx).length > 3 then (.error .assertion, w)
  else if !(Dict.values params).all fun p => p.types.all allowed then (.error .assertion, w)
  else (.ok (.int w.logs.length),
    { w with logs := w.logs ++ [{ event := event, params := params, signer := w.current.signer }] })

/-- orm.py:203-218: one iteration of the argument check. -/
def checkArg (H : Host) (data : Dict Str PyVal) (p : Str × Param) : Bool :=
  match Dict.get? data p.1 with
  | none => false
  | some v => p.2.types.any (isInstance v) && decide (utf8Len (H.str v) ≤ 1024)

/-- orm.py:238-249: charge each argument as a write. -/
def chargeArgs (m : Meter) : List (Str × PyVal) → Except PyErr Unit × Meter
  | [] => (.ok (), m)
  | (k, v) :: ps =>
    match encode v with
    | .error e => (.error e, m)
    | .ok t =>
      match m.deductWrite (utf8Len k + t.length) with
      | (.error e, m) => (.error e, m)
      | (.ok _, m) => chargeArgs m ps

/-- orm.py:225-234: the arguments with a given `idx` flag. -/
def selectArgs (params : Dict Str Param) (data : Dict Str PyVal) (idx : Bool) : Dict Str PyVal :=
  (params.filter fun p => p.2.idx == idx).filterMap fun p => (Dict.get? data p.1).map fun v => (p.1, v)

/-- orm.py:189-251 `LogEvent.write_event`. The repeated type assertions of lines 239-241 and 245-247
cannot fail after those of 209-212 and are left out. -/
def emitEvent (H : Host) (w : World) (l : LogEvent) (data : Dict Str PyVal) : Except PyErr PyVal × World :=
  if data.length ≠ l.params.length then (.error .assertion, w)
  else if !(Dict.keys data).all fun a => Dict.has l.params a then (.error .assertion, w)
  else if !l.params.all (checkArg H data) then (.error .assertion, w)
  else
    let ev : Event :=
      { contract := w.current.this, event := l.event, signer := l.signer, caller := w.current.caller,
        dataIndexed := selectArgs l.params data true, data := selectArgs l.params data false }
    match chargeArgs w.meter ev.dataIndexed with
    | (.error e, m) => (.error e, { w with meter := m })
    | (.ok _, m) =>
      match chargeArgs m ev.data with
      | (.error e, m) => (.error e, { w with meter := m })
      | (.ok _, m) => (.ok .none, { w with meter := m, driver := w.driver.setEvent ev })

/-- `rt.env.get(k)`. -/
def World.envGet (w : World) (k : Str) : PyVal := dget w.env k

/-- `x or '0'`, then used as an operand of string concatenation: non-strings are a `TypeError`. -/
def orZero (v : PyVal) : Except PyErr Str :=
  if truthy v then (match v with | .str s => .ok s | _ => .error .typeError) else .ok (py! "0")

/-- random.py:25-40: the seed text. -/
def seedText (H : Host) (env : Dict Str PyVal) (salt : Option Str) : Except PyErr Str := do
  let height := if (dget env (py! "block_num")).isNone then py! "0" else H.str (dget env (py! "block_num"))
  let hash ← orZero (dget env (py! "block_hash"))
  let input ← orZero (dget env (py! "__input_hash"))
  let aux : Str :=
    match salt with
    | some k =>
      if truthy (dget env k) then H.str (dget env k)
      else if truthy (dget env (py! "AUXILIARY_SALT")) then H.str (dget env (py! "AUXILIARY_SALT")) else []
    | none => if truthy (dget env (py! "AUXILIARY_SALT")) then H.str (dget env (py! "AUXILIARY_SALT")) else []
  .ok (height ++ hash ++ input ++ aux)

/-- random.py:24-43 `seed`. -/
def doSeed (H : Host) (w : World) (salt : Option Str) : Except PyErr PyVal × World :=
  match seedText H w.env salt with
  | .error e => (.error e, w)
  | .ok s => (.ok .none, { w with rng := { seed := some s, drawn := [] }, seeded := true })

/-- random.py:49-56: `k` bits, the first drawn is the most significant. -/
def drawBits (H : Host) (r : RngState) : Nat → List Bool × RngState
  | 0 => ([], r)
  | n + 1 =>
    let b := H.bit r
    let (bs, r') := drawBits H { r with drawn := r.drawn ++ [.bit] } n
    (b :: bs, r')

/-- `int(b_str, 2)` of a non-empty binary string. -/
def ofBits (bs : List Bool) : Nat := bs.foldl (fun n b => 2 * n + (if b then 1 else 0)) 0

/-- random.py:46-56 `getrandbits`: `int('', 2)` is a `ValueError`. -/
def doGetrandbits (H : Host) (w : World) (k : Nat) : Except PyErr PyVal × World :=
  if !w.seeded then (.error .assertion, w)
  else
    let (bs, r) := drawBits H w.rng k
    let w := { w with rng := r }
    if bs = [] then (.error .valueError, w) else (.ok (.int (ofBits bs)), w)

/-- random.py:59-81: the other functions. -/
def doDraw (H : Host) (w : World) (q : DrawReq) : Except PyErr PyVal × World :=
  if !w.seeded then (.error .assertion, w)
  else (H.draw w.rng q, { w with rng := { w.rng with drawn := w.rng.drawn ++ [q] } })

/-- In-place mutation of the object stored under a key. -/
def Driver.mutate (d : Driver) (key : Str) (v : PyVal) (inReads inTx : Bool) : Driver :=
  let put (m : Dict Str PyVal) : Dict Str PyVal := if Dict.has m key then Dict.set m key v else m
  let d := if (dget d.pendingWrites key).isNone then { d with cache := put d.cache }
    else { d with pendingWrites := put d.pendingWrites }
  { d with
    pendingReads := if inReads then put d.pendingReads else d.pendingReads
    txWrites := if inTx then put d.txWrites else d.txWrites }

/-- `n` library lines (outside contract code); stops at the first exception. -/
def libLines (m : Meter) : Nat → Except PyErr Unit × Meter
  | 0 => (.ok (), m)
  | n + 1 =>
    match m.line false 0 0 with
    | (.error e, m) => (.error e, m)
    | (.ok _, m) => libLines m n

/-- Lift a metered driver operation. -/
def World.md (w : World) (r : Except PyErr Unit × Meter × Driver) : Except PyErr PyVal × World :=
  (r.1.map fun _ => .none, { w with meter := r.2.1, driver := r.2.2 })

/-- Lift a driver read. -/
def World.rd (w : World) (r : Except PyErr PyVal × Driver) : Except PyErr PyVal × World :=
  (r.1, { w with driver := r.2 })

/-- Perform one API call. -/
def Action.run (H : Host) (w : World) : Action → Except PyErr PyVal × World
  | .line c op mem => let r := w.meter.line c op mem; (r.1.map fun _ => .none, { w with meter := r.2 })
  | .guarded n => let r := libLines w.meter n; (.ok (.bool (r.1.isOk)), { w with meter := r.2 })
  | .varSet x v => w.md (x.set w.meter w.driver v)
  | .varGet x => w.rd (x.get w.driver)
  | .hashSet h ix v => w.md (h.setItem w.meter w.driver ix v)
  | .hashGet h ix => w.rd (h.getItem w.driver ix)
  | .hashAll h args => let r := h.all w.driver args; w.rd (r.1.map .list, r.2)
  | .hashItems h args =>
    let r := h.items w.driver args
    w.rd (r.1.map fun kvs => .dict (kvs.map fun kv => (.str kv.1, kv.2)), r.2)
  | .hashClear h args => w.md (h.clear w.meter w.driver args)
  | .foreignVarSet x v => w.md (foreignVariableSet x w.meter w.driver v)
  | .foreignHashSet h ix v => w.md (foreignHashSetItem h w.meter w.driver ix v)
  | .foreignHashClear h args => w.md (Verif.foreignHashClear h w.meter w.driver args)
  | .mutate key v inReads inTx => (.ok .none, { w with driver := w.driver.mutate key v inReads inTx })
  | .ctxThis => (.ok (optStr w.current.this), w)
  | .ctxCaller => (.ok (optStr w.current.caller), w)
  | .ctxSigner => (.ok (optStr w.current.signer), w)
  | .ctxOwner => (.ok w.current.owner, w)
  | .ctxEntry => (.ok (match w.current.entry with | some (c, f) => .tuple [.str c, .str f] | none => .none), w)
  | .ctxSubmission => (.ok w.current.submission, w)
  | .envGet name => (.ok (w.envGet name), w)
  | .newLog ev ps => Verif.newLog w ev ps
  | .alterLog l ps =>
    (.ok .none, { w with logs := w.logs.modify l fun x => { x with params := ps } })
  | .emit l data =>
    match w.logs[l]? with
    | none => (.error .typeError, w)
    | some l => emitEvent H w l data
  | .seed salt => doSeed H w salt
  | .getrandbits k => doGetrandbits H w k
  | .draw q => doDraw H w q
  | .ownerOf name => w.rd (w.driver.get (makeKey name (py! "__owner__")))
  | .rawGet key => w.rd (w.driver.get key)
  | .rawSet key v => w.md (w.driver.set w.meter key v false)

/-! ### Programs -/

/-- A contract execution as an interaction tree. `call c body k` calls a function of contract `c`
wrapped in `__export(c)`; calls of unexported functions are part of the tree itself. `load` imports a
module: by an `import` statement, or (`dyn`) through `importlib.import_module`; `body` is the top level of
the module. Continuations receive the exception when the operation raised. -/
inductive Prog where
  | ret (v : PyVal)
  | raise (e : PyErr)
  | act (a : Action) (k : Except PyErr PyVal → Prog)
  | call (c : Str) (body : Prog) (k : Except PyErr PyVal → Prog)
  | load (name : Str) (dyn : Bool) (body : Prog) (k : Except PyErr PyVal → Prog)

/-- What `sys.modules` and the finders say about a module name. -/
inductive Found where
  | loaded     -- a contract already in `sys.modules`
  | host       -- a module of the host interpreter
  | contract   -- stored code, to be executed
  | missing

/-- Python's import lookup: `sys.modules`, then `DatabaseFinder` (module.py:76-82), then the remaining
finders. For `a.b` Python first imports `a` and asks the finders about `a.b` only if `a` is a package; a
contract module never is one. Simplifications: the top level of a contract `a` that runs on the way is not
part of the lookup of `a.b` (a program can show it as a preceding `load`), and the host packages loaded on
the way are given by `packagesLoaded`; a module is not in `loaded` while its own top level runs (a
circular import is a `load` with an empty body). -/
def lookup (H : Host) (w : World) (name : Str) : Except PyErr Found × World :=
  if name ∈ w.loaded then (.ok .loaded, w)
  else if H.imported name then (.ok .host, w)
  else if '.' ∈ name then (.ok (if H.importable name then .host else .missing), w)
  else
    match w.driver.get (makeKey name (py! "__code__")) with
    | (.error e, d) => (.error e, { w with driver := d })
    | (.ok v, d) =>
      let w := { w with driver := d }
      if v.isNone then (.ok (if H.importable name then .host else .missing), w) else (.ok .contract, w)

/-- The host packages whose code Python runs in order to look up a dotted name (module.py:30:
`importlib.util.find_spec` imports the parent of `a.b`, through the unrestricted import, before it looks
for `a.b`). Simplification: only the outermost parent. -/
def packagesLoaded (H : Host) (w : World) (name : Str) : List Str :=
  let parent := name.takeWhile (· ≠ '.')
  if '.' ∉ name || name ∈ w.loaded || H.imported name then []
  else if parent ∈ w.loaded || H.imported parent then []
  else
    match (w.driver.get (makeKey parent (py! "__code__"))).1 with
    | .error _ => []
    | .ok v => if v.isNone && H.importable parent then [parent] else []

/-- module.py:95-104: the stored code object, before it is executed. -/
def fetchCompiled (w : World) (name : Str) : Except PyErr Unit × World :=
  match w.driver.get (makeKey name (py! "__compiled__")) with
  | (.error e, d) => (.error e, { w with driver := d })
  | (.ok v, d) =>
    let w := { w with driver := d }
    match v with
    | .none => (.error .importError, w)
    | .bytes _ => (.ok (), w)
    | .str _ => (.ok (), w)
    | _ => (.error .typeError, w)

/-- bridge/imports.py:50-65: the checks of `importlib.import_module`. -/
def dynChecks (H : Host) (w : World) (name : Str) : Except PyErr Unit × World :=
  if H.strIsDigit name || !name.all (fun c => H.isAlnum c || c == '_') then (.error .assertion, w)
  else if !H.strIsLower name then (.error .assertion, w)
  else if H.stdlib name then (.error .importError, w)
  else if startsWith name (py! "_") then (.error .importError, w)
  else
    match w.driver.get (makeKey name (py! "__code__")) with
    | (.error e, d) => (.error e, { w with driver := d })
    | (.ok v, d) =>
      let w := { w with driver := d }
      if v.isNone then (.error .importError, w) else (.ok (), w)

/-- module.py:28-34 `restricted_import` when enabled: only contract modules. -/
def restrictedCheck (H : Host) (w : World) (name : Str) : Except PyErr Unit × World :=
  if w.restricted then
    match lookup H w name with
    | (.error e, w) => (.error e, w)
    | (.ok .loaded, w) => (.ok (), w)
    | (.ok .contract, w) => (.ok (), w)
    | (.ok _, w) => (.error .importError, w)
  else (.ok (), w)

/-- Everything an import does before the module's top level runs. -/
def importStart (H : Host) (w : World) (name : Str) (dyn : Bool) : Except PyErr Found × World :=
  match (if dyn then dynChecks H w name else restrictedCheck H w name) with
  | (.error e, w) => (.error e, w)
  | (.ok _, w) =>
    match lookup H w name with
    | (.error e, w) => (.error e, w)
    | (.ok .contract, w) =>
      match fetchCompiled w name with
      | (.error e, w) => (.error e, w)
      | (.ok _, w) => (.ok .contract, w)
    | (.ok f, w) => (.ok f, w)

/-- module.py:121: `rt.loaded_modules.append`. -/
def World.addLoaded (w : World) (name : Str) : World := { w with loaded := name :: w.loaded }

/-- Run a program. -/
def Prog.run (H : Host) : Prog → World → Except PyErr PyVal × World
  | .ret v, w => (.ok v, w)
  | .raise e, w => (.error e, w)
  | .act a k, w =>
    let r := a.run H w
    (k r.1).run H r.2
  | .call c body k, w =>
    match enter c w with
    | (.error e, w) => (k (.error e)).run H w
    | (.ok _, w) =>
      let r := body.run H w
      (k r.1).run H r.2.popState
  | .load name dyn body k, w =>
    match importStart H w name dyn with
    | (.error e, w) => (k (.error e)).run H w
    | (.ok .missing, w) => (k (.error .importError)).run H w
    | (.ok .host, w) => (k (.ok .none)).run H w
    | (.ok .loaded, w) => (k (.ok .none)).run H w
    | (.ok .contract, w) =>
      let r := body.run H w
      match r with
      | (.error e, w) => (k (.error e)).run H w
      | (.ok _, w) => (k (.ok .none)).run H (w.addLoaded name)

end Verif
