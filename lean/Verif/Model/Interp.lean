import Verif.Model.Lang
import Verif.Model.Executor
/-!
# What compiled contracts do

The meaning of the compiled language as interaction trees (`Prog`, `Model/Runtime.lean`): Python's evaluation of the
statements, with the module scope of `execution/module.py:95-121` and `stdlib/env.py`. What Python computes on plain
data (arithmetic, comparisons, builtins, methods of strings, lists, ...) is a parameter `Data`: an arbitrary function
of the operands.

Simplifications: lists and dicts are not changed in place; a container holds plain data only; the keyword arguments
of one call are distinct; of the library, `importlib.enforce_interface` and the functions of `random` that work on lists
are left out; a `LogEvent` is built anew each time it is called, which differs from the one built when the module was
loaded in nothing a contract can see (its signer is that of the transaction, C36). A program that does one of these, or returns something else than plain data from an exported function, ends with the
exception `unmodelled`. What a line costs is a function of the contract and the statement. `n` bounds the depth of
calls and the number of iterations of one `while` loop.
-/
namespace Verif.Lang
open Verif

/-- Python on plain data. -/
structure Data where
  op : Op → List PyVal → Except PyErr PyVal
  /-- `a[i]` -/
  sub : PyVal → PyVal → Except PyErr PyVal
  /-- `a.x`; `none` when it is a method -/
  attr : PyVal → Str → Option (Except PyErr PyVal)
  method : PyVal → Str → List PyVal → List (Str × PyVal) → Except PyErr PyVal
  /-- builtins and library functions without effects, by dotted name -/
  call : Str → List PyVal → List (Str × PyVal) → Except PyErr PyVal
  /-- the values a `for` loop runs over -/
  iter : PyVal → Except PyErr (List PyVal)
  /-- `str(v)` -/
  str : PyVal → Str
  /-- bytes and complex literals, `...` -/
  const : Const → PyVal
  /-- the names of the builtins and the library modules (`datetime`, `hashlib`, `crypto`, `decimal`, ...) -/
  builtin : Str → Bool

/-- What names can stand for. -/
inductive Val where
  | data (v : PyVal)
  | var (x : Variable)
  | hash (h : HashVar)
  | fvar (x : Variable)
  | fhash (h : HashVar)
  /-- one of the storage classes (bridge/orm.py:49-56) -/
  | cls (name : Str)
  /-- the storage driver, `rt.env['__Driver']` -/
  | driver
  /-- the `i`-th function of contract `c` -/
  | fn (c : Str) (i : Nat)
  | mod (c : Str)
  /-- a builtin, a library module or something in one, by dotted name -/
  | sys (path : Str)
  /-- a method of an object -/
  | meth (v : Val) (a : Str)
  /-- a log event (orm.py:159-186) -/
  | event (name : Str) (params : Dict Str Param)
  /-- the parameters of a log event: a dict of dicts with classes in it -/
  | params (ps : Dict Str Param)

/-- The local variables of a running function: which names are local, and the values of those that are bound. -/
structure Locals where
  names : List Str
  vars : Dict Str Val

/-- `x = v`. -/
def Locals.set (l : Locals) (x : Str) (v : Val) : Locals := { l with vars := Dict.set l.vars x v }

/-- How a block of statements ends. -/
inductive Flow where
  | next
  | ret (v : Val)
  | break
  | continue

/-- Go on with a result, or raise. -/
def orRaise {α : Type} (r : Except PyErr α) (k : α → Prog) : Prog :=
  match r with
  | .ok v => k v
  | .error e => .raise e

/-- One API call. -/
def api (a : Action) (k : PyVal → Prog) : Prog := .act a fun r => orRaise r k

/-- Plain data is needed. -/
def asData (v : Val) (k : PyVal → Prog) : Prog :=
  match v with
  | .data d => k d
  | _ => .raise .unmodelled

/-- Plain data is needed, several times. -/
def asDatas (vs : List Val) (k : List PyVal → Prog) : Prog :=
  match vs with
  | [] => k []
  | v :: vs => asData v fun d => asDatas vs fun ds => k (d :: ds)

/-- Keyword arguments that are plain data. -/
def asKws (ks : List (Str × Val)) (k : List (Str × PyVal) → Prog) : Prog :=
  match ks with
  | [] => k []
  | (x, v) :: ks => asData v fun d => asKws ks fun ds => k ((x, d) :: ds)

/-- A constant. -/
def constVal (D : Data) : Const → Except PyErr PyVal
  | .int i => .ok (.int i)
  | .str s => .ok (.str s)
  | .bool b => .ok (.bool b)
  | .none => .ok .none
  -- compiled code has no float literals (C43); in a source text they mean decimals
  | .float t => D.call (py! "decimal") [.str t] []
  | c => .ok (D.const c)

/-- `str(k)` with the kind the index check looks at (orm.py:63-91). -/
def compOf (D : Data) : PyVal → Comp
  | .int i => .int i
  | .str s => .str s
  | v => .other (D.str v)

/-- `h[v]`. -/
def indexOf (D : Data) : PyVal → Index
  | .tuple vs => .tuple (vs.map (compOf D))
  | v => .one (compOf D v)

/-! ### Arguments -/

/-- The arguments that were not given by position: by keyword or default. -/
def fillArgs (ks defaults : List (Str × Val)) : List Str → Except PyErr (List (Str × Val))
  | [] => .ok []
  | p :: ps =>
    match (Dict.get? ks p).or (Dict.get? defaults p) with
    | none => .error .typeError
    | some v => (fillArgs ks defaults ps).map fun r => (p, v) :: r

/-- Python's argument binding. -/
def bindArgs (params : List Str) (defaults : List (Str × Val)) (vs : List Val) (ks : List (Str × Val)) :
    Except PyErr (List (Str × Val)) :=
  if params.length < vs.length then .error .typeError
  else if ks.all fun k => (params.drop vs.length).contains k.1 then
    (fillArgs ks defaults (params.drop vs.length)).map fun r => params.zip vs ++ r
  else .error .typeError

/-! ### Storage objects -/

/-- A class given as `t=` (orm.py:20-21); anything else is ignored. -/
def typeOf : Val → Option PyType
  | .sys s =>
    Dict.get? [(py! "str", .str), (py! "int", .int), (py! "bool", .bool), (py! "float", .float), (py! "bytes", .bytes),
               (py! "decimal", .decimal), (py! "datetime.datetime", .datetime), (py! "datetime.timedelta", .timedelta),
               (py! "list", .list), (py! "tuple", .tuple), (py! "dict", .dict)] s
  | _ => none

/-- A string argument; f-strings and `join` accept nothing else here. -/
def strArg (b : List (Str × Val)) (p : Str) : Except PyErr Str :=
  match Dict.get? b p with
  | some (.data (.str s)) => .ok s
  | _ => .error .typeError

/-- `default_value`. -/
def defaultArg (b : List (Str × Val)) : Except PyErr PyVal :=
  match Dict.get? b (py! "default_value") with
  | some (.data v) => .ok v
  | some _ => .error .unmodelled
  | none => .ok .none

/-- orm.py:17-25, 43-46, 129-133, 140-144 with the wrappers of bridge/orm.py: the object constructed. -/
def construct (cls : Str) (vs : List Val) (ks : List (Str × Val)) : Except PyErr Val :=
  let none : Val := .data .none
  if cls = py! "Variable" then do
    let b ← bindArgs [py! "contract", py! "name", py! "driver", py! "t", py! "default_value"]
      [(py! "driver", none), (py! "t", none), (py! "default_value", none)] vs ks
    return .var (.make (← strArg b (py! "contract")) (← strArg b (py! "name"))
      ((Dict.get? b (py! "t")).bind typeOf) (← defaultArg b))
  else if cls = py! "Hash" then do
    let b ← bindArgs [py! "contract", py! "name", py! "driver", py! "default_value"]
      [(py! "driver", none), (py! "default_value", none)] vs ks
    return .hash (.make (← strArg b (py! "contract")) (← strArg b (py! "name")) (← defaultArg b))
  else if cls = py! "ForeignVariable" then do
    let b ← bindArgs [py! "contract", py! "name", py! "foreign_contract", py! "foreign_name", py! "driver"] [(py! "driver", none)] vs ks
    let _ ← strArg b (py! "contract")
    let _ ← strArg b (py! "name")
    return .fvar (.make (← strArg b (py! "foreign_contract")) (← strArg b (py! "foreign_name")))
  else if cls = py! "ForeignHash" then do
    let b ← bindArgs [py! "contract", py! "name", py! "foreign_contract", py! "foreign_name", py! "driver"] [(py! "driver", none)] vs ks
    let _ ← strArg b (py! "contract")
    let _ ← strArg b (py! "name")
    return .fhash (.make (← strArg b (py! "foreign_contract")) (← strArg b (py! "foreign_name")))
  else if cls = py! "LogEvent" then do
    let b ← bindArgs [py! "contract", py! "name", py! "event", py! "params", py! "driver"] [(py! "driver", none)] vs ks
    match Dict.get? b (py! "event"), Dict.get? b (py! "params") with
    | some (.data (.str e)), some (.params ps) => return .event e ps
    | _, _ => .error .unmodelled
  else .error .unmodelled

/-- orm.py:171-186: what the construction of an object does: a log event checks its parameters. -/
def built (v : Val) (k : Prog) : Prog :=
  match v with
  | .event e ps => api (.newLog e ps) fun _ => k
  | _ => k

/-! ### Names and objects -/

/-- What the interpreter takes from its surroundings: the scopes of the modules and how to call and load them. -/
structure Machine where
  D : Data
  /-- contract, name: what a name means at the top level of a contract's module, if the module binds it -/
  global : Str → Str → Option (Except PyErr Val)
  /-- contract, attribute: what `module.attribute` means -/
  member : Str → Str → Option (Except PyErr Val)
  /-- call a function: contract, number, arguments, keyword arguments -/
  call : Str → Nat → List Val → List (Str × Val) → (Val → Prog) → Prog
  /-- the top level of a contract -/
  top : Str → Prog
  /-- opcode and memory cost of the line of a statement -/
  cost : Str → Stmt → Nat × Nat
  /-- bound for loops -/
  loops : Nat
  /-- what is raised where a bound of the interpreter is reached -/
  out : PyErr := .recursion

/-- `stdlib/env.py:18-29` and `rt.env` (module.py:109-110), then the builtins. -/
def sysName (D : Data) (id : Str) (k : Val → Prog) : Prog :=
  if ormClasses.contains id then k (.cls id)
  else if id = py! "__Driver" then k .driver
  else if id = py! "__Contract" ∨ id = py! "rt" then .raise .unmodelled
  else if id = py! "ctx" ∨ id = py! "importlib" ∨ D.builtin id = true then k (.sys id)
  else api (.envGet id) fun v => if v.isNone then .raise .nameError else k (.data v)

/-- A name: local, global, system. -/
def nameVal (M : Machine) (c : Str) (l : Locals) (id : Str) (k : Val → Prog) : Prog :=
  if l.names.contains id then
    match Dict.get? l.vars id with
    | some v => k v
    | none => .raise .nameError
  else
    match M.global c id with
    | some r => orRaise r k
    | none => sysName M.D id k

/-- runtime.py:47-69: the attributes of `ctx`. -/
def ctxAction (a : Str) : Option Action :=
  if a = py! "this" then some .ctxThis
  else if a = py! "caller" then some .ctxCaller
  else if a = py! "signer" then some .ctxSigner
  else if a = py! "owner" then some .ctxOwner
  else if a = py! "entry" then some .ctxEntry
  else if a = py! "submission_name" then some .ctxSubmission
  else none

/-- `v.a`. A module has the names of its scope, those of the system included (module.py:118). -/
def attrVal (M : Machine) (v : Val) (a : Str) (k : Val → Prog) : Prog :=
  match v with
  | .data d =>
    match M.D.attr d a with
    | none => k (.meth (.data d) a)
    | some r => orRaise r fun x => k (.data x)
  | .mod c =>
    match M.member c a with
    | some r => orRaise r k
    | none => sysName M.D a k
  | .sys s =>
    if s = py! "ctx" then
      match ctxAction a with
      | some act => api act fun x => k (.data x)
      | none => .raise .attributeError
    else k (.sys (s ++ '.' :: a))
  | .cls _ => .raise .unmodelled
  | .fn _ _ => .raise .unmodelled
  | .meth _ _ => .raise .unmodelled
  | .event _ _ => .raise .unmodelled
  | .params _ => .raise .unmodelled
  | v => k (.meth v a)

/-- Calls of methods of storage objects (orm.py) and of plain data. -/
def callMethod (M : Machine) (v : Val) (a : Str) (vs : List Val) (ks : List (Str × Val)) (k : Val → Prog) : Prog :=
  match v with
  | .data d => asDatas vs fun ds => asKws ks fun dks => orRaise (M.D.method d a ds dks) fun r => k (.data r)
  | .var x =>
    if a = py! "get" then orRaise (bindArgs [] [] vs ks) fun _ => api (.varGet x) fun r => k (.data r)
    else if a = py! "set" then
      orRaise (bindArgs [py! "value"] [] vs ks) fun b => asDatas (b.map Prod.snd) fun ds =>
        api (.varSet x (ds.headD .none)) fun r => k (.data r)
    else .raise .attributeError
  | .hash h =>
    if a = py! "all" then asDatas vs fun ds => api (.hashAll h (ds.map (compOf M.D))) fun r => k (.data r)
    else if a = py! "clear" then asDatas vs fun ds => api (.hashClear h (ds.map (compOf M.D))) fun r => k (.data r)
    else .raise .attributeError
  | .fvar x =>
    if a = py! "get" then orRaise (bindArgs [] [] vs ks) fun _ => api (.varGet x) fun r => k (.data r)
    else if a = py! "set" then
      orRaise (bindArgs [py! "value"] [] vs ks) fun b => asDatas (b.map Prod.snd) fun ds =>
        api (.foreignVarSet x (ds.headD .none)) fun r => k (.data r)
    else .raise .attributeError
  | .fhash h =>
    if a = py! "all" then asDatas vs fun ds => api (.hashAll h (ds.map (compOf M.D))) fun r => k (.data r)
    else if a = py! "clear" then asDatas vs fun ds => api (.foreignHashClear h (ds.map (compOf M.D))) fun r => k (.data r)
    else .raise .attributeError
  | .driver =>
    if a = py! "get" then asDatas vs fun
      | [.str key] => api (.rawGet key) fun r => k (.data r)
      | _ => .raise .unmodelled
    else if a = py! "set" then asDatas vs fun
      | [.str key, x] => api (.rawSet key x) fun r => k (.data r)
      | _ => .raise .unmodelled
    else .raise .unmodelled
  | _ => .raise .unmodelled

/-- bridge/random.py:24-71: the call of a function of `random`. Simplification: `shuffle`, `choice` and `choices` are left out. -/
def randomCall (f : Str) (vs : List Val) (ks : List (Str × Val)) : Except PyErr Action :=
  if f = py! "seed" then
    (bindArgs [py! "aux_salt"] [(py! "aux_salt", .data .none)] vs ks).bind fun b =>
      match b.map Prod.snd with
      | [.data .none] => .ok (.seed none)
      | [.data (.str salt)] => .ok (.seed (some salt))
      | _ => .error .unmodelled
  else if f = py! "getrandbits" then
    (bindArgs [py! "k"] [] vs ks).bind fun b =>
      match b.map Prod.snd with
      | [.data (.int n)] => .ok (.getrandbits n.toNat)
      | _ => .error .unmodelled
  else if f = py! "randrange" then
    (bindArgs [py! "k"] [] vs ks).bind fun b =>
      match b.map Prod.snd with
      | [.data (.int n)] => .ok (.draw (.randrange n))
      | _ => .error .unmodelled
  else if f = py! "randint" then
    (bindArgs [py! "a", py! "b"] [] vs ks).bind fun b =>
      match b.map Prod.snd with
      | [.data (.int x), .data (.int y)] => .ok (.draw (.randint x y))
      | _ => .error .unmodelled
  else .error .unmodelled

/-- The keys of event data; one that is no string is no parameter (orm.py:197-200). -/
def eventData : List (PyKey × PyVal) → Except PyErr (Dict Str PyVal)
  | [] => .ok []
  | (.str x, v) :: kvs => (eventData kvs).map fun r => (x, v) :: r
  | _ :: _ => .error .assertion

/-- orm.py:254-255: an event is logged. Data that is no dict is left out. -/
def callEvent (e : Str) (ps : Dict Str Param) (vs : List Val) (ks : List (Str × Val)) (k : Val → Prog) : Prog :=
  orRaise (bindArgs [py! "data"] [] vs ks) fun b => asDatas (b.map Prod.snd) fun
    | [.dict kvs] => orRaise (eventData kvs) fun data => api (.newLog e ps) fun
      | .int i => api (.emit i.toNat data) fun r => k (.data r)
      | _ => .raise .unmodelled
    | _ => .raise .unmodelled

/-- Calls of library functions: `importlib.import_module` (bridge/imports.py:50-65), `importlib.owner_of` (96-99),
those of `random`, and those without effects. -/
def callSys (M : Machine) (s : Str) (vs : List Val) (ks : List (Str × Val)) (k : Val → Prog) : Prog :=
  if s = py! "importlib.import_module" then
    match vs with
    | [.data (.str name)] => .load name true (M.top name) fun r => orRaise r fun _ => k (.mod name)
    | _ => .raise .unmodelled
  else if s = py! "importlib.owner_of" then
    match vs with
    | [.mod c] => api (.ownerOf c) fun r => k (.data r)
    | _ => .raise .unmodelled
  else if startsWith s (py! "random.") = true then
    orRaise (randomCall (s.drop 7) vs ks) fun a => api a fun r => k (.data r)
  else asDatas vs fun ds => asKws ks fun dks => orRaise (M.D.call s ds dks) fun r => k (.data r)

/-- `v(args)`. -/
def callVal (M : Machine) (v : Val) (vs : List Val) (ks : List (Str × Val)) (k : Val → Prog) : Prog :=
  match v with
  | .fn c i => M.call c i vs ks k
  | .cls s => orRaise (construct s vs ks) fun v => built v (k v)
  | .event e ps => callEvent e ps vs ks k
  | .params _ => .raise .unmodelled
  | .sys s => callSys M s vs ks k
  | .meth v a => callMethod M v a vs ks k
  | _ => .raise .typeError

/-- `v[i]` (orm.py:120-122). -/
def subVal (M : Machine) (v i : Val) (k : Val → Prog) : Prog :=
  asData i fun i =>
    match v with
    | .data d => orRaise (M.D.sub d i) fun r => k (.data r)
    | .hash h => api (.hashGet h (indexOf M.D i)) fun r => k (.data r)
    | .fhash h => api (.hashGet h (indexOf M.D i)) fun r => k (.data r)
    | .params _ => .raise .unmodelled
    | _ => .raise .typeError

/-- `v[i] = x` (orm.py:115-118, 149-150). -/
def storeVal (M : Machine) (v i x : Val) (k : Prog) : Prog :=
  asData i fun i => asData x fun x =>
    match v with
    | .hash h => api (.hashSet h (indexOf M.D i) x) fun _ => k
    | .fhash h => api (.foreignHashSet h (indexOf M.D i) x) fun _ => k
    | .data _ => .raise .unmodelled
    | .params _ => .raise .unmodelled
    | _ => .raise .typeError

/-! ### Expressions -/

mutual
/-- Evaluate an expression, from left to right. -/
def eval (M : Machine) (c : Str) (l : Locals) : Expr → (Val → Prog) → Prog
  | .name id, k => nameVal M c l id k
  | .const x, k => orRaise (constVal M.D x) fun v => k (.data v)
  | .attr e a, k => eval M c l e fun v => attrVal M v a k
  | .call f args kws, k =>
    eval M c l f fun v => evalAll M c l args fun vs => evalKws M c l kws fun ks => callVal M v vs ks k
  | .sub e i, k => eval M c l e fun v => eval M c l i fun i => subVal M v i k
  | .op o args, k => evalAll M c l args fun vs => asDatas vs fun ds => orRaise (M.D.op o ds) fun v => k (.data v)
  | .bool isAnd args, k => evalBool M c l isAnd args k
  | .cond test a b, k => eval M c l test fun t => asData t fun t => if truthy t then eval M c l a k else eval M c l b k
/-- Several expressions. -/
def evalAll (M : Machine) (c : Str) (l : Locals) : List Expr → (List Val → Prog) → Prog
  | [], k => k []
  | e :: es, k => eval M c l e fun v => evalAll M c l es fun vs => k (v :: vs)
/-- Keyword arguments. -/
def evalKws (M : Machine) (c : Str) (l : Locals) : List (Str × Expr) → (List (Str × Val) → Prog) → Prog
  | [], k => k []
  | (x, e) :: es, k => eval M c l e fun v => evalKws M c l es fun vs => k ((x, v) :: vs)
/-- `and`, `or`: the first operand that decides, or the last one. -/
def evalBool (M : Machine) (c : Str) (l : Locals) (isAnd : Bool) : List Expr → (Val → Prog) → Prog
  | [], k => k (.data (.bool isAnd))
  | [e], k => eval M c l e k
  | e :: es, k => eval M c l e fun v => asData v fun d => if truthy d = isAnd then evalBool M c l isAnd es k else k v
end

/-! ### Statements -/

/-- A traced line (tracer.py:88-131). -/
def tick (M : Machine) (c : Str) (s : Stmt) (k : Prog) : Prog :=
  api (.line true (M.cost c s).1 (M.cost c s).2) fun _ => k

/-- What happens after one round of a loop body: `again` or leave the loop. -/
def afterRound (k : Flow → Locals → Prog) (again : Locals → Prog) : Flow → Locals → Prog
  | .next, l => again l
  | .continue, l => again l
  | .break, l => k .next l
  | .ret v, l => k (.ret v) l

/-- A `while` loop of at most `n` rounds, each one given by `round`; if these do not suffice, `out` is raised. -/
def whileLoop (out : PyErr) (round : Locals → (Flow → Locals → Prog) → Prog → Prog) : Nat → Locals → (Flow → Locals → Prog) → Prog
  | 0, _, _ => .raise out
  | n + 1, l, k => round l (afterRound k fun l => whileLoop out round n l k) (k .next l)

/-- A `for` loop over the values. -/
def forLoop (round : PyVal → Locals → (Flow → Locals → Prog) → Prog) (done : Prog → Prog) :
    List PyVal → Locals → (Flow → Locals → Prog) → Prog
  | [], l, k => done (k .next l)
  | v :: vs, l, k => round v l (afterRound k fun l => forLoop round done vs l k)

mutual
/-- Execute a statement. -/
def exec (M : Machine) (c : Str) : Stmt → Locals → (Flow → Locals → Prog) → Prog
  | .assign x e, l, k => tick M c (.assign x e) <| eval M c l e fun v => k .next (l.set x v)
  | .assignSub e i v, l, k =>
    tick M c (.assignSub e i v) <| eval M c l v fun v => eval M c l e fun e => eval M c l i fun i => storeVal M e i v (k .next l)
  | .aug op x e, l, k =>
    tick M c (.aug op x e) <| nameVal M c l x fun a => eval M c l e fun b => asDatas [a, b] fun ds =>
      orRaise (M.D.op (.bin op) ds) fun r => k .next (l.set x (.data r))
  | .augSub op e i v, l, k =>
    tick M c (.augSub op e i v) <| eval M c l e fun e => eval M c l i fun i => subVal M e i fun a => eval M c l v fun b =>
      asDatas [a, b] fun ds => orRaise (M.D.op (.bin op) ds) fun r => storeVal M e i (.data r) (k .next l)
  | .expr e, l, k => tick M c (.expr e) <| eval M c l e fun _ => k .next l
  | .assert test msg, l, k =>
    tick M c (.assert test msg) <| eval M c l test fun t => asData t fun t =>
      if truthy t then k .next l else evalAll M c l msg fun _ => .raise .assertion
  | .ite test body orelse, l, k =>
    tick M c (.ite test body orelse) <| eval M c l test fun t => asData t fun t =>
      if truthy t then execAll M c body l k else execAll M c orelse l k
  | .while test body, l, k =>
    whileLoop M.out (fun l next done => tick M c (.while test body) <| eval M c l test fun t => asData t fun t =>
      if truthy t then execAll M c body l next else done) M.loops l k
  | .for x iter body, l, k =>
    tick M c (.for x iter body) <| eval M c l iter fun it => asData it fun it => orRaise (M.D.iter it) fun vs =>
      forLoop (fun v l next => tick M c (.for x iter body) <| execAll M c body (l.set x (.data v)) next)
        (tick M c (.for x iter body)) vs l k
  | .ret es, l, k => tick M c (.ret es) <| evalAll M c l es fun vs => k (.ret (vs.headD (.data .none))) l
  | .pass, l, k => tick M c .pass <| k .next l
  | .break, l, k => tick M c .break <| k .break l
  | .continue, l, k => tick M c .continue <| k .continue l
/-- Execute a block. -/
def execAll (M : Machine) (c : Str) : List Stmt → Locals → (Flow → Locals → Prog) → Prog
  | [], l, k => k .next l
  | s :: ss, l, k => exec M c s l fun
    | .next, l => execAll M c ss l k
    | f, l => k f l
end

mutual
/-- The names a statement binds. -/
def Stmt.bound : Stmt → List Str
  | .assign x _ => [x]
  | .aug _ x _ => [x]
  | .ite _ b o => boundAll b ++ boundAll o
  | .while _ b => boundAll b
  | .for x _ b => x :: boundAll b
  | _ => []
/-- Those of a block. -/
def boundAll : List Stmt → List Str
  | [] => []
  | s :: ss => s.bound ++ boundAll ss
end

/-! ### Functions and modules -/

/-- What a function returns. -/
def Flow.value : Flow → Val
  | .ret v => v
  | _ => .data .none

/-- A class of event parameters: a name of the system that the module does not bind itself (`own`). -/
def paramClass (D : Data) (own : List Str) : Expr → Except PyErr PyType
  | .name id =>
    if id ∈ own ∨ D.builtin id = false then .error .unmodelled
    else match typeOf (.sys id) with | some t => .ok t | none => .error .unmodelled
  | _ => .error .unmodelled

/-- Several classes. -/
def paramClasses (D : Data) (own : List Str) : List Expr → Except PyErr (List PyType)
  | [] => .ok []
  | e :: es => (paramClass D own e).bind fun t => (paramClasses D own es).map fun ts => t :: ts

/-- One class or a tuple of them (orm.py:179-180). -/
def paramTypes (D : Data) (own : List Str) : Expr → Except PyErr (List PyType)
  | .op .tuple es => paramClasses D own es
  | e => (paramClass D own e).map fun t => [t]

/-- A dict literal with distinct string keys: the keys come first, then the values. -/
def literalDict : List Expr → List Expr → Except PyErr (List (Str × Expr))
  | [], [] => .ok []
  | .const (.str x) :: ks, e :: es => (literalDict ks es).bind fun r => if Dict.has r x then .error .unmodelled else .ok ((x, e) :: r)
  | _, _ => .error .unmodelled

/-- `idx` (orm.py:174). -/
def paramIdx : Option Expr → Except PyErr Bool
  | none => .ok false
  | some (.const (.bool b)) => .ok b
  | some _ => .error .unmodelled

/-- One parameter of an event: `{"type": ..., "idx": ...}`. -/
def paramOf (D : Data) (own : List Str) : Expr → Except PyErr Param
  | .op .dict kvs =>
    (literalDict (kvs.take (kvs.length / 2)) (kvs.drop (kvs.length / 2))).bind fun d =>
      match Dict.get? d (py! "type") with
      | none => .error .unmodelled
      | some t => (paramTypes D own t).bind fun ts => (paramIdx (Dict.get? d (py! "idx"))).map fun i => { types := ts, idx := i }
  | _ => .error .unmodelled

/-- The parameters of an event; keys are distinct. -/
def paramsOf (D : Data) (own : List Str) : List Expr → List Expr → Except PyErr (Dict Str Param)
  | [], [] => .ok []
  | .const (.str x) :: ks, e :: es => (paramOf D own e).bind fun p => (paramsOf D own ks es).bind fun r =>
    if Dict.has r x then .error .unmodelled else .ok ((x, p) :: r)
  | _, _ => .error .unmodelled

/-- Values known without running anything: constants, `decimal` of a string, names of the system that the module
does not bind itself (`own`), parameters of events. -/
def pureVal (D : Data) (own : List Str) : Expr → Except PyErr Val
  | .const x => (constVal D x).map .data
  | .call (.name f) [.const (.str x)] [] =>
    if f = py! "decimal" ∧ f ∉ own then (D.call f [.str x] []).map .data else .error .unmodelled
  | .name id =>
    if id ∈ own then .error .unmodelled
    else if ormClasses.contains id then .ok (.cls id)
    else if D.builtin id = true then .ok (.sys id) else .error .unmodelled
  | .attr (.name id) a => if D.builtin id = true ∧ id ∉ own then .ok (.sys (id ++ '.' :: a)) else .error .unmodelled
  | .op .dict kvs => (paramsOf D own (kvs.take (kvs.length / 2)) (kvs.drop (kvs.length / 2))).map .params
  | _ => .error .unmodelled

/-- Several of them. -/
def pureVals (D : Data) (own : List Str) : List Expr → Except PyErr (List Val)
  | [] => .ok []
  | e :: es => do return (← pureVal D own e) :: (← pureVals D own es)

/-- Keyword arguments. -/
def pureKws (D : Data) (own : List Str) : List (Str × Expr) → Except PyErr (List (Str × Val))
  | [] => .ok []
  | (x, e) :: es => do return (x, ← pureVal D own e) :: (← pureKws D own es)

/-- The default values of the last arguments. -/
def Fun.defaultVals (D : Data) (own : List Str) (f : Fun) : Except PyErr (List (Str × Val)) :=
  (pureVals D own f.defaults).map fun vs => (f.args.map Prod.fst).drop (f.args.length - vs.length) |>.zip vs

/-- The local variables when a function starts. -/
def Fun.start (D : Data) (own : List Str) (f : Fun) (vs : List Val) (ks : List (Str × Val)) : Except PyErr Locals := do
  let b ← bindArgs (f.args.map Prod.fst) (← f.defaultVals D own) vs ks
  return { names := f.args.map Prod.fst ++ boundAll f.body, vars := b }

/-- The object a declaration makes. -/
def declVal (D : Data) (own : List Str) (cls : Str) (kws : List (Str × Expr)) : Except PyErr Val :=
  if cls ∈ own then .error .unmodelled else (pureKws D own kws).bind (construct cls [])

/-- The name a top-level statement binds. -/
def Top.bound : Top → Str
  | .import n a => a.getD n
  | .decl x _ _ => x
  | .assign x _ => x
  | .def f => f.name

/-- The functions of a module. -/
def funs (m : Module) : List Fun := m.filterMap fun | .def f => some f | _ => none

/-- What the top-level statements bind; `i` functions have been seen. A later binding replaces an earlier one. -/
def bindings (D : Data) (own : List Str) (c : Str) : Nat → Module → List (Str × Except PyErr Val)
  | _, [] => []
  | i, .import n a :: m => (a.getD n, .ok (.mod n)) :: bindings D own c i m
  | i, .decl x cls kws :: m => (x, declVal D own cls kws) :: bindings D own c i m
  | i, .assign x e :: m => (x, pureVal D own e) :: bindings D own c i m
  | i, .def f :: m => (f.name, .ok (.fn c i)) :: bindings D own c (i + 1) m

/-- The value of a name after the top level has run (an exception, if it could not be computed). -/
def globalOf (D : Data) (c : Str) (m : Module) (id : Str) : Option (Except PyErr Val) :=
  Dict.get? (bindings D (m.map Top.bound) c 0 m).reverse id

/-- What a top-level statement does besides binding a name: an import loads the module, a construction or an
assignment may raise. -/
def topStep (load : Str → Prog) (D : Data) (own : List Str) (k : Prog) : Top → Prog
  | .import n _ => .load n false (load n) fun r => orRaise r fun _ => k
  | .decl _ cls kws => orRaise (declVal D own cls kws) fun v => built v k
  | .assign _ e => orRaise (pureVal D own e) fun _ => k
  | .def f => orRaise (f.defaultVals D own) fun _ => k

/-- The top level: line by line. -/
def topProg (load : Str → Prog) (D : Data) (own : List Str) (cost : Top → Nat × Nat) : Module → Prog
  | [] => .ret .none
  | t :: m => api (.line true (cost t).1 (cost t).2) fun _ => topStep load D own (topProg load D own cost m) t

/-- The code of all contracts, and the parameters of the interpreter. -/
structure Chain where
  D : Data
  cost : Str → Stmt → Nat × Nat
  /-- the same for top-level statements -/
  topCost : Str → Top → Nat × Nat
  /-- the compiled module of each deployed contract -/
  code : Str → Option Module
  /-- what is raised where a bound of the interpreter is reached. (These bounds are no part of the code; metered code never
  gets there: C102.) -/
  out : PyErr := .recursion

/-- The top level of a contract; `n` bounds the nesting of imports. -/
def Chain.top (C : Chain) : Nat → Str → Prog
  | 0, _ => .raise C.out
  | n + 1, c =>
    match C.code c with
    | none => .raise .importError
    | some m => topProg (C.top n) C.D (m.map Top.bound) (C.topCost c) m

/-- A name of a module. -/
def Chain.global (C : Chain) (c id : Str) : Option (Except PyErr Val) := (C.code c).bind fun m => globalOf C.D c m id

/-- The result of an exported function. -/
def finish (f : Flow) (_ : Locals) : Prog := asData f.value .ret

/-- The decorator of this name is the system's (bridge/access.py:38), not one the contract has defined (C42). -/
def Chain.systemWrapper (C : Chain) (c w : Str) : Bool := decide (w = py! "__export") && (C.global c w).isNone

/-- Call the `i`-th function of contract `c`, at most `n` calls deep. A wrapped one goes through `__export`
(bridge/access.py:7-34). -/
def Chain.call (C : Chain) : Nat → Str → Nat → List Val → List (Str × Val) → (Val → Prog) → Prog
  | 0, _, _, _, _, _ => .raise C.out
  | n + 1, c, i, vs, ks, k =>
    match C.code c with
    | none => .raise .typeError
    | some m =>
      match (funs m)[i]? with
      | none => .raise .typeError
      | some f =>
        let M : Machine :=
          { D := C.D, global := C.global, member := C.global, call := C.call n, top := C.top n, cost := C.cost, loops := n, out := C.out }
        match f.deco with
        | .wrapped w d =>
          if C.systemWrapper c w then
            .call d (orRaise (f.start C.D (m.map Top.bound) vs ks) fun l => execAll M c f.body l finish) fun r =>
              orRaise r fun v => k (.data v)
          else .raise .unmodelled
        | _ => orRaise (f.start C.D (m.map Top.bound) vs ks) fun l => execAll M c f.body l fun fl _ => k fl.value

/-- The interpreter for code that may call `n` levels deep. -/
def Chain.machine (C : Chain) (n : Nat) : Machine :=
  { D := C.D, global := C.global, member := C.global, call := C.call n, top := C.top n, cost := C.cost, loops := n, out := C.out }

/-- What the body of a function of a module does. -/
def Chain.body (C : Chain) (n : Nat) (c : Str) (m : Module) (f : Fun) (vs : List Val) (ks : List (Str × Val)) : Prog :=
  orRaise (f.start C.D (m.map Top.bound) vs ks) fun l => execAll (C.machine n) c f.body l finish

/-- executor.py:115-128: the function of contract `c` a transaction calls, and whether it is wrapped. -/
def Chain.entry (C : Chain) (n : Nat) (c fname : Str) : Option (Bool × (Dict Str PyVal → Prog)) :=
  match C.code c with
  | none => none
  | some m =>
    match globalOf C.D c m fname with
    | some (.ok (.fn _ i)) =>
      match (funs m)[i]? with
      | none => none
      | some f =>
        match f.deco with
        | .wrapped w _ =>
          if C.systemWrapper c w then some (true, fun kwargs => C.body n c m f [] (kwargs.map fun p => (p.1, .data p.2)))
          else some (false, fun _ => .raise .unmodelled)
        | _ => some (false, fun kwargs => C.body n c m f [] (kwargs.map fun p => (p.1, .data p.2)))
    | _ => none

/-- The code a transaction reaches: the top level of the contract's module and the function. -/
def Chain.codeFor (C : Chain) (n : Nat) (c fname : Str) : Code where
  top := C.top n c
  fn := C.entry n c fname

end Verif.Lang
