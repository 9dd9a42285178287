import Verif.Model.Executor
/-!
# `contracting/client.py`: `AbstractContract`

Attribute access (`__getattr__`), `get_contract` and `submit` are in `Model/Proxy.lean`. Not modelled:
`return_full_output=True`, and that several clients created with the default argument `environment={}` share one
dictionary.
-/
namespace Verif

/-- client.py:22-27: an `AbstractContract` together with its executor and the process. `production` is the
executor's flag (executor.py:29). `environment` is the dictionary object shared with the client. -/
structure Client where
  name : Str
  signer : Str
  environment : Dict Str PyVal
  cfg : ExecCfg
  production : Bool := false
  world : World

/-- The arguments of one client call. `code` is the code reached by it; `clock` is what `datetime.today()`
gives (client.py:142-144). `env = []` stands for `None` or an empty dictionary (client.py:162). -/
structure ClientCall where
  func : Str
  signer : Str
  env : Dict Str PyVal := []
  stamps : Int := 1000000
  metering : Option Bool := none
  now : PyVal := .none
  clock : PyVal
  kwargs : Dict Str PyVal := []
  code : Code

/-- client.py:162-168: the environment dictionary with `now` filled in. -/
def fillNow (env : Dict Str PyVal) (now clock : PyVal) : Dict Str PyVal :=
  if (dget env (py! "now")).isNone then Dict.set env (py! "now") (if now.isNone then clock else now) else env

/-- client.py:146-185 `_abstract_function_call`. The default `stamp_cost` is 20 (`STAMPS_PER_TAU`). -/
def Client.call (H : Host) (c : Client) (q : ClientCall) : Except PyErr PyVal × Client :=
  let own := q.env.length = 0
  let env := fillNow (if own then c.environment else q.env) q.now q.clock
  let c := if own then { c with environment := env } else c
  let tx : Tx :=
    { sender := q.signer, contract := c.name, function := q.func, kwargs := q.kwargs, environment := env,
      stamps := q.stamps, metering := q.metering, code := q.code }
  match execute H c.cfg tx c.world with
  | (.error e, w) => (.error e, { c with world := w })
  | (.ok o, w) =>
    let c := { c with world := w }
    if c.production then (.error .attributeError, c) else (o.result, c)

/-- client.py:84-111 `run_private_function`. `signer = []` stands for `None` or an empty string. -/
def Client.runPrivate (H : Host) (c : Client) (q : ClientCall) : Except PyErr PyVal × Client :=
  let q := { q with
    signer := if q.signer = [] then c.signer else q.signer
    func := if startsWith q.func (py! "__") then q.func else py! "__" ++ q.func
    metering := none
    now := .none }
  let c := { c with cfg := { c.cfg with bypassPrivates := true } }
  match c.call H q with
  | (.error e, c) => (.error e, c)
  | (.ok v, c) => (.ok v, { c with cfg := { c.cfg with bypassPrivates := false } })

/-- client.py:57-66, 70-79: the arguments of the key. -/
def quickArgs (key : Option Str) (args : List Str) : List Str := key.toList ++ args

/-- client.py:56-67 `quick_read` (components already converted by `str`). -/
def Client.quickRead (c : Client) (var : Str) (key : Option Str) (args : List Str) : Except PyErr PyVal × Client :=
  let r := c.world.rd (c.world.driver.get (makeKeyArgs c.name var (quickArgs key args)))
  (r.1, { c with world := r.2 })

/-- client.py:69-82 `quick_write`. -/
def Client.quickWrite (c : Client) (var : Str) (key : Option Str) (args : List Str) (v : PyVal) :
    Except PyErr Unit × Client :=
  match c.world.driver.set c.world.meter (makeKeyArgs c.name var (quickArgs key args)) v false with
  | (.error e, m, d) => (.error e, { c with world := { c.world with meter := m, driver := d } })
  | (.ok _, m, d) =>
    match d.commit with
    | (.error e, d) => (.error e, { c with world := { c.world with meter := m, driver := d } })
    | (.ok _, d) => (.ok (), { c with world := { c.world with meter := m, driver := d } })

end Verif
