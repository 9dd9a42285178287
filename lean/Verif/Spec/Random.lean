import Verif.Spec.Runtime
/-!
# What random numbers should depend on

A reference machine that knows nothing of worlds, drivers and contracts: the block environment, and the list
of requests made of the random module.
-/
namespace Verif.Spec

/-- A call of the random module. -/
def isRandom : Action → Bool
  | .seed _ => true
  | .getrandbits _ => true
  | .draw _ => true
  | _ => false

/-- A call of `seed`. -/
def isSeed : Action → Bool
  | .seed _ => true
  | _ => false

/-- Calls of the random module made during a run, each with its answer, in order. -/
def randomTrace (H : Host) (p : Prog) (w : World) : List (Action × Except PyErr PyVal) :=
  (events H p w).filterMap fun e =>
    match e.2 with
    | .act a => if isRandom a then some (a, (a.run H e.1).1) else none
    | _ => none

/-- The generator: not seeded in this transaction, or the text it was seeded with and the requests since. -/
abbrev Gen := Option (Str × List DrawReq)

/-- The state of Python's generator that this stands for. -/
def Gen.state (s : Str) (reqs : List DrawReq) : RngState := { seed := some s, drawn := reqs }

/-- Bits drawn one by one; the `i`-th depends on the seed and on everything requested before it. -/
def bits (H : Host) (s : Str) (reqs : List DrawReq) : Nat → List Bool
  | 0 => []
  | n + 1 => H.bit (Gen.state s reqs) :: bits H s (reqs ++ [.bit]) n

/-- Number denoted by a list of binary digits, most significant first. -/
def number : List Bool → Nat
  | [] => 0
  | b :: bs => (if b then 2 ^ bs.length else 0) + number bs

/-- An environment variable that counts: one that is there and true in Python's sense. -/
def given (env : Dict Str PyVal) (k : Str) : Option PyVal :=
  match Dict.get? env k with
  | some v => if truthy v then some v else none
  | none => none

/-- An environment variable to be used as text: `"0"` if not given, refused if it is not a string. -/
def hashText (env : Dict Str PyVal) (k : Str) : Option Str :=
  match given env k with
  | none => some (py! "0")
  | some (.str s) => some s
  | some _ => none

/-- The block number as text, `"0"` if there is none (block 0 is a block). -/
def heightText (H : Host) (env : Dict Str PyVal) : Str :=
  match Dict.get? env (py! "block_num") with
  | none | some .none => py! "0"
  | some v => H.str v

/-- The salt: the environment variable named, else `AUXILIARY_SALT`, else nothing. -/
def saltText (H : Host) (env : Dict Str PyVal) (salt : Option Str) : Str :=
  match salt.bind (given env), given env (py! "AUXILIARY_SALT") with
  | some v, _ => H.str v
  | none, some v => H.str v
  | none, none => []

/-- The text the generator is seeded with: block number, block hash, hash of the transaction and salt, one after the other. -/
def seedOf (H : Host) (env : Dict Str PyVal) (salt : Option Str) : Option Str := do
  let blockHash ← hashText env (py! "block_hash")
  let txHash ← hashText env (py! "__input_hash")
  return heightText H env ++ blockHash ++ txHash ++ saltText H env salt

/-- The answer to one request, and the generator afterwards. -/
def answer (H : Host) (env : Dict Str PyVal) (g : Gen) : Action → Except PyErr PyVal × Gen
  | .seed salt =>
    match seedOf H env salt with
    | none => (.error .typeError, g)
    | some s => (.ok .none, some (s, []))
  | .getrandbits k =>
    match g with
    | none => (.error .assertion, none)
    | some (s, reqs) =>
      (if k = 0 then .error .valueError else .ok (.int (number (bits H s reqs k))),
       some (s, reqs ++ List.replicate k .bit))
  | .draw q =>
    match g with
    | none => (.error .assertion, none)
    | some (s, reqs) => (H.draw (Gen.state s reqs) q, some (s, reqs ++ [q]))
  | _ => (.error .assertion, g)

/-- The answers to a list of requests. -/
def answers (H : Host) (env : Dict Str PyVal) : Gen → List Action → List (Except PyErr PyVal) × Gen
  | g, [] => ([], g)
  | g, a :: as =>
    let r := answer H env g a
    let rest := answers H env r.2 as
    (r.1 :: rest.1, rest.2)

/-- The environment variables a list of requests may look at. -/
def looksAt (as : List Action) (k : Str) : Prop :=
  k = py! "block_num" ∨ k = py! "block_hash" ∨ k = py! "__input_hash" ∨ k = py! "AUXILIARY_SALT" ∨ .seed (some k) ∈ as

end Verif.Spec
