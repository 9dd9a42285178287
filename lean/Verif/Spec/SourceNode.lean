import Verif.Spec.Node
import Verif.Spec.Source
/-!
# A node that keeps the sources

What a node means to its users: it remembers the source of every contract that was submitted, and runs transactions and
constructors as the sources say (`Spec/Source.lean`). It compiles and loads nothing, and never looks at stored code.
-/
namespace Verif.Lang
open Verif

/-- The source of every contract. -/
abbrev Sources := Str → Option Module

/-- One more contract. -/
def Sources.plus (src : Sources) (name : Str) (m : Module) : Sources := fun c => if c = name then some m else src c

/-- The sources as a chain. A line costs what its compiled form costs. -/
def Node.sources (N : Node) (src : Sources) : Chain where
  D := N.D
  code := src
  cost := fun c s => match src c with | some m => N.cost c (s.comp (moduleAst m).names c) | none => (0, 0)
  topCost := fun c t => match src c with | some m => N.topCost c (t.comp (moduleAst m).names c) | none => (0, 0)
  out := N.out

namespace Src

/-- Which of the functions of a module is the constructor; `i` functions have been seen. (The linter admits one only; of
several the last one would be it.) -/
def constructorFrom : Nat → Module → Option Nat
  | _, [] => none
  | i, .def f :: m => (constructorFrom (i + 1) m).or (if f.deco = .construct then some i else none)
  | i, _ :: m => constructorFrom i m

/-- The submission time is `now` of the environment, unless the module binds the name itself (C65). -/
def boundNow (S : Chain) (name : Str) : Prog :=
  match member S name (py! "now") with
  | some (.ok (.data v)) => .ret (.list [v])
  | some (.ok _) => .raise .unmodelled
  | some (.error e) => .raise e
  | none => .ret .none

/-- The keyword arguments of the constructor: the entries of `constructor_args`, all of them strings. -/
def arguments (args : PyVal) : Except PyErr (List (Str × Val)) :=
  match args with
  | .none => .ok []
  | .dict kvs =>
    if kvs.all (fun p => match p.1 with | .str _ => true | _ => false) then
      .ok (kvs.filterMap fun p => match p.1 with | .str k => some (k, .data p.2) | _ => none)
    else .error .typeError
  | _ => .error .typeError

/-- Submitting `m` as `name`: its top level is run, then its constructor with the constructor arguments. -/
def deploy (S : Chain) (n : Nat) (name : Str) (m : Module) (args : PyVal) : Prog :=
  (top S n name).bind fun r => orRaise r fun _ =>
    match constructorFrom 0 m with
    | none => boundNow S name
    | some i => orRaise (arguments args) fun ks => call S n name i [] ks fun _ => boundNow S name

end Src

/-- The code a transaction reaches on a node that keeps the sources. -/
def Node.sourceFor (N : Node) (H : Host) (n : Nat) (src : Sources) (c fname : Str) : Code :=
  if c = py! "submission" then
    { top := .ret .none
      fn := if fname = py! "submit_contract" then some (submitFn H N.tools fun name source args =>
          match N.read source with
          | none => .raise .unmodelled
          | some m => Src.deploy (N.sources (src.plus name m)) n name m args)
        else if fname = py! "change_developer" then some developerFn
        else none }
  else Src.codeFor (N.sources src) n c fname

/-- The sources after a transaction: a submission that succeeded adds the source it names. -/
def Node.sourcesAfter (N : Node) (src : Sources) (tx : Tx) (o : Output) : Sources :=
  if tx.contract = py! "submission" ∧ tx.function = py! "submit_contract" ∧ o.status = 0 then
    match fixKwargs tx.kwargs with
    | .error _ => src
    | .ok kwargs =>
      match dget kwargs (py! "name"), dget kwargs (py! "code") with
      | .str name, .str source => match N.read source with | some m => src.plus name m | none => src
      | _, _ => src
  else src

/-- The state of such a node: the sources of the contracts there are, and of those that are on disk. -/
structure SourceNode where
  world : World
  current : Sources
  committed : Sources

/-- Its steps. -/
inductive SourceStep (N : Node) (H : Host) : SourceNode → SourceNode → Prop where
  | tx {s : SourceNode} {w' : World} {cfg : ExecCfg} {tx : Tx} {o : Output} (n : Nat) :
      execute H cfg { tx with code := N.sourceFor H n s.current tx.contract tx.function } s.world = (.ok o, w') →
      SourceStep N H s { s with world := w', current := N.sourcesAfter s.current tx o }
  | apply {s : SourceNode} (nanos : Int) :
      SourceStep N H s { s with world.driver := (s.world.driver.hardApply nanos).2, committed := s.current }
  | commit {s : SourceNode} : SourceStep N H s { s with world.driver := s.world.driver.commit.2, committed := s.current }
  | rollback {s : SourceNode} : SourceStep N H s { s with world.driver := s.world.driver.rollback, current := s.committed }
  | evict {s : SourceNode} (keep : Str → Bool) : SourceStep N H s { s with world.driver := s.world.driver.evict keep }
  | restart {s : SourceNode} : SourceStep N H s { s with world := { driver := .open s.world.driver.disk }, current := s.committed }

/-- Any number of steps. -/
inductive SourceHistory (N : Node) (H : Host) (s : SourceNode) : SourceNode → Prop where
  | start : SourceHistory N H s s
  | step {t u : SourceNode} : SourceHistory N H s t → SourceStep N H t u → SourceHistory N H s u

/-- The node in this state runs the compiled forms of these sources, which are accepted and well named. -/
structure Runs (N : Node) (src : Sources) (d : Driver) : Prop where
  code : ∀ c, N.code d c = (src c).map (compileModule c)
  accepted : ∀ c m, src c = some m → Spec.Accepted N.info c (moduleAst m)
  disciplined : ∀ c m, src c = some m → Disciplined m
  named : ∀ c m, src c = some m → WellNamed m

/-- Sources that are submitted are well named. (Otherwise: `C94_refuted`.) -/
def NamedTx (N : Node) (tx : Tx) : Prop :=
  tx.contract = py! "submission" → ∀ kwargs source m, fixKwargs tx.kwargs = .ok kwargs → dget kwargs (py! "code") = .str source →
    N.read source = some m → WellNamed m

end Verif.Lang
