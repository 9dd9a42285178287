import Verif.Spec.Lang
/-!
# The meaning of the source text

A contract is written in the source language: storage is declared by `x = Variable(...)`, functions are undecorated
(private), `@export`ed or the constructor, literals like `1.5` are decimals. Here is what a source module means on its own, without the
compiler's renaming and wrapping. Expressions and statements mean what Python says (`eval`, `execAll` of
`Model/Interp.lean`); the rest is said here:

* the storage object declared as `x` in contract `c` is the variable or hash `c.x`;
* private functions and storage objects can be named inside the module and by nobody else;
* calling an exported function enters its contract; calling a private function does not;
* the constructor has no name, it is run when the contract is submitted.
-/
namespace Verif.Lang
open Verif

/-- The storage objects and undecorated functions of a module. -/
def privateNames (m : Module) : List Str :=
  m.filterMap fun
    | .decl x cls _ => if cls ∈ Spec.storageClasses then some x else none
    | .def f => if f.deco = .none then some f.name else none
    | _ => none

namespace Src

/-- The name by which the submission runs a constructor. -/
def constructorName : Str := py! "____"

/-- The name a function is known by. -/
def funName (f : Fun) : Str := if f.deco = .construct then constructorName else f.name

/-- The name a top-level statement binds. -/
def bound : Top → Str
  | .def f => funName f
  | t => t.bound

/-- The storage object `x` of contract `c`. -/
def declVal (D : Data) (own : List Str) (c x cls : Str) (kws : List (Str × Expr)) : Except PyErr Val :=
  if cls ∈ own then .error .unmodelled
  else (pureKws D own kws).bind fun ks =>
    construct cls [] (ks ++ [(py! "contract", .data (.str c)), (py! "name", .data (.str x))])

/-- What the top-level statements bind; `i` functions have been seen. -/
def bindings (D : Data) (own : List Str) (c : Str) : Nat → Module → List (Str × Except PyErr Val)
  | _, [] => []
  | i, .import n a :: m => (a.getD n, .ok (.mod n)) :: bindings D own c i m
  | i, .decl x cls kws :: m => (x, declVal D own c x cls kws) :: bindings D own c i m
  | i, .assign x e :: m => (x, pureVal D own e) :: bindings D own c i m
  | i, .def f :: m => (funName f, .ok (.fn c i)) :: bindings D own c (i + 1) m

/-- The value of a name inside of a module. -/
def globalOf (D : Data) (c : Str) (m : Module) (id : Str) : Option (Except PyErr Val) :=
  Dict.get? (bindings D (m.map bound) c 0 m).reverse id

/-- What a top-level statement does besides binding a name. -/
def topStep (load : Str → Prog) (D : Data) (own : List Str) (c : Str) (k : Prog) : Top → Prog
  | .import n _ => .load n false (load n) fun r => orRaise r fun _ => k
  | .decl x cls kws => orRaise (declVal D own c x cls kws) fun v => built v k
  | .assign _ e => orRaise (pureVal D own e) fun _ => k
  | .def f => orRaise (f.defaultVals D own) fun _ => k

/-- The top level: line by line. -/
def topProg (load : Str → Prog) (D : Data) (own : List Str) (c : Str) (cost : Top → Nat × Nat) : Module → Prog
  | [] => .ret .none
  | t :: m => api (.line true (cost t).1 (cost t).2) fun _ => topStep load D own c (topProg load D own c cost m) t

/-- The top level of a contract. (`S.code` are source modules.) -/
def top (S : Chain) : Nat → Str → Prog
  | 0, _ => .raise S.out
  | n + 1, c =>
    match S.code c with
    | none => .raise .importError
    | some m => topProg (top S n) S.D (m.map bound) c (S.topCost c) m

/-- A name inside of a module. -/
def global (S : Chain) (c id : Str) : Option (Except PyErr Val) := (S.code c).bind fun m => globalOf S.D c m id

/-- A name of a module for other modules and transactions: private ones are not found. -/
def member (S : Chain) (c id : Str) : Option (Except PyErr Val) :=
  (S.code c).bind fun m => if id ∈ privateNames m then none else globalOf S.D c m id

/-- Call the `i`-th function of contract `c`: an exported one runs as the contract `c`, called from where the call is. -/
def call (S : Chain) : Nat → Str → Nat → List Val → List (Str × Val) → (Val → Prog) → Prog
  | 0, _, _, _, _, _ => .raise S.out
  | n + 1, c, i, vs, ks, k =>
    match S.code c with
    | none => .raise .typeError
    | some m =>
      match (funs m)[i]? with
      | none => .raise .typeError
      | some f =>
        let M : Machine :=
          { D := S.D, global := global S, member := member S, call := call S n, top := top S n, cost := S.cost, loops := n, out := S.out }
        match f.deco with
        | .export =>
          .call c (orRaise (f.start S.D (m.map bound) vs ks) fun l => execAll M c f.body l finish) fun r =>
            orRaise r fun v => k (.data v)
        | _ => orRaise (f.start S.D (m.map bound) vs ks) fun l => execAll M c f.body l fun fl _ => k fl.value

/-- The interpreter of source modules. -/
def machine (S : Chain) (n : Nat) : Machine :=
  { D := S.D, global := global S, member := member S, call := call S n, top := top S n, cost := S.cost, loops := n, out := S.out }

/-- What the body of a function does. -/
def body (S : Chain) (n : Nat) (c : Str) (m : Module) (f : Fun) (vs : List Val) (ks : List (Str × Val)) : Prog :=
  orRaise (f.start S.D (m.map bound) vs ks) fun l => execAll (machine S n) c f.body l finish

/-- The function a transaction calls, and whether it is exported. -/
def entry (S : Chain) (n : Nat) (c fname : Str) : Option (Bool × (Dict Str PyVal → Prog)) :=
  match S.code c with
  | none => none
  | some m =>
    match member S c fname with
    | some (.ok (.fn _ i)) =>
      match (funs m)[i]? with
      | none => none
      | some f => some (decide (f.deco = .export), fun kwargs => body S n c m f [] (kwargs.map fun p => (p.1, .data p.2)))
    | _ => none

/-- The code a transaction runs. -/
def codeFor (S : Chain) (n : Nat) (c fname : Str) : Code where
  top := top S n c
  fn := entry S n c fname

end Src

/-- The names of a module do not run into those the compiler makes: functions, arguments and imported modules do not
start with an underscore; exported functions, arguments and imported modules are not named like a private function or
storage object; no private function or storage object is called `export`, and nothing is called `decimal`. -/
structure WellNamed (m : Module) : Prop where
  functions : ∀ f, Top.def f ∈ m → f.name.head? ≠ some '_'
  exported : ∀ f, Top.def f ∈ m → f.deco = .export → f.name ∉ privateNames m
  args : ∀ f, Top.def f ∈ m → ∀ a ∈ f.args, a.1.head? ≠ some '_' ∧ a.1 ∉ privateNames m ∧ a.1 ≠ py! "decimal"
  imports : ∀ n a, Top.import n a ∈ m → (a.getD n).head? ≠ some '_' ∧ a.getD n ∉ privateNames m
  wrapper : py! "export" ∉ privateNames m
  decimal : py! "decimal" ∉ m.map Top.bound ∧ ∀ f, Top.def f ∈ m → py! "decimal" ∉ boundAll f.body

/-- A contract that constructs storage in declarations only and is well named. -/
structure Faithful (m : Module) : Prop where
  mentions : ∀ t ∈ m, t.All (fun id => id ∉ Spec.storageClasses) (fun a => a ∉ Spec.storageClasses)
  named : WellNamed m

/-- The chain `C` runs the compiled forms of the source modules of `S`; a line costs what its compiled form costs. -/
structure Compiles (I : PyInfo) (S C : Chain) : Prop where
  data : C.D = S.D
  code : ∀ c, C.code c = (S.code c).map (compileModule c)
  accepted : ∀ c m, S.code c = some m → Spec.Accepted I c (moduleAst m)
  cost : ∀ c m s, S.code c = some m → C.cost c (s.comp (moduleAst m).names c) = S.cost c s
  topCost : ∀ c m t, S.code c = some m → C.topCost c (t.comp (moduleAst m).names c) = S.topCost c t
  out : C.out = S.out

end Verif.Lang
