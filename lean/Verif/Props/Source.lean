import Verif.Proofs.Source5
import Verif.Props.Lang
/-!
# C94: compiling a contract does not change what it means

`Spec/Source.lean` says what a source module means by itself. The compiler renames private functions and storage
objects, wraps exported functions, binds storage objects to the contract and rewrites float literals; every call of
every function still does exactly what the source says: the same reads, writes, calls, events and results, at the same cost.
-/
namespace Verif.Lang
open Verif Verif.Spec

theorem srcGlobalOf_unbound {D : Data} {c : Str} {m : Module} {id : Str} (h : id ∉ m.map Src.bound) : Src.globalOf D c m id = none := by
  unfold Src.globalOf
  refine Dict.get?_none fun hm => h ?_
  rwa [List.map_reverse, List.mem_reverse, bindings_keys] at hm

theorem startsWith_two {x : Str} (h : startsWith x (py! "__") = false) (s : Str) : x ≠ '_' :: '_' :: s := by
  rintro rfl
  cases h

/-- Names that do not start with two underscores. -/
theorem entry_public {I : PyInfo} {S C : Chain} (hC : Compiles I S C) (hf : ∀ c m, S.code c = some m → Fits c m)
    (hb : S.D.builtin (py! "decimal") = true) (n : Nat) (c : Str) {fname : Str} (hn : startsWith fname (py! "__") = false) :
    C.entry n c fname = Src.entry S n c fname := by
  by_cases hp : Plain fname
  · exact entry_comp hC hf hb n c (.inl hp)
  · have hne : fname ≠ py! "____" := startsWith_two hn _
    unfold Chain.entry Src.entry
    cases h : S.code c with
    | none => rw [code_none hC hf h]
    | some m =>
      have fit := hf c m h
      rw [code_some hC hf h]
      have h1 : globalOf C.D c (m.map (Top.comp (moduleAst m).names c)) fname = none := by
        refine globalOf_unbound fun hm => ?_
        rw [bound_comp fit.tops] at hm
        obtain ⟨x, hx, e⟩ := List.mem_map.1 hm
        by_cases hin : x ∈ (moduleAst m).names
        · rw [rename_in hin] at e
          exact startsWith_two hn _ e.symm
        · rw [rename_out hin] at e
          subst e
          rcases fit.scope.ok x hx with h | h
          · exact hp h
          · exact hne h
      have h2 : Src.member S c fname = none := by
        unfold Src.member
        rw [h]
        simp only [Option.bind]
        split
        · rfl
        · refine srcGlobalOf_unbound fun hx => ?_
          rcases fit.scope.ok _ hx with h | h
          · exact hp h
          · exact hne h
      simp only [h1, h2]

/-- **C94, code.** If all deployed contracts are accepted and well named, what the compiled form of any of them runs -- its
top level, each public function and the constructor, whatever it calls in other contracts -- is what the sources
say. -/
theorem C94_code {I : PyInfo} {S C : Chain} (hC : Compiles I S C) (hf : ∀ c m, S.code c = some m → Faithful m)
    (hb : S.D.builtin (py! "decimal") = true) (n : Nat) (c fname : Str) (hn : startsWith fname (py! "__") = false ∨ fname = py! "____") :
    C.codeFor n c fname = Src.codeFor S n c fname := by
  have hfit : ∀ c m, S.code c = some m → Fits c m := fun c m h => fits (hC.accepted c m h) (hf c m h).mentions (hf c m h).named
  unfold Chain.codeFor Src.codeFor
  rw [top_comp hC hfit]
  rcases hn with hn | rfl
  · rw [entry_public hC hfit hb n c hn]
  · rw [entry_comp hC hfit hb n c (.inr rfl)]

/-- **C94, transactions.** A transaction on the compiled contracts has the outcome -- status, result, writes, reads,
events, stamps, state -- that the sources give it. -/
theorem C94_execute {I : PyInfo} {S C : Chain} (hC : Compiles I S C) (hf : ∀ c m, S.code c = some m → Faithful m)
    (hb : S.D.builtin (py! "decimal") = true) (n : Nat) (H : Host) (cfg : ExecCfg) (tx : Tx) (w : World)
    (hcode : tx.code = C.codeFor n tx.contract tx.function) (hpriv : cfg.bypassPrivates = false ∨ tx.function = py! "____") :
    execute H cfg tx w = execute H cfg { tx with code := Src.codeFor S n tx.contract tx.function } w := by
  have hsame : (startsWith tx.function (py! "__") = false ∨ tx.function = py! "____") →
      tx = { tx with code := Src.codeFor S n tx.contract tx.function } := by
    intro hn
    rw [← C94_code hC hf hb n tx.contract tx.function hn, ← hcode]
  by_cases hp : startsWith tx.function (py! "__") = false
  · rw [← hsame (.inl hp)]
  · rcases hpriv with hb | hu
    · have hp : startsWith tx.function (py! "__") = true := by simpa using hp
      unfold execute
      simp only [hb, hp, Bool.not_false, Bool.and_self, if_true]
    · rw [← hsame (.inr hu)]

/-! ### Examples -/

namespace SourceDemo

/-- Python with `decimal` of a text, here the text itself, and nothing else. -/
def data : Data :=
  { Lang.Demo.data with
    call := fun f vs _ => if f = py! "decimal" then .ok (vs.headD .none) else .error .typeError
    builtin := fun id => decide (id = py! "decimal") }

/-- `total = Variable(default_value=0.5)`; `def step(v): total.set(v)`; `@construct def seed(): step(1.5)`;
`@export def get(): return total.get()`. -/
def src : Module := [
  .decl (py! "total") (py! "Variable") [(py! "default_value", .const (.float (py! "0.5")))],
  .def { name := py! "step", args := [(py! "v", none)], deco := .none, body := [
    .expr (.call (.attr (.name (py! "total")) (py! "set")) [.name (py! "v")] [])] },
  .def { name := py! "seed", args := [], deco := .construct, body := [
    .expr (.call (.name (py! "step")) [.const (.float (py! "1.5"))] [])] },
  .def { name := py! "get", args := [], deco := .export, body := [
    .ret [.call (.attr (.name (py! "total")) (py! "get")) [] []]] }]

/-- The sources: one contract. -/
def sources (m : Module) : Chain where
  D := data
  cost := fun _ _ => (1, 0)
  topCost := fun _ _ => (1, 0)
  code := fun c => if c = Verif.Demo.conB then some m else none

/-- Compiled. -/
def chain (m : Module) : Chain := { sources m with code := fun c => ((sources m).code c).map (compileModule c) }

theorem compiles {m : Module} (h : Accepted AstDemo.info Verif.Demo.conB (moduleAst m)) : Compiles AstDemo.info (sources m) (chain m) where
  data := rfl
  code := fun _ => rfl
  accepted := by
    intro c m' hm
    simp only [sources] at hm
    split at hm
    · rename_i e
      cases hm
      rw [e]
      exact h
    · cases hm
  cost := fun _ _ _ _ => rfl
  topCost := fun _ _ _ _ => rfl
  out := rfl

theorem accepted : Accepted AstDemo.info Verif.Demo.conB (moduleAst src) := ⟨_, rfl⟩

theorem faithful : ∀ c m, (sources src).code c = some m → Faithful m := by
  intro c m hm
  simp only [sources] at hm
  split at hm
  · cases hm
    refine ⟨by simp [src, Top.All, stmtsAll, Stmt.All, Expr.All, exprsAll, kwsAll, storageClasses], ?_, ?_, ?_, ?_, ?_, ?_⟩
    · simp [src]
    · simp [src, privateNames]
    · simp [src, privateNames, storageClasses]
    · simp [src]
    · simp [src, privateNames, storageClasses]
    · simp [src, boundAll, Stmt.bound, Top.bound]
  · cases hm

def tx (code : Code) (function : Str) (kwargs : Dict Str PyVal) : Tx :=
  { sender := Verif.Demo.bob, contract := Verif.Demo.conB, function := function, kwargs := kwargs, stamps := 50, stampCost := 1, code := code }

def world : World := Verif.Demo.world (Verif.Demo.stored Verif.Demo.conB ++ [(Verif.Demo.bobKey, .int 100)])

/-- The hypotheses are met: `get` of the compiled contract, which reads `__total` and returns what `decimal('0.5')`
gives, does what the source says. -/
example : execute Verif.Demo.host {} (tx ((chain src).codeFor 3 Verif.Demo.conB (py! "get")) (py! "get") []) world =
    execute Verif.Demo.host {} (tx (Src.codeFor (sources src) 3 Verif.Demo.conB (py! "get")) (py! "get") []) world :=
  C94_execute (compiles accepted) faithful rfl 3 Verif.Demo.host {} _ world rfl (.inl rfl)

/-- So does the constructor, which calls the private function. -/
example : execute Verif.Demo.host { bypassPrivates := true } (tx ((chain src).codeFor 3 Verif.Demo.conB (py! "____")) (py! "____") []) world =
    execute Verif.Demo.host { bypassPrivates := true } (tx (Src.codeFor (sources src) 3 Verif.Demo.conB (py! "____")) (py! "____") []) world :=
  C94_execute (compiles accepted) faithful rfl 3 Verif.Demo.host { bypassPrivates := true } _ world rfl (.inr rfl)

/-- What the sources say, and so what happens: `get` returns the default, the constructor stores `1.5` as `con_b.total`. -/
example : (execute Verif.Demo.host {} (tx (Src.codeFor (sources src) 3 Verif.Demo.conB (py! "get")) (py! "get") []) world).1.map Output.result =
      .ok (.ok (.str (py! "0.5"))) ∧
    stateOf Verif.Demo.conB (execute Verif.Demo.host { bypassPrivates := true } (tx ((chain src).codeFor 3 Verif.Demo.conB (py! "____")) (py! "____") []) world).2.driver
      (py! "total") = .ok (.str (py! "1.5")) := by
  decide +kernel

/-- `def one(): return 1`; `@export def get(one: int): return one()`. -/
def srcArg : Module := [
  .def { name := py! "one", args := [], deco := .none, body := [.ret [.const (.int 1)]] },
  .def { name := py! "get", args := [(py! "one", some (py! "int"))], deco := .export, body := [.ret [.call (.name (py! "one")) [] []]] }]

/-- `@export def half(decimal: int): return 0.5`. -/
def srcDecimal : Module := [
  .def { name := py! "half", args := [(py! "decimal", some (py! "int"))], deco := .export, body := [.ret [.const (.float (py! "0.5"))]] }]

/-- `x = Variable(default_value=1)`; `@export def get(__x: int): return x.get()`. -/
def srcUnder : Module := [
  .decl (py! "x") (py! "Variable") [(py! "default_value", .const (.int 1))],
  .def { name := py! "get", args := [(py! "__x", some (py! "int"))], deco := .export, body := [.ret [.call (.attr (.name (py! "x")) (py! "get")) [] []]] }]

/-- What calling a function on a node with only this contract results in. -/
def outcome (code : Code) (function : Str) (kwargs : Dict Str PyVal) : Except PyErr (Except PyErr PyVal) :=
  (execute Verif.Demo.host {} (tx code function kwargs) world).1.map Output.result

end SourceDemo

open SourceDemo in
/-- **C94 is false of contracts that are not well named**, although the linter accepts them: an argument named like a
private function is not used, the function is called instead of the argument; a float literal in a function with an
argument `decimal` calls the argument; an argument `__x` hides the storage object `x`. -/
theorem C94_refuted :
    (Accepted AstDemo.info Verif.Demo.conB (moduleAst srcArg) ∧
      outcome (Src.codeFor (sources srcArg) 3 Verif.Demo.conB (py! "get")) (py! "get") [(py! "one", .int 7)] = .ok (.error .typeError) ∧
      outcome ((chain srcArg).codeFor 3 Verif.Demo.conB (py! "get")) (py! "get") [(py! "one", .int 7)] = .ok (.ok (.int 1))) ∧
    (Accepted AstDemo.info Verif.Demo.conB (moduleAst srcDecimal) ∧
      outcome (Src.codeFor (sources srcDecimal) 3 Verif.Demo.conB (py! "half")) (py! "half") [(py! "decimal", .int 7)] = .ok (.ok (.str (py! "0.5"))) ∧
      outcome ((chain srcDecimal).codeFor 3 Verif.Demo.conB (py! "half")) (py! "half") [(py! "decimal", .int 7)] = .ok (.error .typeError)) ∧
    (Accepted AstDemo.info Verif.Demo.conB (moduleAst srcUnder) ∧
      outcome (Src.codeFor (sources srcUnder) 3 Verif.Demo.conB (py! "get")) (py! "get") [(py! "__x", .int 7)] = .ok (.ok (.int 1)) ∧
      (outcome ((chain srcUnder).codeFor 3 Verif.Demo.conB (py! "get")) (py! "get") [(py! "__x", .int 7)]).map Except.isOk = .ok false) := by
  refine ⟨⟨⟨_, rfl⟩, ?_⟩, ⟨⟨_, rfl⟩, ?_⟩, ⟨⟨_, rfl⟩, ?_⟩⟩ <;> decide +kernel

end Verif.Lang
