import Verif.Model.Interp
import Verif.Spec.Ast
import Verif.Spec.Guard
/-!
# Contracts written in the contract language
-/
namespace Verif.Lang

mutual
/-- Every name the expression mentions satisfies `N`, every attribute `A`. -/
def Expr.All (N A : Str → Prop) : Expr → Prop
  | .name id => N id
  | .const _ => True
  | .attr e a => e.All N A ∧ A a
  | .call f args kws => f.All N A ∧ exprsAll N A args ∧ kwsAll N A kws
  | .sub e i => e.All N A ∧ i.All N A
  | .op _ args => exprsAll N A args
  | .bool _ args => exprsAll N A args
  | .cond test a b => test.All N A ∧ a.All N A ∧ b.All N A
/-- Several expressions. -/
def exprsAll (N A : Str → Prop) : List Expr → Prop
  | [] => True
  | e :: es => e.All N A ∧ exprsAll N A es
/-- Keyword arguments. -/
def kwsAll (N A : Str → Prop) : List (Str × Expr) → Prop
  | [] => True
  | (_, e) :: es => e.All N A ∧ kwsAll N A es
end

mutual
/-- The same for statements. -/
def Stmt.All (N A : Str → Prop) : Stmt → Prop
  | .assign x e => N x ∧ e.All N A
  | .assignSub e i v => e.All N A ∧ i.All N A ∧ v.All N A
  | .aug _ x e => N x ∧ e.All N A
  | .augSub _ e i v => e.All N A ∧ i.All N A ∧ v.All N A
  | .expr e => e.All N A
  | .assert test msg => test.All N A ∧ exprsAll N A msg
  | .ite test body orelse => test.All N A ∧ stmtsAll N A body ∧ stmtsAll N A orelse
  | .while test body => test.All N A ∧ stmtsAll N A body
  | .for x iter body => N x ∧ iter.All N A ∧ stmtsAll N A body
  | .ret es => exprsAll N A es
  | .pass => True
  | .break => True
  | .continue => True
/-- Blocks. -/
def stmtsAll (N A : Str → Prop) : List Stmt → Prop
  | [] => True
  | s :: ss => s.All N A ∧ stmtsAll N A ss
end

/-- Function bodies and default values, assigned expressions and the keyword arguments of storage declarations. -/
def Top.All (N A : Str → Prop) : Top → Prop
  | .import _ _ => True
  | .decl _ _ kws => kwsAll N A kws
  | .assign _ e => e.All N A
  | .def f => exprsAll N A f.defaults ∧ stmtsAll N A f.body

/-- A contract that constructs its storage in plain top-level assignments and nowhere else: the storage classes are
not mentioned in functions, expressions or as attributes; no declaration or private function takes the name of a
system's storage driver, `__Driver`, less its underscores (C66). -/
structure Disciplined (m : Module) : Prop where
  mentions : ∀ t ∈ m, t.All (fun id => id ∉ Spec.storageClasses) (fun a => a ∉ Spec.storageClasses)
  names : ¬ Spec.OwnName (moduleAst m) (py! "Driver")

/-- The chain runs the compiled forms of these sources, accepted under names without dots. -/
structure Deployed (I : PyInfo) (src : Str → Option Module) (C : Chain) : Prop where
  compiled : ∀ c, C.code c = (src c).map (compileModule c)
  accepted : ∀ c m, src c = some m → Spec.Accepted I c (moduleAst m)
  plain : ∀ c m, src c = some m → '.' ∉ c

/-- A value by which nothing under `c`, which has the compiled module `m`, can be written: plain data, modules,
read-only storage, storage of other contracts, and functions -- those of `c` itself only if they are exported. -/
def Harmless (c : Str) (m : Module) : Val → Prop
  | .var x => ¬ Spec.Under c x.key
  | .hash h => ∀ s, ¬ Spec.Under c (h.key ++ ':' :: s)
  | .cls _ => False
  | .driver => False
  | .fn c' i => c' = c → ∃ f w, (funs m)[i]? = some f ∧ f.deco = .wrapped w c
  | .meth v _ => Harmless c m v
  | _ => True

/-- The bodies of the exported functions of `c`, for arguments that cannot write under `c`: whatever else is
deployed. -/
def Exported (D : Data) (c : Str) (m : Module) (p : Prog) : Prop :=
  ∃ (C : Chain) (n : Nat) (f : Fun) (w : Str) (vs : List Val) (ks : List (Str × Val)),
    C.D = D ∧ C.code c = some m ∧ f ∈ funs m ∧ f.deco = .wrapped w c ∧ C.systemWrapper c w = true ∧
    (∀ v ∈ vs, Harmless c m v) ∧ (∀ q ∈ ks, Harmless c m q.2) ∧ p = C.body n c m f vs ks

/-- A transaction that calls a public function of a deployed contract, with `c` among the deployed contracts (source
`mc`) and all of them disciplined; calls nest and loops run at most `n` deep. -/
def LangTx (D : Data) (c : Str) (mc : Module) (tx : Tx) : Prop :=
  ∃ (I : PyInfo) (src : Str → Option Module) (C : Chain) (n : Nat), C.D = D ∧ Deployed I src C ∧ (∀ c' m, src c' = some m → Disciplined m) ∧
    src c = some mc ∧ startsWith tx.function (py! "__") = false ∧ tx.code = C.codeFor n tx.contract tx.function

/-- A history of a node on which such contracts are deployed: like `Spec.Around`, with transactions that run language
contracts. Which other contracts there are may change in between. -/
inductive LangAround (H : Host) (D : Data) (c : Str) (mc : Module) : World → World → Prop where
  | start (w : World) : LangAround H D c mc w w
  | tx {w0 w w' : World} {cfg : ExecCfg} {tx : Tx} {o : Output} : LangAround H D c mc w0 w → tx.autoCommit = false →
      LangTx D c mc tx → (tx.metered cfg = true → ¬ Spec.Under c (balanceKey cfg tx.sender)) →
      execute H cfg tx w = (.ok o, w') → LangAround H D c mc w0 w'
  | apply {w0 w : World} (nanos : Int) : LangAround H D c mc w0 w → Spec.Settled c w.driver →
      LangAround H D c mc w0 { w with driver := (w.driver.hardApply nanos).2 }
  | commit {w0 w : World} : LangAround H D c mc w0 w → Spec.Settled c w.driver →
      LangAround H D c mc w0 { w with driver := w.driver.commit.2 }
  | rollback {w0 w : World} : LangAround H D c mc w0 w → LangAround H D c mc w0 { w with driver := w.driver.rollback }
  | evict {w0 w : World} (keep : Str → Bool) : LangAround H D c mc w0 w →
      LangAround H D c mc w0 { w with driver := w.driver.evict keep }
  | restart {w0 w : World} : LangAround H D c mc w0 w → w.driver.pendingWrites = [] →
      LangAround H D c mc w0 { driver := .open w.driver.disk }

end Verif.Lang
