import Verif.Model.Ast
/-!
# The contract language as typed trees

`Model/Ast.lean` keeps the children of most nodes in one list, which is enough for the linter and the compiler. To say
what a contract *does*, the statements and expressions contracts are written in are given here as typed trees, with
their embedding `toAst` into the trees the compiler works on, and the compiler's transformation on typed trees
(`comp`), which agrees with `Ast.compile` (`Proofs/Lang.lean`).

Not part of the language: comprehensions, slices, f-strings, multiple assignment targets, `*`/`**` arguments,
keyword-only arguments, imports inside functions, statements at the top level other than imports, storage
declarations, assignments and functions.
-/
namespace Verif.Lang

/-- Operators whose operands are all evaluated first. -/
inductive Op where
  /-- `BinOp` with the class of its operator: `Add`, `Sub`, ... -/
  | bin (op : Str)
  | unary (op : Str)
  /-- `Compare` with one comparison -/
  | cmp (op : Str)
  | list
  | tuple
  /-- `Dict`: the keys, then the values -/
  | dict
  deriving DecidableEq, Repr

/-- Expressions. -/
inductive Expr where
  | name (id : Str)
  | const (c : Const)
  | attr (e : Expr) (a : Str)
  | call (f : Expr) (args : List Expr) (kws : List (Str × Expr))
  | sub (e i : Expr)
  | op (o : Op) (args : List Expr)
  /-- `and` (`or`) of several operands -/
  | bool (isAnd : Bool) (args : List Expr)
  /-- `a if test else b` -/
  | cond (test a b : Expr)

/-- Statements of function bodies. -/
inductive Stmt where
  | assign (x : Str) (e : Expr)
  /-- `e[i] = v` -/
  | assignSub (e i v : Expr)
  /-- `x op= e` -/
  | aug (op : Str) (x : Str) (e : Expr)
  /-- `e[i] op= v` -/
  | augSub (op : Str) (e i v : Expr)
  | expr (e : Expr)
  /-- `assert test, msg`; the message is at most one expression -/
  | assert (test : Expr) (msg : List Expr)
  | ite (test : Expr) (body orelse : List Stmt)
  | while (test : Expr) (body : List Stmt)
  | for (x : Str) (iter : Expr) (body : List Stmt)
  /-- `return` with at most one expression -/
  | ret (e : List Expr)
  | pass
  | break
  | continue

/-- How a function is decorated: in the source by nothing, `@export` or `@construct`, in compiled code by a call of
a wrapper with the contract's name. -/
inductive Deco where
  | none
  | export
  | construct
  | wrapped (wrapper contract : Str)
  deriving DecidableEq, Repr

/-- A function definition: name, arguments with the name of their annotation, default values of the last arguments. -/
structure Fun where
  name : Str
  args : List (Str × Option Str)
  defaults : List Expr := []
  deco : Deco
  body : List Stmt

/-- A top-level statement. -/
inductive Top where
  | import (name : Str) (as_ : Option Str)
  /-- `x = Cls(k=e, ...)`: storage -/
  | decl (x cls : Str) (kws : List (Str × Expr))
  /-- `x = e` -/
  | assign (x : Str) (e : Expr)
  | def (f : Fun)

/-- The statements of a contract. -/
abbrev Module := List Top

/-! ## Embedding -/

/-- A node without identifiers. -/
def mk (cls : Str) (children : List Ast) : Ast := .node (.other cls) [] children

/-- Nodes of operators: `BinOp(left, op, right)`, `UnaryOp(op, operand)`, `Compare(left, ops, comparators)`. -/
def Op.toAst (o : Op) (args : List Ast) : Ast :=
  match o with
  | .bin op => mk (py! "BinOp") (args.take 1 ++ mk op [] :: args.drop 1)
  | .unary op => mk (py! "UnaryOp") (mk op [] :: args)
  | .cmp op => mk (py! "Compare") (args.take 1 ++ mk op [] :: args.drop 1)
  | .list => mk (py! "List") args
  | .tuple => .node .tuple [] args
  | .dict => mk (py! "Dict") args

mutual
/-- The node of an expression. -/
def Expr.toAst : Expr → Ast
  | .name id => .name id
  | .const c => .const c
  | .attr e a => .attribute e.toAst a
  | .call f args kws => .call f.toAst (toAsts args) (kwToAsts kws)
  | .sub e i => mk (py! "Subscript") [e.toAst, i.toAst]
  | .op o args => o.toAst (toAsts args)
  | .bool isAnd args => mk (py! "BoolOp") (mk (if isAnd then py! "And" else py! "Or") [] :: toAsts args)
  | .cond test a b => mk (py! "IfExp") [test.toAst, a.toAst, b.toAst]
/-- Several expressions. -/
def toAsts : List Expr → List Ast
  | [] => []
  | e :: es => e.toAst :: toAsts es
/-- Keyword arguments. -/
def kwToAsts : List (Str × Expr) → List Ast
  | [] => []
  | (k, e) :: kws => .keyword (some k) e.toAst :: kwToAsts kws
end

mutual
/-- The node of a statement. -/
def Stmt.toAst : Stmt → Ast
  | .assign x e => .assign [.name x] e.toAst
  | .assignSub e i v => .assign [mk (py! "Subscript") [e.toAst, i.toAst]] v.toAst
  | .aug op x e => mk (py! "AugAssign") [.name x, mk op [], e.toAst]
  | .augSub op e i v => mk (py! "AugAssign") [mk (py! "Subscript") [e.toAst, i.toAst], mk op [], v.toAst]
  | .expr e => mk (py! "Expr") [e.toAst]
  | .assert test msg => mk (py! "Assert") (test.toAst :: toAsts msg)
  | .ite test body orelse => mk (py! "If") (test.toAst :: stmtsToAst body ++ stmtsToAst orelse)
  | .while test body => mk (py! "While") (test.toAst :: stmtsToAst body)
  | .for x iter body => mk (py! "For") (.name x :: iter.toAst :: stmtsToAst body)
  | .ret e => mk (py! "Return") (toAsts e)
  | .pass => mk (py! "Pass") []
  | .break => mk (py! "Break") []
  | .continue => mk (py! "Continue") []
/-- A block. -/
def stmtsToAst : List Stmt → List Ast
  | [] => []
  | s :: ss => s.toAst :: stmtsToAst ss
end

/-- Decorators. -/
def Deco.toAst : Deco → List Ast
  | .none => []
  | .export => [.name (py! "export")]
  | .construct => [.name (py! "construct")]
  | .wrapped w c => [.call (.name w) [.const (.str c)] []]

/-- One argument. -/
def argToAst (a : Str × Option Str) : Ast := .arg a.1 (a.2.map .name).toList

/-- A function definition. -/
def Fun.toAst (f : Fun) : Ast :=
  .functionDef f.name (f.args.map argToAst) (toAsts f.defaults) (stmtsToAst f.body) f.deco.toAst []

/-- A top-level statement. -/
def Top.toAst : Top → Ast
  | .import n a => .import [(n, a)]
  | .decl x cls kws => .assign [.name x] (.call (.name cls) [] (kwToAsts kws))
  | .assign x e => .assign [.name x] e.toAst
  | .def f => f.toAst

/-- A module. -/
def moduleAst (m : Module) : Ast := mk (py! "Module") (m.map Top.toAst)

/-! ## The compiler on typed trees -/

mutual
/-- compiler.py:37-39, 110-112, 118-122: names are renamed, float literals become calls of `decimal`. -/
def Expr.comp (ns : List Str) : Expr → Expr
  | .name id => .name (rename ns id)
  | .const (.float text) => .call (.name (py! "decimal")) [.const (.str text)] []
  | .const c => .const c
  | .attr e a => .attr (e.comp ns) a
  | .call f args kws => .call (f.comp ns) (compAll ns args) (compKws ns kws)
  | .sub e i => .sub (e.comp ns) (i.comp ns)
  | .op o args => .op o (compAll ns args)
  | .bool isAnd args => .bool isAnd (compAll ns args)
  | .cond test a b => .cond (test.comp ns) (a.comp ns) (b.comp ns)
/-- Several expressions. -/
def compAll (ns : List Str) : List Expr → List Expr
  | [] => []
  | e :: es => e.comp ns :: compAll ns es
/-- Keyword arguments; the keywords are no names. -/
def compKws (ns : List Str) : List (Str × Expr) → List (Str × Expr)
  | [] => []
  | (k, e) :: kws => (k, e.comp ns) :: compKws ns kws
end

/-- The class constructed by an expression, if it is a call of one of the storage classes by name. -/
def Expr.ormCall : Expr → Option Str
  | .call (.name id) _ _ => if ormClasses.contains id then some id else none
  | _ => none

/-- compiler.py:102-103: the keywords added to a construction. -/
def ownKws (c x : Str) : List (Str × Expr) := [(py! "contract", .const (.str c)), (py! "name", .const (.str x))]

/-- compiler.py:97-108 `visit_Assign`: the value assigned to `x`. -/
def Expr.compAssigned (ns : List Str) (c x : Str) (e : Expr) : Expr :=
  match e.ormCall, e.comp ns with
  | some _, .call f args kws => .call f args (kws ++ ownKws c x)
  | _, e' => e'

mutual
/-- Statements: expressions and assignments are transformed. -/
def Stmt.comp (ns : List Str) (c : Str) : Stmt → Stmt
  | .assign x e => .assign (rename ns x) (e.compAssigned ns c x)
  | .assignSub e i v => .assignSub (e.comp ns) (i.comp ns) (v.comp ns)
  | .aug op x e => .aug op (rename ns x) (e.comp ns)
  | .augSub op e i v => .augSub op (e.comp ns) (i.comp ns) (v.comp ns)
  | .expr e => .expr (e.comp ns)
  | .assert test msg => .assert (test.comp ns) (compAll ns msg)
  | .ite test body orelse => .ite (test.comp ns) (compStmts ns c body) (compStmts ns c orelse)
  | .while test body => .while (test.comp ns) (compStmts ns c body)
  | .for x iter body => .for (rename ns x) (iter.comp ns) (compStmts ns c body)
  | .ret e => .ret (compAll ns e)
  | .pass => .pass
  | .break => .break
  | .continue => .continue
/-- Blocks. -/
def compStmts (ns : List Str) (c : Str) : List Stmt → List Stmt
  | [] => []
  | s :: ss => s.comp ns c :: compStmts ns c ss
end

/-- compiler.py:66-91 `visit_FunctionDef`. -/
def Fun.comp (ns : List Str) (c : Str) (f : Fun) : Fun where
  name := match f.deco with
    | .none => privatize f.name
    | .construct => py! "____"
    | _ => f.name
  args := f.args.map fun a => (a.1, a.2.map (rename ns))
  defaults := compAll ns f.defaults
  deco := match f.deco with
    | .export => .wrapped (rename ns (py! "__export")) c
    | .construct => .none
    | d => d
  body := compStmts ns c f.body

/-- Top-level statements. -/
def Top.comp (ns : List Str) (c : Str) : Top → Top
  | .import n a => .import n a
  | .decl x cls kws =>
    if ormClasses.contains cls then .decl (rename ns x) (rename ns cls) (compKws ns kws ++ ownKws c x)
    else .decl (rename ns x) (rename ns cls) (compKws ns kws)
  | .assign x e => .assign (rename ns x) (e.compAssigned ns c x)
  | .def f => .def (f.comp ns c)

/-- compiler.py:18-46 `parse`, on typed modules: the names that are made private, then the transformation. -/
def compileModule (c : Str) (m : Module) : Module :=
  let ns := (moduleAst m).names
  m.map (Top.comp ns c)

end Verif.Lang
