import Verif.Model.Ast
/-!
# Vocabulary for statements about syntax trees
-/
namespace Verif

mutual
/-- All nodes of a tree: the node itself, then those of its children from left to right. -/
def Ast.nodes (t : Ast) : List Ast :=
  t :: match t with
  | .name _ => []
  | .attribute v _ => v.nodes
  | .const _ => []
  | .call f as ks => f.nodes ++ nodesAll as ++ nodesAll ks
  | .keyword _ v => v.nodes
  | .assign ts v => nodesAll ts ++ v.nodes
  | .arg _ ann => nodesAll ann
  | .functionDef _ as os b ds rs => nodesAll as ++ nodesAll os ++ nodesAll b ++ nodesAll ds ++ nodesAll rs
  | .import _ => []
  | .importFrom _ _ => []
  | .node _ _ cs => nodesAll cs
/-- All nodes of a list of trees. -/
def nodesAll (ts : List Ast) : List Ast :=
  match ts with
  | [] => []
  | t :: ts => t.nodes ++ nodesAll ts
end

namespace Spec

/-- The builtins a contract may use. -/
def safeBuiltins : List Str :=
  [py! "Exception", py! "False", py! "None", py! "True", py! "abs", py! "all", py! "any", py! "ascii", py! "bin", py! "bool",
   py! "bytearray", py! "bytes", py! "chr", py! "dict", py! "divmod", py! "filter", py! "format", py! "frozenset", py! "hex",
   py! "int", py! "isinstance", py! "issubclass", py! "import", py! "len", py! "list", py! "map", py! "max", py! "min", py! "oct",
   py! "ord", py! "pow", py! "range", py! "reversed", py! "round", py! "set", py! "sorted", py! "str", py! "sum", py! "tuple",
   py! "zip"]

/-- The classes that construct storage or log events. -/
def storageClasses : List Str := [py! "Variable", py! "Hash", py! "ForeignVariable", py! "ForeignHash", py! "LogEvent"]

/-- The types of arguments of exported functions. -/
def argTypes : List Str :=
  [py! "dict", py! "list", py! "str", py! "int", py! "float", py! "bool", py! "datetime.timedelta", py! "datetime.datetime", py! "Any"]

/-- The contract source is accepted (when submitted under the name `c`). -/
def Accepted (I : PyInfo) (c : Str) (t : Ast) : Prop := ∃ t', t.compile I c = .ok t'

/-- A function definition: its name, ordinary arguments, decorators and return annotation. -/
structure Fn where
  name : Str
  args : List Ast
  decorators : List Ast
  returns : List Ast

/-- The function a node defines. -/
def fnOf : Ast → Option Fn
  | .functionDef nm as _ _ ds rs => some ⟨nm, as, ds, rs⟩
  | _ => none

/-- All function definitions, in the order of the source. -/
def functions (t : Ast) : List Fn := t.nodes.filterMap fnOf

/-- `@export`, alone. -/
def Fn.Exported (f : Fn) : Prop := f.decorators = [.name (py! "export")]
/-- `@construct`, alone. -/
def Fn.Constructor (f : Fn) : Prop := f.decorators = [.name (py! "construct")]

/-- Storage declarations: assignments of a call of an ORM class; the name of the first target. -/
def declared (t : Ast) : List Str :=
  t.nodes.filterMap fun n =>
    match n with
    | .assign (.name x :: _) (.call (.name cls) _ _) => if cls ∈ storageClasses then some x else none
    | _ => none

/-- Neither starts nor ends with an underscore. -/
def Public (s : Str) : Prop := s.head? ≠ some '_' ∧ s.getLast? ≠ some '_'

/-- No decorator, `@export` alone or `@construct` alone. -/
def AllowedDecorators (ds : List Ast) : Prop :=
  ds = [] ∨ ds = [.name (py! "export")] ∨ ds = [.name (py! "construct")]

/-- A type as written in the source: a name or a dotted name. -/
def typeText : Ast → Option Str
  | .name id => some id
  | .attribute (.name v) a => some (v ++ '.' :: a)
  | _ => none

/-- The name of an argument. -/
def argName : Ast → Option Str
  | .arg x _ => some x
  | _ => none

/-- The names of ordinary arguments. -/
def argNames (as : List Ast) : List Str := as.filterMap argName

/-- Ordinary arguments with their types, if all have one. -/
def typedArgs : List Ast → Option (List (Str × Str))
  | [] => some []
  | .arg x (a :: _) :: as => match typeText a, typedArgs as with | some ty, some r => some ((x, ty) :: r) | _, _ => none
  | .arg _ [] :: _ => none
  | _ :: as => typedArgs as

/-- The storage declarations of a class, with the declared names. -/
def declaredAs (cls : Str) (t : Ast) : List Str :=
  t.nodes.filterMap fun n =>
    match n with
    | .assign (.name x :: _) (.call (.name k) _ _) => if k = cls then some x else none
    | _ => none

/-- The nodes `k` levels below the given ones, from left to right. -/
def level : Nat → List Ast → List Ast
  | 0, q => q
  | k + 1, q => level k (q.flatMap Ast.children)

/-- The nodes of a tree level by level, each from left to right. -/
def levelOrder (t : Ast) : List Ast := (List.range t.size).flatMap (fun k => level k [t])

/-- The nodes that come before any function definition, level by level. -/
def early (t : Ast) : List Ast := (levelOrder t).takeWhile (fun n => (fnOf n).isNone)

/-- The storage declarations of a class among these nodes, with the declared names. -/
def declaredIn (cls : Str) (ns : List Ast) : List Str :=
  ns.filterMap fun n =>
    match n with
    | .assign (.name x :: _) (.call (.name k) _ _) => if k = cls then some x else none
    | _ => none

/-- The contract uses this name for a private function or a storage declaration of its own. -/
def OwnName (t : Ast) (x : Str) : Prop := (∃ f ∈ functions t, f.decorators = [] ∧ f.name = x) ∨ x ∈ declared t

/-- The name of the decorator that exported functions get: the system's `__export`, unless the contract has an
undecorated function of that name, which is then taken instead, under its new name. -/
def IsWrapper (t : Ast) (w : Str) : Prop :=
  (w = py! "__export" ∧ ¬ ∃ f ∈ functions t, f.decorators = [] ∧ f.name = py! "__export") ∨
  (w = py! "____export" ∧ ∃ f ∈ functions t, f.decorators = [] ∧ f.name = py! "__export")

/-- What a function definition becomes when contract `c` is compiled: exported functions keep their name and
get the decorator `w` for `c`, the constructor becomes `____`, all others get two more underscores. -/
def Compiled (c w : Str) (f f' : Fn) : Prop :=
  argNames f'.args = argNames f.args ∧
  ((f.Exported ∧ f'.name = f.name ∧ f'.decorators = [.call (.name w) [.const (.str c)] []]) ∨
   (f.Constructor ∧ f'.name = py! "____" ∧ f'.decorators = []) ∨
   (f.decorators = [] ∧ f'.name = py! "__" ++ f.name ∧ f'.decorators = []))

/-- `contract='c', name='x'`. -/
def binding (c x : Str) : List Ast :=
  [.keyword (some (py! "contract")) (.const (.str c)), .keyword (some (py! "name")) (.const (.str x))]

/-- A statement that may not stand directly in the body of a function: an import or a function definition. -/
inductive NotInBody : Ast → Prop
  | imp (names) : NotInBody (.import names)
  | impFrom (m names) : NotInBody (.importFrom m names)
  | fn (nm as os b ds rs) : NotInBody (.functionDef nm as os b ds rs)

/-- The rules for contract source. -/
structure Rules (I : PyInfo) (t : Ast) : Prop where
  /-- names are public, not `rt`, and not those of unsafe builtins, except `float` -/
  names : ∀ id, Ast.name id ∈ t.nodes → Public id ∧ id ≠ py! "rt" ∧ (I.builtins id = true → id ∈ safeBuiltins ∨ id = py! "float")
  attributes : ∀ v a, Ast.attribute v a ∈ t.nodes → Public a ∧ a ≠ py! "rt"
  /-- no unsafe builtin is called by its name -/
  calls : ∀ id as ks, Ast.call (.name id) as ks ∈ t.nodes → I.builtins id = true → id ∈ safeBuiltins
  /-- storage classes get no second name -/
  aliases : ∀ ts x, Ast.assign ts (.name x) ∈ t.nodes → x ∉ [py! "Variable", py! "Hash", py! "LogEvent"]
  /-- a call whose result is assigned calls a name or an attribute -/
  callees : ∀ ts f as ks, Ast.assign ts (.call f as ks) ∈ t.nodes → (∃ id, f = .name id) ∨ ∃ v a, f = .attribute v a
  /-- constructed storage is assigned to a name first and never unpacked; its contract and name are not given for
  own storage -/
  storage : ∀ ts cls as ks, Ast.assign ts (.call (.name cls) as ks) ∈ t.nodes → cls ∈ storageClasses →
    (∃ x tl, ts = .name x :: tl) ∧ (∀ ids cs, Ast.node .tuple ids cs ∉ ts) ∧
    (cls ∈ [py! "Variable", py! "Hash", py! "LogEvent"] →
      ∀ v, Ast.keyword (some (py! "contract")) v ∉ ks ∧ Ast.keyword (some (py! "name")) v ∉ ks)
  bodies : ∀ nm as os body ds rs, Ast.functionDef nm as os body ds rs ∈ t.nodes → ∀ n ∈ body, ¬ NotInBody n
  decorators : ∀ f ∈ functions t, AllowedDecorators f.decorators
  /-- ordinary arguments of exported functions have an allowed type -/
  types : ∀ f ∈ functions t, f.Exported → ∀ x ann, Ast.arg x ann ∈ f.args →
    ∃ a tl ty, ann = a :: tl ∧ typeText a = some ty ∧ ty ∈ argTypes
  /-- an exported function with a return annotation has an ordinary argument, the last of which is one -/
  returns : ∀ f ∈ functions t, f.Exported → f.returns ≠ [] → ∃ x ann, f.args.getLast? = some (.arg x ann)
  exported : ∃ f ∈ functions t, f.Exported
  oneConstructor : (functions t).Pairwise (fun f g => ¬ (f.Constructor ∧ g.Constructor))
  arguments : ∀ f ∈ functions t, ∀ x ann, Ast.arg x ann ∈ f.args → x ∉ declared t
  imports : ∀ names, Ast.import names ∈ t.nodes → ∀ n ∈ names, I.modules n.1 = false
  noImportFrom : ∀ m names, Ast.importFrom m names ∉ t.nodes
  kinds : ∀ k ids cs, Ast.node k ids cs ∈ t.nodes → k ∉ [Kind.asyncFor, .asyncFunctionDef, .asyncWith, .await, .classDef,
    .generatorExp, .global, .interactive, .lambda, .matMult, .nonlocal, .suite, .try, .with, .yield, .yieldFrom]

end Spec
end Verif
