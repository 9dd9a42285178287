import Verif.Model.Base
/-!
# Python syntax trees, `compilation/linter.py`, `compilation/compiler.py`, `compilation/parser.py`

Trees are those of Python 3.11's `ast` module. Simplifications: line numbers, contexts (`Load`, `Store`) and
type comments are left out; the `arguments` and `alias` nodes are merged into their parents; Python's
recursion limit is not modelled. `ast.parse` (text to tree) and `astor.to_source` (tree to text) are not
modelled: everything here is about trees.
-/
namespace Verif

/-- `ast.Constant` values. Floats are given by `str(value)`. -/
inductive Const where
  | int (i : Int)
  | float (text : Str)
  | complex (text : Str)
  | str (s : Str)
  | bytes (s : Str)
  | bool (b : Bool)
  | none
  | ellipsis
  deriving DecidableEq, Repr

/-- Node classes that have no constructor of their own below. -/
inductive Kind where
  | asyncFor | asyncFunctionDef | asyncWith | await | classDef | generatorExp | global | interactive | lambda
  | matMult | nonlocal | suite | try | with | yield | yieldFrom
  | tuple
  /-- any other class of `ast`, by name -/
  | other (cls : Str)
  deriving DecidableEq, Repr

/-- A node. -/
inductive Ast where
  | name (id : Str)
  | attribute (value : Ast) (attr : Str)
  | const (c : Const)
  | call (func : Ast) (args keywords : List Ast)
  | keyword (arg : Option Str) (value : Ast)
  | assign (targets : List Ast) (value : Ast)
  /-- an argument of a function; `annotation` is empty or one expression -/
  | arg (name : Str) (annotation : List Ast)
  /-- `args` are the ordinary arguments (`arguments.args`), `others` everything else in `arguments`
  (positional-only, `*`, keyword-only, `**` arguments and default values); `returns` is empty or one
  expression -/
  | functionDef (name : Str) (args others body decorators returns : List Ast)
  /-- `import a, b as c` -/
  | import (names : List (Str × Option Str))
  | importFrom (from_ : Option Str) (names : List (Str × Option Str))
  /-- anything else: class, identifiers held as plain strings, child nodes in order -/
  | node (kind : Kind) (idents : List Str) (children : List Ast)
  deriving Repr

/-- What the linter takes from the running Python: `dir(builtins)` (whitelists.py:8) and the names of
standard modules (linter.py:28). -/
structure PyInfo where
  builtins : Str → Bool
  modules : Str → Bool

/-- whitelists.py:3-6 `ALLOWED_BUILTINS`. -/
def allowedBuiltins : List Str :=
  [py! "Exception", py! "False", py! "None", py! "True", py! "abs", py! "all", py! "any", py! "ascii", py! "bin", py! "bool",
   py! "bytearray", py! "bytes", py! "chr", py! "dict", py! "divmod", py! "filter", py! "format", py! "frozenset", py! "hex",
   py! "int", py! "isinstance", py! "issubclass", py! "import", py! "len", py! "list", py! "map", py! "max", py! "min", py! "oct",
   py! "ord", py! "pow", py! "range", py! "reversed", py! "round", py! "set", py! "sorted", py! "str", py! "sum", py! "tuple",
   py! "zip"]

/-- whitelists.py:8 `ILLEGAL_BUILTINS`. -/
def PyInfo.illegal (I : PyInfo) (id : Str) : Bool := I.builtins id && !allowedBuiltins.contains id

/-- whitelists.py:18-37 `ILLEGAL_AST_TYPES` (without `ImportFrom`, which never reaches `generic_visit`, and
`Ellipsis`, which is no class of parsed nodes). -/
def Kind.illegal : Kind → Bool
  | .tuple => false
  | .other _ => false
  | _ => true

/-- constants.py:16 `ORM_CLASS_NAMES`. -/
def ormClasses : List Str := [py! "Variable", py! "Hash", py! "ForeignVariable", py! "ForeignHash", py! "LogEvent"]
/-- linter.py:106, 115. -/
def ownClasses : List Str := [py! "Variable", py! "Hash", py! "LogEvent"]
/-- whitelists.py:39 `ALLOWED_ANNOTATION_TYPES`. -/
def annotationTypes : List Str :=
  [py! "dict", py! "list", py! "str", py! "int", py! "float", py! "bool", py! "datetime.timedelta", py! "datetime.datetime", py! "Any"]

/-! ## The linter -/

/-- linter.py:17-28: the fields used. Violations are indices into `VIOLATION_TRIGGERS` (whitelists.py:41-61);
`_is_success` is false exactly when there are some. -/
structure Lint where
  violations : List Nat := []
  oneExport : Bool := false
  constructorVisited : Bool := false
  ormNames : List Str := []
  visitedArgs : List Str := []
  argTypes : List (Option Str) := []
  deriving DecidableEq, Repr

namespace Lint

/-- Record a violation. -/
def flag (s : Lint) (n : Nat) : Lint := { s with violations := s.violations ++ [n] }

/-- Record a violation if `b`. -/
def flagIf (s : Lint) (b : Bool) (n : Nat) : Lint := if b then s.flag n else s

end Lint

/-- `s.endswith('_')`. -/
def endsUnderscore (s : Str) : Bool := s.getLast? = some '_'

/-- linter.py:36-40 `not_system_variable`. -/
def notSystemVariable (v : Str) (s : Lint) : Lint := s.flagIf (startsWith v (py! "_") || endsUnderscore v) 1

/-- linter.py:49-63 `visit_Name`. -/
def visitName (I : PyInfo) (id : Str) (s : Lint) : Lint :=
  ((notSystemVariable id s).flagIf (id = py! "rt") 13).flagIf (I.illegal id && id ≠ py! "float") 13

/-- linter.py:65-72 `visit_Attribute`. -/
def visitAttribute (attr : Str) (s : Lint) : Lint := (notSystemVariable attr s).flagIf (attr = py! "rt") 13

/-- linter.py:74-80 `visit_Import`. -/
def visitImport (I : PyInfo) (names : List (Str × Option Str)) (s : Lint) : Lint :=
  names.foldl (fun s n => s.flagIf (I.modules n.1) 13) s

/-- `isinstance(x, ast.Name)` and `x.id`. -/
def Ast.id? : Ast → Option Str
  | .name id => some id
  | _ => none

/-- `isinstance(x, ast.Attribute)`. -/
def Ast.isAttribute : Ast → Bool
  | .attribute _ _ => true
  | _ => false

/-- `type(x) == ast.Tuple`. -/
def Ast.isTuple : Ast → Bool
  | .node .tuple _ _ => true
  | _ => false

/-- `k.arg`. -/
def Ast.kwName? : Ast → Option Str
  | .keyword a _ => a
  | _ => none

/-- linter.py:111-113, compiler.py:98-100: the class called on the right-hand side, if it is an ORM class.
`value.func.id` raises for functions that are neither names nor attributes. -/
def ormCall (value : Ast) : Except PyErr (Option Str) :=
  match value with
  | .call f _ _ =>
    if f.isAttribute then .ok none
    else
      match f.id? with
      | none => .error .attributeError
      | some id => .ok (if ormClasses.contains id then some id else none)
  | _ => .ok none

/-- `value.keywords`. -/
def Ast.keywords : Ast → List Ast
  | .call _ _ ks => ks
  | _ => []

/-- linter.py:103-128 `visit_Assign`, the checks. -/
def visitAssign (targets : List Ast) (value : Ast) (s : Lint) : Except PyErr Lint :=
  let s := s.flagIf ((value.id?.map ownClasses.contains).getD false) 13
  match ormCall value with
  | .error e => .error e
  | .ok none => .ok s
  | .ok (some cls) =>
    let kwargs := value.keywords.map Ast.kwName?
    let s := s.flagIf (ownClasses.contains cls && (kwargs.contains (some (py! "contract")) || kwargs.contains (some (py! "name")))) 10
    let s := s.flagIf (targets.any Ast.isTuple) 11
    .ok (match targets.head? with
      | some (.name id) => { s with ormNames := s.ormNames ++ [id] }
      | _ => s)

/-- linter.py:139-145 `visit_Call`, the check. -/
def visitCall (I : PyInfo) (func : Ast) (s : Lint) : Lint :=
  match func with
  | .name id => s.flagIf (I.illegal id) 13
  | _ => s

/-- linter.py:150-156 `generic_visit`, the check. `MatMult` has no line number, so reporting it raises. -/
def genericCheck (k : Kind) (s : Lint) : Except PyErr Lint :=
  if k = .matMult then .error .attributeError else .ok (s.flagIf k.illegal 0)

/-- linter.py:88-91, 95-99: the extra report of `visit_ClassDef` and `visit_AsyncFunctionDef`. -/
def extraReport (k : Kind) (s : Lint) : Lint :=
  match k with
  | .classDef => s.flag 5
  | .asyncFunctionDef => s.flag 6
  | _ => s

/-- The annotation as text: a name or a dotted name, otherwise `AttributeError` (linter.py:212-216,
parser.py:19-22). -/
def annotationText : Ast → Except PyErr Str
  | .name id => .ok id
  | .attribute (.name v) a => .ok (v ++ '.' :: a)
  | _ => .error .attributeError

/-- linter.py:181-204: the loop over the decorators; says whether `export` was among them. -/
def visitDecorators (s : Lint) (export_ : Bool) : List Ast → Except PyErr (Lint × Bool)
  | [] => .ok (s, export_)
  | d :: ds =>
    match d.id? with
    | none => .error .attributeError
    | some id =>
      let s := s.flagIf (id ≠ py! "export" && id ≠ py! "construct") 7
      let s := if id = py! "export" then { s with oneExport := true } else s
      let s := if id = py! "construct" then { s.flagIf s.constructorVisited 8 with constructorVisited := true } else s
      visitDecorators s (export_ || id = py! "export") ds

/-- linter.py:207-218: the loop over the ordinary arguments. -/
def visitArgs (export_ : Bool) (s : Lint) : List Ast → Except PyErr Lint
  | [] => .ok s
  | .arg name ann :: as =>
    let s := { s with visitedArgs := s.visitedArgs ++ [name] }
    if export_ then
      match ann with
      | [] => visitArgs export_ { s with argTypes := s.argTypes ++ [none] } as
      | a :: _ =>
        match annotationText a with
        | .error e => .error e
        | .ok t => visitArgs export_ { s with argTypes := s.argTypes ++ [some t] } as
    else visitArgs export_ s as
  | _ :: as => visitArgs export_ s as

/-- linter.py:220-228: the return annotation. The code looks at the last argument (`a`) instead. With a
return annotation and no argument, `a` is unbound. -/
def visitReturns (args returns : List Ast) (s : Lint) : Except PyErr Lint :=
  match returns with
  | [] => .ok s
  | _ :: _ =>
    match args.getLast? with
    | some (.arg _ (a :: _)) => (annotationText a).map fun t => { s with argTypes := s.argTypes ++ [some t] }
    | some _ => .error .attributeError
    | none => .error .nameError

/-- linter.py:42-47, 171-178. -/
def Ast.isImport : Ast → Bool
  | .import _ => true
  | .importFrom _ _ => true
  | _ => false

/-- `isinstance(n, ast.FunctionDef)`. -/
def Ast.isFunction : Ast → Bool
  | .functionDef _ _ _ _ _ _ => true
  | _ => false

/-- linter.py:167-228 `visit_FunctionDef`, the checks. -/
def visitFunction (args body decorators returns : List Ast) (s : Lint) : Except PyErr Lint :=
  let s := (body.filter Ast.isImport).foldl (fun s _ => s.flag 2) s
  let s := (body.filter Ast.isFunction).foldl (fun s _ => s.flag 18) s
  let s := s.flagIf (decorators.length > 1) 9
  match visitDecorators s false decorators with
  | .error e => .error e
  | .ok (s, export_) =>
    match visitArgs export_ s args with
    | .error e => .error e
    | .ok s => if export_ then visitReturns args returns s else .ok s

mutual
/-- `Linter.visit` (dispatch of `ast.NodeVisitor`): the checks of the node's class, then its children. -/
def Ast.lint (I : PyInfo) (t : Ast) (s : Lint) : Except PyErr Lint :=
  match t with
  | .name id => .ok (visitName I id s)
  | .attribute v a => v.lint I (visitAttribute a s)
  | .const _ => .ok s
  | .call f as ks =>
    match f.lint I (visitCall I f s) with
    | .error e => .error e
    | .ok s =>
      match lintAll I as s with
      | .error e => .error e
      | .ok s => lintAll I ks s
  | .keyword _ v => v.lint I s
  | .assign ts v =>
    match visitAssign ts v s with
    | .error e => .error e
    | .ok s =>
      match lintAll I ts s with
      | .error e => .error e
      | .ok s => v.lint I s
  | .arg _ ann => lintAll I ann s
  | .functionDef _ as os b ds rs =>
    match visitFunction as b ds rs s with
    | .error e => .error e
    | .ok s =>
      match lintAll I as s with
      | .error e => .error e
      | .ok s =>
        match lintAll I os s with
        | .error e => .error e
        | .ok s =>
          match lintAll I b s with
          | .error e => .error e
          | .ok s =>
            match lintAll I ds s with
            | .error e => .error e
            | .ok s => lintAll I rs s
  | .import names => .ok (visitImport I names s)
  | .importFrom _ _ => .ok (s.flag 3)
  | .node k _ cs =>
    match genericCheck k (extraReport k s) with
    | .error e => .error e
    | .ok s => lintAll I cs s
/-- The loop over a list of children. -/
def lintAll (I : PyInfo) (ts : List Ast) (s : Lint) : Except PyErr Lint :=
  match ts with
  | [] => .ok s
  | t :: ts =>
    match t.lint I s with
    | .error e => .error e
    | .ok s => lintAll I ts s
end

/-- linter.py:260-276 `_final_checks` with 229-237 `annotation_types`. `check_return_types` (239-243) is only
ever called with `None`. -/
def finalChecks (s : Lint) : Lint :=
  let s := s.visitedArgs.foldl (fun t n => t.flagIf (s.ormNames.contains n) 14) s
  let s := s.flagIf (!s.oneExport) 12
  s.argTypes.foldl (fun t a =>
    match a with
    | none => t.flag 16
    | some a => t.flagIf (!annotationTypes.contains a) 15) s

/-- linter.py:289-298 `check`: the violations. -/
def Ast.check (I : PyInfo) (t : Ast) : Except PyErr (List Nat) :=
  (t.lint I {}).map fun s => (finalChecks s).violations

/-! ## The compiler -/

/-- compiler.py:50-52 `privatize` (`PRIVATE_METHOD_PREFIX`, constants.py:10). -/
def privatize (s : Str) : Str := '_' :: '_' :: s

/-- The names added by one node to `private_names` (compiler.py:90) or `orm_names` (compiler.py:104). -/
def Ast.ownNames : Ast → List Str
  | .functionDef nm _ _ _ [] _ => [nm]
  | .assign (.name id :: _) v => match ormCall v with | .ok (some _) => [id] | _ => []
  | _ => []

mutual
/-- The union of `private_names` and `orm_names` at the end of the first pass (compiler.py:27). -/
def Ast.names (t : Ast) : List Str :=
  t.ownNames ++
  match t with
  | .attribute v _ => v.names
  | .call f as ks => f.names ++ namesAll as ++ namesAll ks
  | .keyword _ v => v.names
  | .assign ts v => namesAll ts ++ v.names
  | .arg _ ann => namesAll ann
  | .functionDef _ as os b ds rs => namesAll as ++ namesAll os ++ namesAll b ++ namesAll ds ++ namesAll rs
  | .node _ _ cs => namesAll cs
  | _ => []
/-- For a list of children. -/
def namesAll (ts : List Ast) : List Str :=
  match ts with
  | [] => []
  | t :: ts => t.names ++ namesAll ts
end

/-- compiler.py:37-39: the final renaming of a visited name. -/
def rename (ns : List Str) (id : Str) : Str := if ns.contains id then privatize id else id

/-- compiler.py:66-91 `visit_FunctionDef`: new name and decorators. Decorators before the last are kept
(the linter refuses them). -/
def newHeader (ns : List Str) (contract name : Str) (decorators : List Ast) : Except PyErr (Str × List Ast) :=
  match decorators.getLast? with
  | none => .ok (privatize name, [])
  | some d =>
    match d.id? with
    | none => .error .attributeError
    | some id =>
      if id = py! "construct" then .ok (py! "____", decorators.dropLast)
      else if id = py! "export" then
        .ok (name, decorators.dropLast ++ [.call (.name (rename ns (py! "__export"))) [.const (.str contract)] []])
      else .ok (name, decorators.dropLast)

mutual
/-- The compiled tree (compiler.py:66-122): `visit` followed by the renaming of all visited names
(compiler.py:37-39). `ns` is what the first pass collects. The `decimal` put in by `visit_Num` is not a
visited name. -/
def Ast.transform (ns : List Str) (contract : Str) (t : Ast) : Except PyErr Ast :=
  match t with
  | .name id => .ok (.name (rename ns id))
  | .attribute v a => (v.transform ns contract).map fun v => .attribute v a
  | .const (.float text) => .ok (.call (.name (py! "decimal")) [.const (.str text)] [])
  | .const c => .ok (.const c)
  | .call f as ks =>
    match f.transform ns contract with
    | .error e => .error e
    | .ok f =>
      match transformAll ns contract as with
      | .error e => .error e
      | .ok as => (transformAll ns contract ks).map fun ks => .call f as ks
  | .keyword a v => (v.transform ns contract).map fun v => .keyword a v
  | .assign ts v =>
    match ormCall v with
    | .error e => .error e
    | .ok orm =>
      match (if orm.isSome then (ts.head?.bind Ast.id?).toList else [[]]) with
      | [] => .error .attributeError
      | target :: _ =>
        match transformAll ns contract ts with
        | .error e => .error e
        | .ok ts =>
          match v.transform ns contract with
          | .error e => .error e
          | .ok v =>
            match orm, v with
            | some _, .call f as ks =>
              .ok (.assign ts (.call f as (ks ++ [.keyword (some (py! "contract")) (.const (.str contract)),
                                                  .keyword (some (py! "name")) (.const (.str target))])))
            | _, v => .ok (.assign ts v)
  | .arg n ann => (transformAll ns contract ann).map fun ann => .arg n ann
  | .functionDef nm as os b ds rs =>
    match newHeader ns contract nm ds with
    | .error e => .error e
    | .ok (name', ds') =>
      match transformAll ns contract as with
      | .error e => .error e
      | .ok as =>
        match transformAll ns contract os with
        | .error e => .error e
        | .ok os =>
          match transformAll ns contract b with
          | .error e => .error e
          | .ok b => (transformAll ns contract rs).map fun rs => .functionDef name' as os b ds' rs
  | .import names => .ok (.import names)
  | .importFrom m names => .ok (.importFrom m names)
  | .node k ids cs => (transformAll ns contract cs).map fun cs => .node k ids cs
/-- For a list of children. -/
def transformAll (ns : List Str) (contract : Str) (ts : List Ast) : Except PyErr (List Ast) :=
  match ts with
  | [] => .ok []
  | t :: ts =>
    match t.transform ns contract with
    | .error e => .error e
    | .ok t => (transformAll ns contract ts).map fun ts => t :: ts
end

/-- compiler.py:18-46 `parse` with `lint=True`, from the syntax tree on: `Exception(lint_alerts)` if there are
violations. -/
def Ast.compile (I : PyInfo) (contract : Str) (t : Ast) : Except PyErr Ast :=
  match t.check I with
  | .error e => .error e
  | .ok violations =>
    match t.transform t.names contract with
    | .error e => .error e
    | .ok t' => if violations.isEmpty then .ok t' else .error .exception

/-! ## Reading compiled contracts -/

/-- `ast.iter_child_nodes`. -/
def Ast.children : Ast → List Ast
  | .attribute v _ => [v]
  | .call f as ks => f :: as ++ ks
  | .keyword _ v => [v]
  | .assign ts v => ts ++ [v]
  | .arg _ ann => ann
  | .functionDef _ as os b ds rs => as ++ os ++ b ++ ds ++ rs
  | .node _ _ cs => cs
  | _ => []

mutual
/-- The number of nodes. -/
def Ast.size (t : Ast) : Nat :=
  match t with
  | .attribute v _ => v.size + 1
  | .call f as ks => f.size + sizeAll as + sizeAll ks + 1
  | .keyword _ v => v.size + 1
  | .assign ts v => sizeAll ts + v.size + 1
  | .arg _ ann => sizeAll ann + 1
  | .functionDef _ as os b ds rs => sizeAll as + sizeAll os + sizeAll b + sizeAll ds + sizeAll rs + 1
  | .node _ _ cs => sizeAll cs + 1
  | _ => 1
/-- For a list of trees. -/
def sizeAll (ts : List Ast) : Nat :=
  match ts with
  | [] => 0
  | t :: ts => t.size + sizeAll ts
end

/-- `ast.walk`: breadth first, with a queue. The first argument bounds the number of steps. -/
def walk : Nat → List Ast → List Ast
  | 0, _ => []
  | _, [] => []
  | n + 1, t :: q => t :: walk n (q ++ t.children)

/-- parser.py:16-27: the arguments of one function. -/
def methodArgs : List Ast → Except PyErr (List (Str × Str))
  | [] => .ok []
  | .arg name ann :: as =>
    match ann with
    | [] => .error .attributeError
    | a :: _ =>
      match annotationText a with
      | .error e => .error e
      | .ok ty => (methodArgs as).map fun r => (name, ty) :: r
  | _ :: as => methodArgs as

/-- parser.py:9-31: the loop over the definitions. -/
def methodsOf : List Ast → Except PyErr (List (Str × List (Str × Str)))
  | [] => .ok []
  | .functionDef nm as _ _ _ _ :: ds =>
    if startsWith nm (py! "__") then methodsOf ds
    else
      match methodArgs as with
      | .error e => .error e
      | .ok kwargs => (methodsOf ds).map fun r => (nm, kwargs) :: r
  | _ :: ds => methodsOf ds

/-- parser.py:4-31 `methods_for_contract`, from the syntax tree on. -/
def methodsForContract (t : Ast) : Except PyErr (List (Str × List (Str × Str))) :=
  methodsOf ((walk t.size [t]).filter Ast.isFunction)

/-- `isinstance(node, ast.Assign)`. -/
def Ast.isAssign : Ast → Bool
  | .assign _ _ => true
  | _ => false

/-- parser.py:49-54: one assignment; the class and the name to be listed. -/
def variableOf : Ast → Except PyErr (Option (Str × Str))
  | .assign ts (.call f _ _) =>
    match f.id? with
    | none => .error .attributeError
    | some cls =>
      if cls = py! "Variable" ∨ cls = py! "Hash" then
        match ts.head?.bind Ast.id? with
        | none => .error .attributeError
        | some id => .ok (some (cls, id.dropWhile (· = '_')))
      else .ok none
  | _ => .ok none

/-- parser.py:49-54: the loop. -/
def variablesOf : List Ast → Except PyErr (List (Str × Str))
  | [] => .ok []
  | a :: as =>
    match variableOf a with
    | .error e => .error e
    | .ok none => variablesOf as
    | .ok (some v) => (variablesOf as).map fun r => v :: r

/-- parser.py:34-59 `variables_for_contract`, from the syntax tree on: the lists `variables` and `hashes`. -/
def variablesForContract (t : Ast) : Except PyErr (List Str × List Str) :=
  (variablesOf (((walk t.size [t]).takeWhile (fun n => !n.isFunction)).filter Ast.isAssign)).map fun vs =>
    ((vs.filter (·.1 = py! "Variable")).map (·.2), (vs.filter (·.1 = py! "Hash")).map (·.2))

end Verif
