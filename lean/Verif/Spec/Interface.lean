import Verif.Model.Interface
import Verif.Spec.Ast
/-!
# Specification: interfaces

What it means that a module has what an interface item asks for, and that a contract, read as source, offers it.
-/
namespace Verif.Spec

/-- An attribute has what an item asks for. Attributes that are neither storage nor functions (classes, modules,
numbers, ...) have what any item asks for. -/
inductive Satisfies : Attr → Item → Prop
  /-- a function of this name with exactly these ordinary parameters, in this order -/
  | function (n : Str) (ps : List Str) : Satisfies (.function ⟨n, ps⟩ none) (.func n (some ps))
  /-- a wrapper around such a function -/
  | wrapped (outer : FnCode) (n : Str) (ps : List Str) : Satisfies (.function outer (some (.function ⟨n, ps⟩))) (.func n (some ps))
  /-- storage of exactly this class -/
  | storage (n : Str) (t : DatumClass) : Satisfies (.datum t) (.var n t)
  | anything (i : Item) : Satisfies .other i

/-- The comparison raises: a function is asked for, the attribute is storage or wraps something that is no function. -/
inductive Raises : Attr → Item → Prop
  | storage (c : DatumClass) (n : Str) (args : Option (List Str)) : Raises (.datum c) (.func n args)
  | wrapped (code : FnCode) (n : Str) (args : Option (List Str)) : Raises (.function code (some .other)) (.func n args)

/-- The module has an attribute that has what the item asks for. -/
def Met (attrs : Dict Str Attr) (i : Item) : Prop := ∃ a, Dict.get? attrs i.name = some a ∧ Satisfies a i

/-- Comparing the item with the module raises. -/
def Clash (attrs : Dict Str Attr) (i : Item) : Prop := ∃ a, Dict.get? attrs i.name = some a ∧ Raises a i

/-! ## Contracts -/

/-- What one can ask of a contract: `Func(name, args=params)`, `Func(name, args=params, private=True)`,
`Var(name, cls)`. -/
inductive Demand where
  | function (name : Str) (params : List Str)
  | privateFunction (name : Str) (params : List Str)
  | storage (name : Str) (cls : DatumClass)

/-- The item. -/
def Demand.item : Demand → Item
  | .function n ps => .mkFunc n (some ps) false
  | .privateFunction n ps => .mkFunc n (some ps) true
  | .storage x c => .mkVar x c

/-- The name, as the asker gives it. -/
def Demand.name : Demand → Str
  | .function n _ => n
  | .privateFunction n _ => n
  | .storage x _ => x

/-- The name of a class in source code. -/
def className : DatumClass → Str
  | .variable => py! "Variable"
  | .hash => py! "Hash"
  | .foreignVariable => py! "ForeignVariable"
  | .foreignHash => py! "ForeignHash"
  | .logEvent => py! "LogEvent"

/-- The statements of the source offer what is asked for: an exported function of this name with exactly these
parameters, a private function, or storage of this class declared under this name. -/
def Offers (body : List Ast) : Demand → Prop
  | .function n ps => ∃ as os b rs, Ast.functionDef n as os b [.name (py! "export")] rs ∈ body ∧ argNames as = ps
  | .privateFunction n ps => ∃ as os b rs, Ast.functionDef n as os b [] rs ∈ body ∧ argNames as = ps
  | .storage x c => ∃ as ks, Ast.assign [.name x] (.call (.name (className c)) as ks) ∈ body

/-- An import, a function definition with ordinary parameters only, or a storage declaration. -/
inductive PlainStmt : Ast → Prop
  | imp (names) : PlainStmt (.import names)
  | fn (nm as os b ds rs) : (∀ n ∈ os, argName n = none) → PlainStmt (.functionDef nm as os b ds rs)
  | storage (x cls as ks) : cls ∈ storageClasses → PlainStmt (.assign [.name x] (.call (.name cls) as ks))

/-- The names a statement gives a meaning to; the constructor's name does not count. -/
def namesOf : Ast → List Str
  | .import names => names.map fun n => n.2.getD (n.1.takeWhile (· ≠ '.'))
  | .functionDef nm _ _ _ ds _ => match ds with | [.name d] => if d = py! "construct" then [] else [nm] | _ => [nm]
  | .assign [.name x] _ => [x]
  | _ => []

/-- Ordinary contracts: plain statements, each name used once, none starting with an underscore or taking the name
of a storage class or of `export`. -/
structure Ordinary (body : List Ast) : Prop where
  plain : ∀ n ∈ body, PlainStmt n
  once : (body.flatMap namesOf).Nodup
  names : ∀ x ∈ body.flatMap namesOf, x.head? ≠ some '_' ∧ x ∉ storageClasses ∧ x ≠ py! "export"

end Verif.Spec
