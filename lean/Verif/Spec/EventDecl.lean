import Verif.Spec.Node
/-!
# Declarations of events in a source

What it means that a module declares an event: a top-level assignment `x = LogEvent(event='...', params={...})` with
literal parameters.
-/
namespace Verif.Lang
open Verif

/-- `{'k1': e1, 'k2': e2, ...}`, with different keys. -/
def IsDict (e : Expr) (entries : List (Str × Expr)) : Prop :=
  e = .op .dict (entries.map (fun q => .const (.str q.1)) ++ entries.map Prod.snd) ∧ (entries.map Prod.fst).Nodup

/-- The names of the classes. -/
def classNames : List (Str × PyType) :=
  [(py! "str", .str), (py! "int", .int), (py! "bool", .bool), (py! "float", .float), (py! "bytes", .bytes), (py! "decimal", .decimal),
   (py! "datetime.datetime", .datetime), (py! "datetime.timedelta", .timedelta), (py! "list", .list), (py! "tuple", .tuple),
   (py! "dict", .dict)]

/-- The name of a class, or a tuple of such names. -/
inductive Names : Expr → List PyType → Prop where
  | one {x : Str} {t : PyType} : (x, t) ∈ classNames → Names (.name x) [t]
  | tuple {xs : List (Str × PyType)} : (∀ q ∈ xs, q ∈ classNames) → Names (.op .tuple (xs.map fun q => .name q.1)) (xs.map Prod.snd)

/-- `{'type': ..., 'idx': ...}`; without `idx` it is false. -/
def IsParam (e : Expr) (p : Param) : Prop :=
  ∃ entries t, IsDict e entries ∧ (py! "type", t) ∈ entries ∧ Names t p.types ∧
    ((py! "idx", .const (.bool p.idx)) ∈ entries ∨ p.idx = false ∧ py! "idx" ∉ entries.map Prod.fst)

/-- The module declares the event `event` with these parameters: `x = LogEvent(event='...', params={'a': {...}, ...})`. -/
def DeclaresEvent (m : Module) (event : Str) (params : Dict Str Param) : Prop :=
  ∃ x kws e entries, Top.decl x (py! "LogEvent") kws ∈ m ∧ (py! "event", .const (.str event)) ∈ kws ∧ (py! "params", e) ∈ kws ∧
    IsDict e entries ∧ List.Forall₂ (fun q p => q.1 = p.1 ∧ IsParam q.2 p.2) entries params

/-- Only string literals are strings: neither a decimal nor bytes, complex numbers and `...` are. -/
structure NoText (D : Data) : Prop where
  decimal : ∀ x s, D.call (py! "decimal") [.str x] [] ≠ .ok (.str s)
  const : ∀ c s, D.const c ≠ .str s

/-- The event is declared in the source of a contract that the node runs. -/
def EventOfNode (N : Node) (d : Driver) (event : Str) (params : Dict Str Param) : Prop :=
  ∃ c m, N.code d c = some (compileModule c m) ∧ Spec.Accepted N.info c (moduleAst m) ∧ DeclaresEvent m event params

end Verif.Lang
