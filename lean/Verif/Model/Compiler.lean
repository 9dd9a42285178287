import Verif.Model.Ast
import Verif.Spec.Ast
/-!
# A `ContractingCompiler` object over its lifetime (`compilation/compiler.py`)

`Model/Ast.lean` describes one use of a new compiler. Here the object's attributes are kept from one use to the next.
`visited_names` is left out: what earlier uses left in it are nodes of discarded trees. The shared `Linter` resets
itself at every check (linter.py:249-258, 290).

Simplification: the result is exact for functions with at most one decorator (the linter refuses others; with
`lint=False` names inside further decorators would be renamed too).
-/
namespace Verif

/-- compiler.py:9-16: the attributes that outlive a use. -/
structure Compiler where
  /-- `module_name` -/
  contract : Str := py! "__main__"
  /-- `lint_alerts is not None` -/
  alerts : Bool := false
  /-- the union of `private_names` and `orm_names` -/
  names : List Str := []
  deriving DecidableEq, Repr

/-- Visiting this node raises AttributeError: the last decorator has no `id` (compiler.py:74), or an assigned call
calls something without `id` (compiler.py:100), or the first target of a storage declaration has none (compiler.py:103). -/
def nodeFails : Ast → Bool
  | .functionDef _ _ _ _ ds _ => match ds.getLast? with | some d => d.id?.isNone | none => false
  | .assign ts v =>
    match ormCall v with
    | .error _ => true
    | .ok none => false
    | .ok (some _) => (ts.head?.bind Ast.id?).isNone
  | _ => false

/-- `self.visit(tree)` (compiler.py:27), as far as the collected names are concerned: nodes are visited in order, parents
first. An error carries what was collected until then. -/
def collect : List Ast → List Str → Except (List Str) (List Str)
  | [], acc => .ok acc
  | n :: ns, acc => if nodeFails n then .error acc else collect ns (acc ++ n.ownNames)

/-- compiler.py:18-46 `parse`. The source is what `ast.parse` makes of the text; `none` if that raises
(`SyntaxError`, here `.exception`). -/
def Compiler.parse (I : PyInfo) (st : Compiler) (source : Option Ast) (lint : Bool) : Except PyErr Ast × Compiler :=
  match source with
  | none => (.error .exception, st)
  | some t =>
    match (if lint then (t.check I).map (fun v => !v.isEmpty) else .ok st.alerts) with
    | .error e => (.error e, st)
    | .ok alerts =>
      match collect t.nodes st.names with
      | .error l => (.error .attributeError, { st with alerts := alerts, names := l })
      | .ok l =>
        if alerts then (.error .exception, { st with alerts := alerts, names := l })
        else
          match t.transform l st.contract with
          | .error e => (.error e, { st with alerts := alerts, names := l })
          | .ok t' => (.ok t', { st with alerts := alerts, names := [] })

/-- Several uses, one after the other: the state reached. -/
def Compiler.uses (I : PyInfo) (st : Compiler) : List (Option Ast × Bool) → Compiler
  | [] => st
  | (s, lint) :: us => ((st.parse I s lint).2).uses I us

end Verif
