import Verif.Spec.Ast
/-!
# The linter as a pass over all nodes
-/
namespace Verif
open Spec

/-- The checks of one node. -/
def Ast.own (I : PyInfo) (t : Ast) (s : Lint) : Except PyErr Lint :=
  match t with
  | .name id => .ok (visitName I id s)
  | .attribute _ a => .ok (visitAttribute a s)
  | .call f _ _ => .ok (visitCall I f s)
  | .assign ts v => visitAssign ts v s
  | .functionDef _ as _ b ds rs => visitFunction as b ds rs s
  | .import names => .ok (visitImport I names s)
  | .importFrom _ _ => .ok (s.flag 3)
  | .node k _ _ => genericCheck k (extraReport k s)
  | _ => .ok s

/-- The checks of a list of nodes. -/
def pass (I : PyInfo) : List Ast → Lint → Except PyErr Lint
  | [], s => .ok s
  | n :: ns, s =>
    match n.own I s with
    | .error e => .error e
    | .ok s => pass I ns s

theorem pass_append (I : PyInfo) (xs ys : List Ast) (s : Lint) :
    pass I (xs ++ ys) s = match pass I xs s with | .error e => .error e | .ok s => pass I ys s := by
  induction xs generalizing s with
  | nil => rfl
  | cons x xs ih =>
    simp only [List.cons_append, pass]
    cases x.own I s with
    | error e => rfl
    | ok s => exact ih s

mutual
theorem Ast.lint_pass (I : PyInfo) : ∀ (t : Ast) (s : Lint), t.lint I s = pass I t.nodes s
  | .name id, s => rfl
  | .attribute v a, s => by
    rw [Ast.lint, Ast.nodes, pass]; exact Ast.lint_pass I v _
  | .const c, s => rfl
  | .call f as ks, s => by
    rw [Ast.lint, Ast.nodes, pass]
    simp only [Ast.own]
    rw [pass_append, pass_append, Ast.lint_pass I f]
    cases pass I f.nodes (visitCall I f s) with
    | error e => rfl
    | ok s =>
      simp only
      rw [lintAll_pass I as]
      cases pass I (nodesAll as) s with
      | error e => rfl
      | ok s => exact lintAll_pass I ks s
  | .keyword _ v, s => by
    rw [Ast.lint, Ast.nodes, pass]; exact Ast.lint_pass I v _
  | .assign ts v, s => by
    rw [Ast.lint, Ast.nodes, pass]
    simp only [Ast.own]
    cases visitAssign ts v s with
    | error e => rfl
    | ok s =>
      simp only
      rw [pass_append, lintAll_pass I ts]
      cases pass I (nodesAll ts) s with
      | error e => rfl
      | ok s => exact Ast.lint_pass I v s
  | .arg _ ann, s => by
    rw [Ast.lint, Ast.nodes, pass]; exact lintAll_pass I ann s
  | .functionDef nm as os b ds rs, s => by
    rw [Ast.lint, Ast.nodes, pass]
    simp only [Ast.own]
    cases visitFunction as b ds rs s with
    | error e => rfl
    | ok s =>
      simp only
      rw [pass_append, pass_append, pass_append, pass_append, lintAll_pass I as]
      cases pass I (nodesAll as) s with
      | error e => rfl
      | ok s =>
        simp only
        rw [lintAll_pass I os]
        cases pass I (nodesAll os) s with
        | error e => rfl
        | ok s =>
          simp only
          rw [lintAll_pass I b]
          cases pass I (nodesAll b) s with
          | error e => rfl
          | ok s =>
            simp only
            rw [lintAll_pass I ds]
            cases pass I (nodesAll ds) s with
            | error e => rfl
            | ok s => exact lintAll_pass I rs s
  | .import _, s => rfl
  | .importFrom _ _, s => rfl
  | .node k ids cs, s => by
    rw [Ast.lint, Ast.nodes, pass]
    simp only [Ast.own]
    cases genericCheck k (extraReport k s) with
    | error e => rfl
    | ok s => exact lintAll_pass I cs s
theorem lintAll_pass (I : PyInfo) : ∀ (ts : List Ast) (s : Lint), lintAll I ts s = pass I (nodesAll ts) s
  | [], s => rfl
  | t :: ts, s => by
    rw [lintAll, nodesAll, pass_append, Ast.lint_pass I t]
    cases pass I t.nodes s with
    | error e => rfl
    | ok s => exact lintAll_pass I ts s
end

end Verif
