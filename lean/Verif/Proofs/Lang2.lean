import Verif.Proofs.Lang
import Verif.Proofs.Interp
import Verif.Props.Ast
/-!
# Names in typed trees
-/
namespace Verif.Lang
open Verif Verif.Spec

/-- All names and attributes among these nodes satisfy `N` and `A`. -/
def NodesOk (N A : Str → Prop) (L : List Ast) : Prop :=
  (∀ id, Ast.name id ∈ L → N id) ∧ ∀ v a, Ast.attribute v a ∈ L → A a

theorem NodesOk.mono {N A : Str → Prop} {L L' : List Ast} (h : NodesOk N A L) (hs : L' ⊆ L) : NodesOk N A L' :=
  ⟨fun id hi => h.1 id (hs hi), fun v a hi => h.2 v a (hs hi)⟩

theorem nodesAll_mk (cls : Str) (ts : List Ast) : (mk cls ts).nodes = mk cls ts :: nodesAll ts := by
  simp [mk, Ast.nodes]

section
variable {N A : Str → Prop}

theorem op_nodes (o : Op) (as : List Ast) : nodesAll as ⊆ (o.toAst as).nodes := by
  have h : ∀ op : Str, nodesAll as ⊆ nodesAll (as.take 1 ++ mk op [] :: as.drop 1) := by
    intro op x hx
    rw [nodesAll_append, nodesAll]
    conv at hx => rw [← List.take_append_drop 1 as, nodesAll_append]
    simp only [List.mem_append] at hx ⊢
    tauto
  cases o with
  | bin op => simp only [Op.toAst, nodesAll_mk]; exact List.subset_cons_of_subset _ (h op)
  | unary op => simp only [Op.toAst, nodesAll_mk, nodesAll]; intro x hx; simp [hx]
  | cmp op => simp only [Op.toAst, nodesAll_mk]; exact List.subset_cons_of_subset _ (h op)
  | list => simp [Op.toAst, nodesAll_mk]
  | tuple => simp [Op.toAst, Ast.nodes]
  | dict => simp [Op.toAst, nodesAll_mk]

mutual
theorem expr_all : ∀ (e : Expr), NodesOk N A e.toAst.nodes → e.All N A
  | .name id, h => h.1 id (by simp [Expr.toAst, Ast.nodes])
  | .const _, _ => trivial
  | .attr e a, h => ⟨expr_all e (h.mono (by intro x hx; simp [Expr.toAst, Ast.nodes, hx])), h.2 e.toAst a (by simp [Expr.toAst, Ast.nodes])⟩
  | .call f args kws, h =>
    ⟨expr_all f (h.mono (by intro x hx; simp [Expr.toAst, Ast.nodes, hx])),
     exprs_all args (h.mono (by intro x hx; simp [Expr.toAst, Ast.nodes, hx])),
     kws_all kws (h.mono (by intro x hx; simp [Expr.toAst, Ast.nodes, hx]))⟩
  | .sub e i, h =>
    ⟨expr_all e (h.mono (by intro x hx; simp [Expr.toAst, nodesAll_mk, nodesAll, hx])),
     expr_all i (h.mono (by intro x hx; simp [Expr.toAst, nodesAll_mk, nodesAll, hx]))⟩
  | .op o args, h => exprs_all args (h.mono (by rw [Expr.toAst]; exact op_nodes o _))
  | .bool b args, h => exprs_all args (h.mono (by intro x hx; simp [Expr.toAst, nodesAll_mk, nodesAll, hx]))
  | .cond t a b, h =>
    ⟨expr_all t (h.mono (by intro x hx; simp [Expr.toAst, nodesAll_mk, nodesAll, hx])),
     expr_all a (h.mono (by intro x hx; simp [Expr.toAst, nodesAll_mk, nodesAll, hx])),
     expr_all b (h.mono (by intro x hx; simp [Expr.toAst, nodesAll_mk, nodesAll, hx]))⟩
theorem exprs_all : ∀ (es : List Expr), NodesOk N A (nodesAll (toAsts es)) → exprsAll N A es
  | [], _ => trivial
  | e :: es, h =>
    ⟨expr_all e (h.mono (by intro x hx; simp [toAsts, nodesAll, hx])), exprs_all es (h.mono (by intro x hx; simp [toAsts, nodesAll, hx]))⟩
theorem kws_all : ∀ (es : List (Str × Expr)), NodesOk N A (nodesAll (kwToAsts es)) → kwsAll N A es
  | [], _ => trivial
  | (k, e) :: es, h =>
    ⟨expr_all e (h.mono (by intro x hx; simp [kwToAsts, nodesAll, Ast.nodes, hx])),
     kws_all es (h.mono (by intro x hx; simp [kwToAsts, nodesAll, hx]))⟩
end

mutual
theorem stmt_all : ∀ (s : Stmt), NodesOk N A s.toAst.nodes → s.All N A
  | .assign x e, h =>
    ⟨h.1 x (by simp [Stmt.toAst, Ast.nodes, nodesAll]), expr_all e (h.mono (by intro x hx; simp [Stmt.toAst, Ast.nodes, hx]))⟩
  | .assignSub e i v, h =>
    ⟨expr_all e (h.mono (by intro x hx; simp [Stmt.toAst, Ast.nodes, nodesAll_mk, nodesAll, hx])),
     expr_all i (h.mono (by intro x hx; simp [Stmt.toAst, Ast.nodes, nodesAll_mk, nodesAll, hx])),
     expr_all v (h.mono (by intro x hx; simp [Stmt.toAst, Ast.nodes, nodesAll_mk, nodesAll, hx]))⟩
  | .aug op x e, h =>
    ⟨h.1 x (by simp [Stmt.toAst, Ast.nodes, nodesAll_mk, nodesAll]), expr_all e (h.mono (by intro x hx; simp [Stmt.toAst, nodesAll_mk, nodesAll, hx]))⟩
  | .augSub op e i v, h =>
    ⟨expr_all e (h.mono (by intro x hx; simp [Stmt.toAst, Ast.nodes, nodesAll_mk, nodesAll, hx])),
     expr_all i (h.mono (by intro x hx; simp [Stmt.toAst, Ast.nodes, nodesAll_mk, nodesAll, hx])),
     expr_all v (h.mono (by intro x hx; simp [Stmt.toAst, Ast.nodes, nodesAll_mk, nodesAll, hx]))⟩
  | .expr e, h => expr_all e (h.mono (by intro x hx; simp [Stmt.toAst, nodesAll_mk, nodesAll, hx]))
  | .assert t m, h =>
    ⟨expr_all t (h.mono (by intro x hx; simp [Stmt.toAst, nodesAll_mk, nodesAll, hx])),
     exprs_all m (h.mono (by intro x hx; simp [Stmt.toAst, nodesAll_mk, nodesAll, hx]))⟩
  | .ite t b o, h =>
    ⟨expr_all t (h.mono (by intro x hx; simp [Stmt.toAst, nodesAll_mk, nodesAll, hx])),
     stmts_all b (h.mono (by intro x hx; simp [Stmt.toAst, nodesAll_mk, nodesAll, nodesAll_append, hx])),
     stmts_all o (h.mono (by intro x hx; simp [Stmt.toAst, nodesAll_mk, nodesAll, nodesAll_append, hx]))⟩
  | .while t b, h =>
    ⟨expr_all t (h.mono (by intro x hx; simp [Stmt.toAst, nodesAll_mk, nodesAll, hx])),
     stmts_all b (h.mono (by intro x hx; simp [Stmt.toAst, nodesAll_mk, nodesAll, hx]))⟩
  | .for x it b, h =>
    ⟨h.1 x (by simp [Stmt.toAst, Ast.nodes, nodesAll_mk, nodesAll]),
     expr_all it (h.mono (by intro x hx; simp [Stmt.toAst, nodesAll_mk, nodesAll, hx])),
     stmts_all b (h.mono (by intro x hx; simp [Stmt.toAst, nodesAll_mk, nodesAll, hx]))⟩
  | .ret es, h => exprs_all es (h.mono (by intro x hx; simp [Stmt.toAst, nodesAll_mk, hx]))
  | .pass, _ => trivial
  | .break, _ => trivial
  | .continue, _ => trivial
theorem stmts_all : ∀ (ss : List Stmt), NodesOk N A (nodesAll (stmtsToAst ss)) → stmtsAll N A ss
  | [], _ => trivial
  | s :: ss, h =>
    ⟨stmt_all s (h.mono (by intro x hx; simp [stmtsToAst, nodesAll, hx])), stmts_all ss (h.mono (by intro x hx; simp [stmtsToAst, nodesAll, hx]))⟩
end

theorem top_all {t : Top} (h : NodesOk N A t.toAst.nodes) : t.All N A := by
  cases t with
  | «import» n a => exact trivial
  | decl x cls kws => exact kws_all kws (h.mono (by intro x hx; simp [Top.toAst, Ast.nodes, hx]))
  | assign x e => exact expr_all e (h.mono (by intro x hx; simp [Top.toAst, Ast.nodes, hx]))
  | «def» f =>
    exact ⟨exprs_all _ (h.mono (by intro x hx; simp [Top.toAst, Fun.toAst, Ast.nodes, hx])),
      stmts_all _ (h.mono (by intro x hx; simp [Top.toAst, Fun.toAst, Ast.nodes, hx]))⟩

theorem top_nodes {m : Module} {t : Top} (h : t ∈ m) : t.toAst.nodes ⊆ (moduleAst m).nodes := by
  intro x hx
  rw [moduleAst, nodesAll_mk]
  exact List.mem_cons_of_mem _ (nodesAll_mem.2 ⟨t.toAst, List.mem_map_of_mem h, hx⟩)

/-! ### Renaming -/

variable {N' A' : Str → Prop}

mutual
theorem Expr.All.and : ∀ {e : Expr}, e.All N A → e.All N' A' → e.All (fun x => N x ∧ N' x) (fun x => A x ∧ A' x)
  | .name _, h, h' => ⟨h, h'⟩
  | .const _, _, _ => trivial
  | .attr _ _, h, h' => ⟨h.1.and h'.1, h.2, h'.2⟩
  | .call _ _ _, h, h' => ⟨h.1.and h'.1, exprsAll_and h.2.1 h'.2.1, kwsAll_and h.2.2 h'.2.2⟩
  | .sub _ _, h, h' => ⟨h.1.and h'.1, h.2.and h'.2⟩
  | .op _ _, h, h' => exprsAll_and h h'
  | .bool _ _, h, h' => exprsAll_and h h'
  | .cond _ _ _, h, h' => ⟨h.1.and h'.1, h.2.1.and h'.2.1, h.2.2.and h'.2.2⟩
theorem exprsAll_and : ∀ {es : List Expr}, exprsAll N A es → exprsAll N' A' es → exprsAll (fun x => N x ∧ N' x) (fun x => A x ∧ A' x) es
  | [], _, _ => trivial
  | _ :: _, h, h' => ⟨h.1.and h'.1, exprsAll_and h.2 h'.2⟩
theorem kwsAll_and : ∀ {es : List (Str × Expr)}, kwsAll N A es → kwsAll N' A' es → kwsAll (fun x => N x ∧ N' x) (fun x => A x ∧ A' x) es
  | [], _, _ => trivial
  | (_, _) :: _, h, h' => ⟨h.1.and h'.1, kwsAll_and h.2 h'.2⟩
end

mutual
theorem Stmt.All.and : ∀ {s : Stmt}, s.All N A → s.All N' A' → s.All (fun x => N x ∧ N' x) (fun x => A x ∧ A' x)
  | .assign _ _, h, h' => ⟨⟨h.1, h'.1⟩, h.2.and h'.2⟩
  | .assignSub _ _ _, h, h' => ⟨h.1.and h'.1, h.2.1.and h'.2.1, h.2.2.and h'.2.2⟩
  | .aug _ _ _, h, h' => ⟨⟨h.1, h'.1⟩, h.2.and h'.2⟩
  | .augSub _ _ _ _, h, h' => ⟨h.1.and h'.1, h.2.1.and h'.2.1, h.2.2.and h'.2.2⟩
  | .expr _, h, h' => Expr.All.and h h'
  | .assert _ _, h, h' => ⟨h.1.and h'.1, exprsAll_and h.2 h'.2⟩
  | .ite _ _ _, h, h' => ⟨h.1.and h'.1, stmtsAll_and h.2.1 h'.2.1, stmtsAll_and h.2.2 h'.2.2⟩
  | .while _ _, h, h' => ⟨h.1.and h'.1, stmtsAll_and h.2 h'.2⟩
  | .for _ _ _, h, h' => ⟨⟨h.1, h'.1⟩, h.2.1.and h'.2.1, stmtsAll_and h.2.2 h'.2.2⟩
  | .ret _, h, h' => exprsAll_and h h'
  | .pass, _, _ => trivial
  | .break, _, _ => trivial
  | .continue, _, _ => trivial
theorem stmtsAll_and : ∀ {es : List Stmt}, stmtsAll N A es → stmtsAll N' A' es → stmtsAll (fun x => N x ∧ N' x) (fun x => A x ∧ A' x) es
  | [], _, _ => trivial
  | _ :: _, h, h' => ⟨h.1.and h'.1, stmtsAll_and h.2 h'.2⟩
end

theorem Top.All.and {t : Top} (h : t.All N A) (h' : t.All N' A') : t.All (fun x => N x ∧ N' x) (fun x => A x ∧ A' x) := by
  cases t with
  | «import» n a => exact trivial
  | decl x cls kws => exact kwsAll_and h h'
  | assign x e => exact Expr.All.and h h'
  | «def» f => exact ⟨exprsAll_and h.1 h'.1, stmtsAll_and h.2 h'.2⟩

/-- Renaming takes `N` to `N'`. -/
structure Renames (ns : List Str) (N A N' A' : Str → Prop) : Prop where
  name : ∀ id, N id → N' (rename ns id)
  attr : ∀ a, A a → A' a
  decimal : N' (py! "decimal")

variable {ns : List Str}

mutual
theorem Expr.All.comp (hr : Renames ns N A N' A') : ∀ {e : Expr}, e.All N A → (e.comp ns).All N' A'
  | .name id, h => hr.name id h
  | .const c, _ => by
    cases c with
    | float t => exact ⟨hr.decimal, ⟨trivial, trivial⟩, trivial⟩
    | _ => exact trivial
  | .attr _ _, h => ⟨h.1.comp hr, hr.attr _ h.2⟩
  | .call _ _ _, h => ⟨h.1.comp hr, exprsAll_comp hr h.2.1, kwsAll_comp hr h.2.2⟩
  | .sub _ _, h => ⟨h.1.comp hr, h.2.comp hr⟩
  | .op _ _, h => exprsAll_comp hr h
  | .bool _ _, h => exprsAll_comp hr h
  | .cond _ _ _, h => ⟨h.1.comp hr, h.2.1.comp hr, h.2.2.comp hr⟩
theorem exprsAll_comp (hr : Renames ns N A N' A') : ∀ {es : List Expr}, exprsAll N A es → exprsAll N' A' (compAll ns es)
  | [], _ => trivial
  | _ :: _, h => ⟨h.1.comp hr, exprsAll_comp hr h.2⟩
theorem kwsAll_comp (hr : Renames ns N A N' A') : ∀ {es : List (Str × Expr)}, kwsAll N A es → kwsAll N' A' (compKws ns es)
  | [], _ => trivial
  | (_, _) :: _, h => ⟨h.1.comp hr, kwsAll_comp hr h.2⟩
end

theorem kwsAll_append : ∀ {a b : List (Str × Expr)}, kwsAll N A a → kwsAll N A b → kwsAll N A (a ++ b)
  | [], _, _, h => h
  | (_, _) :: _, _, h, h' => ⟨h.1, kwsAll_append h.2 h'⟩

theorem compAssigned_all (hr : Renames ns N A N' A') {e : Expr} (h : e.All N A) (c x : Str) : (e.compAssigned ns c x).All N' A' := by
  have := h.comp hr
  unfold Expr.compAssigned
  split
  · rename_i f args kws he
    rw [he] at this
    exact ⟨this.1, this.2.1, kwsAll_append this.2.2 ⟨trivial, trivial, trivial⟩⟩
  · exact this

mutual
theorem Stmt.All.comp (hr : Renames ns N A N' A') (c : Str) : ∀ {s : Stmt}, s.All N A → (s.comp ns c).All N' A'
  | .assign _ _, h => ⟨hr.name _ h.1, compAssigned_all hr h.2 _ _⟩
  | .assignSub _ _ _, h => ⟨h.1.comp hr, h.2.1.comp hr, h.2.2.comp hr⟩
  | .aug _ _ _, h => ⟨hr.name _ h.1, h.2.comp hr⟩
  | .augSub _ _ _ _, h => ⟨h.1.comp hr, h.2.1.comp hr, h.2.2.comp hr⟩
  | .expr _, h => Expr.All.comp hr h
  | .assert _ _, h => ⟨h.1.comp hr, exprsAll_comp hr h.2⟩
  | .ite _ _ _, h => ⟨h.1.comp hr, stmtsAll_comp hr c h.2.1, stmtsAll_comp hr c h.2.2⟩
  | .while _ _, h => ⟨h.1.comp hr, stmtsAll_comp hr c h.2⟩
  | .for _ _ _, h => ⟨hr.name _ h.1, h.2.1.comp hr, stmtsAll_comp hr c h.2.2⟩
  | .ret _, h => exprsAll_comp hr h
  | .pass, _ => trivial
  | .break, _ => trivial
  | .continue, _ => trivial
theorem stmtsAll_comp (hr : Renames ns N A N' A') (c : Str) : ∀ {es : List Stmt}, stmtsAll N A es → stmtsAll N' A' (compStmts ns c es)
  | [], _ => trivial
  | _ :: _, h => ⟨h.1.comp hr c, stmtsAll_comp hr c h.2⟩
end

end

end Verif.Lang
