import Verif.Spec.Source
import Verif.Proofs.Lang3
/-!
# Compiled modules mean what their sources mean
-/
namespace Verif.Lang
open Verif Verif.Spec

/-! ### Private names -/

theorem op_own (o : Op) {as : List Ast} (h : ∀ n ∈ nodesAll as, n.ownNames = []) : ∀ n ∈ (o.toAst as).nodes, n.ownNames = [] := by
  have h2 : ∀ (cls op : Str), ∀ n ∈ (mk cls (as.take 1 ++ mk op [] :: as.drop 1)).nodes, n.ownNames = [] := by
    intro cls op n hn
    rw [nodesAll_mk, nodesAll_append, nodesAll, nodesAll_mk] at hn
    have hs : ∀ n, n ∈ nodesAll as ↔ n ∈ nodesAll (as.take 1) ∨ n ∈ nodesAll (as.drop 1) := by
      intro n
      conv_lhs => rw [← List.take_append_drop 1 as, nodesAll_append]
      exact List.mem_append
    simp only [List.mem_cons, List.mem_append, nodesAll, List.not_mem_nil, or_false] at hn
    rcases hn with rfl | hn | rfl | hn
    · rfl
    · exact h n ((hs n).2 (.inl hn))
    · rfl
    · exact h n ((hs n).2 (.inr hn))
  cases o with
  | bin op => exact h2 _ op
  | cmp op => exact h2 _ op
  | unary op =>
    intro n hn
    rw [Op.toAst, nodesAll_mk, nodesAll, nodesAll_mk] at hn
    simp only [List.mem_cons, List.mem_append, nodesAll, List.not_mem_nil, or_false] at hn
    rcases hn with rfl | rfl | hn
    · rfl
    · rfl
    · exact h n hn
  | list =>
    intro n hn
    rw [Op.toAst, nodesAll_mk] at hn
    rcases List.mem_cons.1 hn with rfl | hn
    · rfl
    · exact h n hn
  | tuple =>
    intro n hn
    rw [Op.toAst, Ast.nodes] at hn
    rcases List.mem_cons.1 hn with rfl | hn
    · rfl
    · exact h n hn
  | dict =>
    intro n hn
    rw [Op.toAst, nodesAll_mk] at hn
    rcases List.mem_cons.1 hn with rfl | hn
    · rfl
    · exact h n hn

mutual
/-- Expressions add no private names. -/
theorem expr_own : ∀ (e : Expr), ∀ n ∈ e.toAst.nodes, n.ownNames = []
  | .name id => by simp [Expr.toAst, Ast.nodes, Ast.ownNames]
  | .const c => by simp [Expr.toAst, Ast.nodes, Ast.ownNames]
  | .attr e a => by
    have := expr_own e
    simp only [Expr.toAst, Ast.nodes, List.mem_cons]
    rintro n (rfl | h)
    · rfl
    · exact this n h
  | .call f args kws => by
    have h1 := expr_own f
    have h2 := exprs_own args
    have h3 := kws_own kws
    simp only [Expr.toAst, Ast.nodes, List.mem_cons, List.mem_append]
    rintro n (rfl | (h | h) | h)
    · rfl
    · exact h1 n h
    · exact h2 n h
    · exact h3 n h
  | .sub e i => by
    have h1 := expr_own e
    have h2 := expr_own i
    simp only [Expr.toAst, nodesAll_mk, nodesAll, List.mem_cons, List.mem_append, List.not_mem_nil, or_false]
    rintro n (rfl | h | h)
    · rfl
    · exact h1 n h
    · exact h2 n h
  | .op o args => by rw [Expr.toAst]; exact op_own o (exprs_own args)
  | .bool b args => by
    have h1 := exprs_own args
    simp only [Expr.toAst, nodesAll_mk, nodesAll, List.mem_cons, List.mem_append, List.not_mem_nil, or_false]
    rintro n (rfl | rfl | h)
    · rfl
    · rfl
    · exact h1 n h
  | .cond t a b => by
    have h1 := expr_own t
    have h2 := expr_own a
    have h3 := expr_own b
    simp only [Expr.toAst, nodesAll_mk, nodesAll, List.mem_cons, List.mem_append, List.not_mem_nil, or_false]
    rintro n (rfl | h | h | h)
    · rfl
    · exact h1 n h
    · exact h2 n h
    · exact h3 n h
theorem exprs_own : ∀ (es : List Expr), ∀ n ∈ nodesAll (toAsts es), n.ownNames = []
  | [] => by simp [toAsts, nodesAll]
  | e :: es => by
    have h1 := expr_own e
    have h2 := exprs_own es
    simp only [toAsts, nodesAll, List.mem_append]
    rintro n (h | h)
    · exact h1 n h
    · exact h2 n h
theorem kws_own : ∀ (es : List (Str × Expr)), ∀ n ∈ nodesAll (kwToAsts es), n.ownNames = []
  | [] => by simp [kwToAsts, nodesAll]
  | (k, e) :: es => by
    have h1 := expr_own e
    have h2 := kws_own es
    simp only [kwToAsts, nodesAll, Ast.nodes, List.mem_append, List.mem_cons]
    rintro n ((rfl | h) | h)
    · rfl
    · exact h1 n h
    · exact h2 n h
end

/-- A name that is no storage class. -/
abbrev NoOrm (id : Str) : Prop := id ∉ storageClasses

theorem noOrm_call {e : Expr} (h : e.All NoOrm NoOrm) : Expr.ormCall e = none := by
  unfold Expr.ormCall
  split
  · rename_i id _ _
    have : id ∉ ormClasses := h.1
    rw [if_neg (by simpa using this)]
  · rfl

theorem noOrm_assign {e : Expr} (h : e.All NoOrm NoOrm) (x : Str) : (Ast.assign [.name x] e.toAst).ownNames = [] := by
  unfold Ast.ownNames
  split
  · rename_i h2; cases h2
  · rename_i id tl v h2
    cases h2
    split
    · rename_i cls ho
      have := ormCall_toAst ho
      rw [noOrm_call h] at this
      cases this
    · rfl
  · rename_i h3
    exact (h3 _ _ _ rfl).elim

theorem leaf_own (cls : Str) : ∀ n ∈ (mk cls []).nodes, n.ownNames = [] := by
  intro n hn
  rw [nodesAll_mk, nodesAll] at hn
  rcases List.mem_singleton.1 hn with rfl
  rfl

mutual
/-- Nor do statements that do not mention storage classes. -/
theorem stmt_own : ∀ (s : Stmt), s.All NoOrm NoOrm → ∀ n ∈ s.toAst.nodes, n.ownNames = []
  | .assign x e, h => by
    have h1 := expr_own e
    simp only [Stmt.toAst, Ast.nodes, nodesAll, List.mem_cons, List.mem_append, List.not_mem_nil, or_false]
    rintro n (rfl | rfl | hn)
    · exact noOrm_assign h.2 x
    · rfl
    · exact h1 n hn
  | .assignSub e i v, h => by
    have h1 := expr_own e
    have h2 := expr_own i
    have h3 := expr_own v
    simp only [Stmt.toAst, Ast.nodes, nodesAll_mk, nodesAll, List.mem_cons, List.mem_append, List.not_mem_nil, or_false]
    rintro n (rfl | (rfl | hn | hn) | hn)
    · rfl
    · rfl
    · exact h1 n hn
    · exact h2 n hn
    · exact h3 n hn
  | .aug op x e, h => by
    have h1 := expr_own e
    simp only [Stmt.toAst, Ast.nodes, nodesAll_mk, nodesAll, List.mem_cons, List.mem_append, List.not_mem_nil, or_false]
    rintro n (rfl | rfl | rfl | hn)
    · rfl
    · rfl
    · rfl
    · exact h1 n hn
  | .augSub op e i v, h => by
    have h1 := expr_own e
    have h2 := expr_own i
    have h3 := expr_own v
    simp only [Stmt.toAst, nodesAll_mk, nodesAll, List.mem_cons, List.mem_append, List.not_mem_nil, or_false]
    rintro n (rfl | (rfl | hn | hn) | rfl | hn)
    · rfl
    · rfl
    · exact h1 n hn
    · exact h2 n hn
    · rfl
    · exact h3 n hn
  | .expr e, h => by
    have h1 := expr_own e
    simp only [Stmt.toAst, nodesAll_mk, nodesAll, List.mem_cons, List.mem_append, List.not_mem_nil, or_false]
    rintro n (rfl | hn)
    · rfl
    · exact h1 n hn
  | .assert t m, h => by
    have h1 := expr_own t
    have h2 := exprs_own m
    simp only [Stmt.toAst, nodesAll_mk, nodesAll, List.mem_cons, List.mem_append, List.not_mem_nil, or_false]
    rintro n (rfl | hn | hn)
    · rfl
    · exact h1 n hn
    · exact h2 n hn
  | .ite t b o, h => by
    have h1 := expr_own t
    have h2 := stmts_own b h.2.1
    have h3 := stmts_own o h.2.2
    simp only [Stmt.toAst, nodesAll_mk, nodesAll, nodesAll_append, List.cons_append, List.mem_cons, List.mem_append]
    rintro n (rfl | hn | hn | hn)
    · rfl
    · exact h1 n hn
    · exact h2 n hn
    · exact h3 n hn
  | .while t b, h => by
    have h1 := expr_own t
    have h2 := stmts_own b h.2
    simp only [Stmt.toAst, nodesAll_mk, nodesAll, List.mem_cons, List.mem_append, List.not_mem_nil, or_false]
    rintro n (rfl | hn | hn)
    · rfl
    · exact h1 n hn
    · exact h2 n hn
  | .for x it b, h => by
    have h1 := expr_own it
    have h2 := stmts_own b h.2.2
    simp only [Stmt.toAst, nodesAll_mk, nodesAll, Ast.nodes, List.mem_cons, List.mem_append, List.not_mem_nil, or_false]
    rintro n (rfl | rfl | hn | hn)
    · rfl
    · rfl
    · exact h1 n hn
    · exact h2 n hn
  | .ret es, h => by
    have h1 := exprs_own es
    simp only [Stmt.toAst, nodesAll_mk, List.mem_cons]
    rintro n (rfl | hn)
    · rfl
    · exact h1 n hn
  | .pass, _ => leaf_own _
  | .break, _ => leaf_own _
  | .continue, _ => leaf_own _
theorem stmts_own : ∀ (ss : List Stmt), stmtsAll NoOrm NoOrm ss → ∀ n ∈ nodesAll (stmtsToAst ss), n.ownNames = []
  | [], _ => by simp [stmtsToAst, nodesAll]
  | s :: ss, h => by
    have h1 := stmt_own s h.1
    have h2 := stmts_own ss h.2
    simp only [stmtsToAst, nodesAll, List.mem_append]
    rintro n (hn | hn)
    · exact h1 n hn
    · exact h2 n hn
end

/-- The names the compiler makes private are the private names. -/
theorem names_private {m : Module} (hm : ∀ t ∈ m, t.All NoOrm NoOrm) (hd : ∀ f, Top.def f ∈ m → ∀ w c, f.deco ≠ .wrapped w c) (x : Str) :
    x ∈ (moduleAst m).names ↔ x ∈ privateNames m := by
  rw [names_mem]
  constructor
  · rintro ⟨n, hn, hx⟩
    rw [moduleAst, nodesAll_mk] at hn
    rcases List.mem_cons.1 hn with rfl | hn
    · cases hx
    obtain ⟨t', ht', hn⟩ := nodesAll_mem.1 hn
    obtain ⟨t, ht, rfl⟩ := List.mem_map.1 ht'
    refine List.mem_filterMap.2 ⟨t, ht, ?_⟩
    have ha := hm t ht
    cases t with
    | «import» nm a =>
      simp only [Top.toAst, Ast.nodes, List.mem_cons, List.not_mem_nil, or_false] at hn
      subst hn
      cases hx
    | decl y cls kws =>
      simp only [Top.toAst, Ast.nodes, nodesAll, List.mem_cons, List.mem_append, List.not_mem_nil, or_false] at hn
      rcases hn with rfl | rfl | rfl | rfl | hn
      · by_cases hc : cls ∈ storageClasses
        · simp only [Ast.ownNames, ormCall_of (orm_spec.2 hc), List.mem_cons, List.not_mem_nil, or_false] at hx
          simp [hc, hx]
        · have : cls ∉ ormClasses := hc
          simp [Ast.ownNames, Verif.ormCall, Ast.isAttribute, Ast.id?, this] at hx
      · cases hx
      · cases hx
      · cases hx
      · rw [kws_own kws n hn] at hx
        cases hx
    | assign y e =>
      simp only [Top.toAst, Ast.nodes, nodesAll, List.mem_cons, List.mem_append, List.not_mem_nil, or_false] at hn
      rcases hn with rfl | rfl | hn
      · rw [noOrm_assign ha y] at hx
        cases hx
      · cases hx
      · rw [expr_own e n hn] at hx
        cases hx
    | «def» f =>
      simp only [Top.toAst, Fun.toAst, Ast.nodes, List.mem_cons, List.mem_append, nodesAll, List.not_mem_nil, or_false] at hn
      rcases hn with rfl | (((hn | hn) | hn) | hn)
      · cases hf : f.deco with
        | none => simp [Ast.ownNames, hf, Deco.toAst] at hx; simp [hf, hx]
        | «export» => simp [Ast.ownNames, hf, Deco.toAst] at hx
        | construct => simp [Ast.ownNames, hf, Deco.toAst] at hx
        | wrapped w c => exact (hd f ht w c hf).elim
      · obtain ⟨a', ha', hn⟩ := nodesAll_mem.1 hn
        obtain ⟨a, _, rfl⟩ := List.mem_map.1 ha'
        unfold argToAst at hn
        cases h2 : a.2 with
        | none => simp [h2, Ast.nodes, nodesAll] at hn; subst hn; cases hx
        | some b =>
          simp [h2, Ast.nodes, nodesAll] at hn
          rcases hn with rfl | rfl <;> cases hx
      · rw [exprs_own _ n hn] at hx
        cases hx
      · rw [stmts_own _ ha.2 n hn] at hx
        cases hx
      · cases hf : f.deco with
        | none => simp [hf, Deco.toAst, nodesAll] at hn
        | «export» => simp [hf, Deco.toAst, nodesAll, Ast.nodes] at hn; subst hn; cases hx
        | construct => simp [hf, Deco.toAst, nodesAll, Ast.nodes] at hn; subst hn; cases hx
        | wrapped w c => exact (hd f ht w c hf).elim
  · intro hx
    obtain ⟨t, ht, hx⟩ := List.mem_filterMap.1 hx
    refine ⟨t.toAst, top_nodes ht (by cases t <;> simp [Top.toAst, Fun.toAst, Ast.nodes]), ?_⟩
    cases t with
    | «import» nm a => cases hx
    | assign y e => cases hx
    | decl y cls kws =>
      simp only at hx
      split at hx
      · rename_i hc
        cases hx
        simp [Top.toAst, Ast.ownNames, ormCall_of (orm_spec.2 hc)]
      · cases hx
    | «def» f =>
      simp only at hx
      split at hx
      · rename_i hc
        cases hx
        simp [Top.toAst, Fun.toAst, hc, Deco.toAst, Ast.ownNames]
      · cases hx

end Verif.Lang
