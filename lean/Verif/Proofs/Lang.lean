import Verif.Model.Lang
/-!
# The compiler on typed trees agrees with the compiler on `ast` trees
-/
namespace Verif.Lang
open Verif

theorem transform_mk (ns : List Str) (c cls : Str) (ts : List Ast) :
    (mk cls ts).transform ns c = (transformAll ns c ts).map fun cs => mk cls cs := by
  simp [mk, Ast.transform]

theorem transformAll_append {ns : List Str} {c : Str} : ∀ {xs xs' ys ys' : List Ast}, transformAll ns c xs = .ok xs' →
    transformAll ns c ys = .ok ys' → transformAll ns c (xs ++ ys) = .ok (xs' ++ ys')
  | [], _, _, _, h1, h2 => by
    simp only [transformAll, Except.ok.injEq] at h1
    subst h1
    simpa using h2
  | x :: xs, _, _, _, h1, h2 => by
    simp only [transformAll, List.cons_append] at h1 ⊢
    split at h1
    · cases h1
    · cases hx : transformAll ns c xs with
      | error e => simp [hx, Except.map] at h1
      | ok xs' =>
        simp only [hx, Except.map, Except.ok.injEq] at h1
        subst h1
        simp [transformAll_append hx h2, Except.map]

theorem transformAll_split {ns : List Str} {c : Str} : ∀ {xs ys zs : List Ast}, transformAll ns c (xs ++ ys) = .ok zs →
    ∃ xs' ys', transformAll ns c xs = .ok xs' ∧ transformAll ns c ys = .ok ys' ∧ zs = xs' ++ ys'
  | [], ys, zs, h => ⟨[], zs, rfl, h, rfl⟩
  | x :: xs, ys, zs, h => by
    simp only [List.cons_append, transformAll] at h ⊢
    cases hx : x.transform ns c with
    | error e => simp [hx] at h
    | ok t =>
      cases hr : transformAll ns c (xs ++ ys) with
      | error e => simp [hx, hr, Except.map] at h
      | ok zs' =>
        simp only [hx, hr, Except.map, Except.ok.injEq] at h
        subst h
        obtain ⟨xs', ys', h1, h2, h3⟩ := transformAll_split hr
        exact ⟨t :: xs', ys', by simp [h1, Except.map], h2, by simp [h3]⟩

theorem transform_op {ns : List Str} {c : Str} (o : Op) : ∀ {as as' : List Ast}, transformAll ns c as = .ok as' →
    (o.toAst as).transform ns c = .ok (o.toAst as') := by
  intro as as' h
  have htok : ∀ op : Str, (mk op []).transform ns c = .ok (mk op []) := fun op => by simp [transform_mk, transformAll, Except.map]
  have hmid : ∀ op : Str, transformAll ns c (as.take 1 ++ mk op [] :: as.drop 1) = .ok (as'.take 1 ++ mk op [] :: as'.drop 1) := by
    intro op
    cases as with
    | nil =>
      simp only [transformAll, Except.ok.injEq] at h
      subst h
      simp [transformAll, htok, Except.map]
    | cons a as =>
      simp only [transformAll] at h
      split at h
      · cases h
      · rename_i t ht
        cases has : transformAll ns c as with
        | error e => simp [has, Except.map] at h
        | ok xs =>
          simp only [has, Except.map, Except.ok.injEq] at h
          subst h
          simp [transformAll, htok, ht, has, Except.map]
  cases o with
  | bin op => rw [Op.toAst, transform_mk, hmid]; rfl
  | unary op => simp [Op.toAst, transform_mk, transformAll, htok, h, Except.map]
  | cmp op => rw [Op.toAst, transform_mk, hmid]; rfl
  | list => simp [Op.toAst, transform_mk, h, Except.map]
  | tuple => simp [Op.toAst, Ast.transform, h, Except.map]
  | dict => simp [Op.toAst, transform_mk, h, Except.map]

mutual
theorem transform_expr (ns : List Str) (c : Str) : ∀ e : Expr, e.toAst.transform ns c = .ok (e.comp ns).toAst
  | .name id => by simp [Expr.toAst, Ast.transform, Expr.comp]
  | .const k => by cases k <;> simp [Expr.toAst, Ast.transform, Expr.comp, toAsts, kwToAsts]
  | .attr e a => by simp [Expr.toAst, Ast.transform, Expr.comp, transform_expr ns c e, Except.map]
  | .call f args kws => by
    simp [Expr.toAst, Ast.transform, Expr.comp, transform_expr ns c f, transform_exprs ns c args, transform_kws ns c kws, Except.map]
  | .sub e i => by simp [Expr.toAst, transform_mk, transformAll, Expr.comp, transform_expr ns c e, transform_expr ns c i, Except.map]
  | .op o args => by
    rw [Expr.toAst, transform_op o (transform_exprs ns c args), Expr.comp, Expr.toAst]
  | .bool b args => by
    have htok : ∀ op : Str, (mk op []).transform ns c = .ok (mk op []) := fun op => by simp [transform_mk, transformAll, Except.map]
    simp [Expr.toAst, transform_mk, transformAll, Expr.comp, htok, transform_exprs ns c args, Except.map]
  | .cond t a b => by
    simp [Expr.toAst, transform_mk, transformAll, Expr.comp, transform_expr ns c t, transform_expr ns c a, transform_expr ns c b, Except.map]
theorem transform_exprs (ns : List Str) (c : Str) : ∀ es : List Expr, transformAll ns c (toAsts es) = .ok (toAsts (compAll ns es))
  | [] => rfl
  | e :: es => by simp [toAsts, transformAll, compAll, transform_expr ns c e, transform_exprs ns c es, Except.map]
theorem transform_kws (ns : List Str) (c : Str) : ∀ kws : List (Str × Expr), transformAll ns c (kwToAsts kws) = .ok (kwToAsts (compKws ns kws))
  | [] => rfl
  | (k, e) :: kws => by
    simp [kwToAsts, transformAll, compKws, Ast.transform, transform_expr ns c e, transform_kws ns c kws, Except.map]
end

theorem kwToAsts_append : ∀ (a b : List (Str × Expr)), kwToAsts (a ++ b) = kwToAsts a ++ kwToAsts b
  | [], b => rfl
  | (k, e) :: a, b => by simp [kwToAsts, kwToAsts_append a b]

/-- The storage class called by an expression, on both kinds of trees. -/
theorem ormCall_toAst {e : Expr} {r : Option Str} (h : Verif.ormCall e.toAst = .ok r) : e.ormCall = r := by
  cases e with
  | call f args kws =>
    cases f with
    | name id => simpa [Expr.toAst, Verif.ormCall, Expr.ormCall, Ast.isAttribute, Ast.id?] using h
    | attr e a => simpa [Expr.toAst, Verif.ormCall, Expr.ormCall, Ast.isAttribute, Ast.id?] using h
    | op o as => cases o <;> simp [Expr.toAst, Op.toAst, mk, Verif.ormCall, Ast.isAttribute, Ast.id?] at h
    | _ => simp [Expr.toAst, mk, Verif.ormCall, Ast.isAttribute, Ast.id?] at h
  | op o as => cases o <;> simpa [Expr.toAst, Op.toAst, mk, Verif.ormCall, Expr.ormCall] using h
  | _ => simpa [Expr.toAst, mk, Verif.ormCall, Expr.ormCall] using h

theorem transform_assign {ns : List Str} {c x : Str} {e : Expr} {t : Ast}
    (h : (Ast.assign [.name x] e.toAst).transform ns c = .ok t) :
    t = .assign [.name (rename ns x)] (e.compAssigned ns c x).toAst := by
  rw [Ast.transform] at h
  cases ho : Verif.ormCall e.toAst with
  | error err => simp [ho] at h
  | ok r =>
    have hr := ormCall_toAst ho
    simp only [ho, transform_expr, transformAll, Ast.transform, Except.map] at h
    cases r with
    | none =>
      simp only [Option.isSome_none, Bool.false_eq_true, if_false, Except.ok.injEq] at h
      subst h
      simp [Expr.compAssigned, hr]
    | some cls =>
      simp only [Option.isSome_some, if_true, List.head?_cons, Option.bind_some, Ast.id?, Option.toList_some] at h
      cases e with
      | call f args kws =>
        simp only [Expr.comp, Expr.toAst, Except.ok.injEq] at h
        subst h
        simp [Expr.compAssigned, hr, Expr.comp, Expr.toAst, kwToAsts_append, ownKws, kwToAsts]
      | _ => simp [Expr.ormCall] at hr

mutual
theorem transform_stmt (ns : List Str) (c : Str) : ∀ (s : Stmt) {t : Ast}, s.toAst.transform ns c = .ok t → t = (s.comp ns c).toAst
  | .assign x e, t, h => by
    rw [Stmt.toAst] at h
    rw [transform_assign h, Stmt.comp, Stmt.toAst]
  | .assignSub e i v, t, h => by
    rw [Stmt.toAst, Ast.transform] at h
    cases ho : Verif.ormCall v.toAst with
    | error err => simp [ho] at h
    | ok r =>
      have hr := ormCall_toAst ho
      simp only [ho, transform_expr, transformAll, transform_mk, Except.map] at h
      cases r with
      | none =>
        simp only [Option.isSome_none, Bool.false_eq_true, if_false, Except.ok.injEq] at h
        subst h
        simp [Stmt.comp, Stmt.toAst]
      | some cls => simp [mk, Ast.id?] at h
  | .aug op x e, t, h => by
    have htok : ∀ op : Str, (mk op []).transform ns c = .ok (mk op []) := fun op => by simp [transform_mk, transformAll, Except.map]
    simp only [Stmt.toAst, transform_mk, transformAll, Ast.transform, transform_expr, htok, Except.map, Except.ok.injEq] at h
    subst h
    simp [Stmt.comp, Stmt.toAst]
  | .augSub op e i v, t, h => by
    have htok : ∀ op : Str, (mk op []).transform ns c = .ok (mk op []) := fun op => by simp [transform_mk, transformAll, Except.map]
    simp only [Stmt.toAst, transform_mk, transformAll, transform_expr, Except.map, Except.ok.injEq] at h
    subst h
    simp [Stmt.comp, Stmt.toAst]
  | .expr e, t, h => by
    simp only [Stmt.toAst, transform_mk, transformAll, transform_expr, Except.map, Except.ok.injEq] at h
    subst h
    simp [Stmt.comp, Stmt.toAst]
  | .assert test msg, t, h => by
    simp only [Stmt.toAst, transform_mk, transformAll, transform_expr, transform_exprs, Except.map, Except.ok.injEq] at h
    subst h
    simp [Stmt.comp, Stmt.toAst]
  | .ite test b o, t, h => by
    simp only [Stmt.toAst, transform_mk, List.cons_append, transformAll, transform_expr] at h
    cases hbo : transformAll ns c (stmtsToAst b ++ stmtsToAst o) with
    | error e => simp [hbo, Except.map] at h
    | ok zs =>
      simp only [hbo, Except.map, Except.ok.injEq] at h
      obtain ⟨bs, os, hb, ho, he⟩ := transformAll_split hbo
      rw [transform_stmts ns c b hb, transform_stmts ns c o ho] at he
      subst h
      rw [he, Stmt.comp, Stmt.toAst]
      rfl
  | .while test b, t, h => by
    simp only [Stmt.toAst, transform_mk, transformAll, transform_expr] at h
    cases hb : transformAll ns c (stmtsToAst b) with
    | error e => simp [hb, Except.map] at h
    | ok bs =>
      simp only [hb, Except.map, Except.ok.injEq] at h
      subst h
      rw [transform_stmts ns c b hb, Stmt.comp, Stmt.toAst]
  | .for x it b, t, h => by
    simp only [Stmt.toAst, transform_mk, transformAll, Ast.transform, transform_expr] at h
    cases hb : transformAll ns c (stmtsToAst b) with
    | error e => simp [hb, Except.map] at h
    | ok bs =>
      simp only [hb, Except.map, Except.ok.injEq] at h
      subst h
      rw [transform_stmts ns c b hb, Stmt.comp, Stmt.toAst]
  | .ret e, t, h => by
    simp only [Stmt.toAst, transform_mk, transform_exprs, Except.map, Except.ok.injEq] at h
    subst h
    simp [Stmt.comp, Stmt.toAst]
  | .pass, t, h => by
    simp only [Stmt.toAst, transform_mk, transformAll, Except.map, Except.ok.injEq] at h
    subst h
    simp [Stmt.comp, Stmt.toAst]
  | .break, t, h => by
    simp only [Stmt.toAst, transform_mk, transformAll, Except.map, Except.ok.injEq] at h
    subst h
    simp [Stmt.comp, Stmt.toAst]
  | .continue, t, h => by
    simp only [Stmt.toAst, transform_mk, transformAll, Except.map, Except.ok.injEq] at h
    subst h
    simp [Stmt.comp, Stmt.toAst]
theorem transform_stmts (ns : List Str) (c : Str) : ∀ (ss : List Stmt) {ts : List Ast}, transformAll ns c (stmtsToAst ss) = .ok ts →
    ts = stmtsToAst (compStmts ns c ss)
  | [], ts, h => by
    simp only [stmtsToAst, transformAll, Except.ok.injEq] at h
    rw [← h]
    rfl
  | s :: ss, ts, h => by
    rw [stmtsToAst, transformAll] at h
    cases hs : s.toAst.transform ns c with
    | error e => simp [hs] at h
    | ok t =>
      cases hss : transformAll ns c (stmtsToAst ss) with
      | error e => simp [hs, hss, Except.map] at h
      | ok ts' =>
        simp only [hs, hss, Except.map, Except.ok.injEq] at h
        subst h
        rw [transform_stmt ns c s hs, transform_stmts ns c ss hss, compStmts, stmtsToAst]
end

theorem transform_args (ns : List Str) (c : Str) : ∀ as : List (Str × Option Str),
    transformAll ns c (as.map argToAst) = .ok ((as.map fun a => (a.1, a.2.map (rename ns))).map argToAst)
  | [] => rfl
  | (n, none) :: as => by
    simp [transformAll, argToAst, Ast.transform, transform_args ns c as, Except.map]
  | (n, some t) :: as => by
    simp [transformAll, argToAst, Ast.transform, transform_args ns c as, Except.map]

theorem transform_fun {ns : List Str} {c : Str} {f : Fun} {t : Ast} (h : f.toAst.transform ns c = .ok t) :
    t = (f.comp ns c).toAst := by
  rw [Fun.toAst, Ast.transform] at h
  cases hh : newHeader ns c f.name f.deco.toAst with
  | error e => simp [hh] at h
  | ok nd =>
    obtain ⟨name', ds'⟩ := nd
    cases hb : transformAll ns c (stmtsToAst f.body) with
    | error e => simp [hh, transform_args, transform_exprs, hb] at h
    | ok b =>
      simp only [hh, transform_args, transform_exprs, hb, transformAll, Except.map, Except.ok.injEq] at h
      subst h
      rw [transform_stmts ns c f.body hb, Fun.toAst]
      cases hd : f.deco with
      | none =>
        simp only [hd, Deco.toAst, newHeader, List.getLast?_nil, Except.ok.injEq, Prod.mk.injEq] at hh
        simp [Fun.comp, hd, hh.1, hh.2, Deco.toAst]
      | «export» =>
        simp only [hd, Deco.toAst, newHeader, List.getLast?_singleton, Ast.id?, List.dropLast_singleton, List.nil_append] at hh
        rw [if_neg (by decide), if_pos trivial] at hh
        simp only [Except.ok.injEq, Prod.mk.injEq] at hh
        simp [Fun.comp, hd, hh.1, hh.2, Deco.toAst]
      | construct =>
        simp only [hd, Deco.toAst, newHeader, List.getLast?_singleton, Ast.id?, List.dropLast_singleton] at hh
        rw [if_pos trivial] at hh
        simp only [Except.ok.injEq, Prod.mk.injEq] at hh
        simp [Fun.comp, hd, hh.1, hh.2, Deco.toAst]
      | wrapped w k => simp [hd, Deco.toAst, newHeader, Ast.id?] at hh

theorem transform_top {ns : List Str} {c : Str} {p : Top} {t : Ast} (h : p.toAst.transform ns c = .ok t) :
    t = (p.comp ns c).toAst := by
  cases p with
  | «import» n a =>
    simp only [Top.toAst, Ast.transform, Except.ok.injEq] at h
    subst h
    rfl
  | decl x cls kws =>
    have h' : (Ast.assign [.name x] (Expr.call (.name cls) [] kws).toAst).transform ns c = .ok t := h
    rw [transform_assign h', Top.comp]
    by_cases hc : ormClasses.contains cls = true
    · simp only [Expr.compAssigned, Expr.ormCall, Expr.comp, compAll]
      rw [if_pos hc, if_pos hc]
      simp [Top.toAst, Expr.toAst, toAsts]
    · simp only [Expr.compAssigned, Expr.ormCall, Expr.comp, compAll]
      rw [if_neg hc, if_neg hc]
      simp [Top.toAst, Expr.toAst, toAsts]
  | assign x e =>
    rw [Top.toAst] at h
    rw [transform_assign h, Top.comp, Top.toAst]
  | «def» f => exact transform_fun h

theorem transform_tops {ns : List Str} {c : Str} : ∀ {m : Module} {ts : List Ast}, transformAll ns c (m.map Top.toAst) = .ok ts →
    ts = (m.map (Top.comp ns c)).map Top.toAst
  | [], ts, h => by
    simp only [List.map_nil, transformAll, Except.ok.injEq] at h
    rw [← h]
    rfl
  | p :: m, ts, h => by
    simp only [List.map_cons, transformAll] at h
    cases hp : p.toAst.transform ns c with
    | error e => simp [hp] at h
    | ok t =>
      cases hm : transformAll ns c (m.map Top.toAst) with
      | error e => simp [hp, hm, Except.map] at h
      | ok ts' =>
        simp only [hp, hm, Except.map, Except.ok.injEq] at h
        subst h
        rw [transform_top hp, transform_tops hm]
        simp

/-- What the compiler makes of a contract written in the language is a contract in the language: `compileModule`. -/
theorem compile_module {I : PyInfo} {c : Str} {m : Module} {t : Ast} (h : (moduleAst m).compile I c = .ok t) :
    t = moduleAst (compileModule c m) := by
  unfold Ast.compile at h
  cases hv : (moduleAst m).check I with
  | error e => simp [hv] at h
  | ok vs =>
    cases ht : (moduleAst m).transform (moduleAst m).names c with
    | error e => simp [hv, ht] at h
    | ok t' =>
      simp only [hv, ht] at h
      split at h <;> cases h
      rw [moduleAst, transform_mk] at ht
      cases hm : transformAll (moduleAst m).names c (m.map Top.toAst) with
      | error e => simp only [moduleAst] at hm; simp [hm, Except.map] at ht
      | ok ts =>
        have := transform_tops hm
        simp only [moduleAst] at hm
        simp only [hm, Except.map, Except.ok.injEq] at ht
        rw [← ht, this]
        rfl

end Verif.Lang
