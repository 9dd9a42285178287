import Verif.Proofs.Source2
/-!
# Renaming private names does not change what a function does
-/
namespace Verif.Lang
open Verif Verif.Spec

/-- An interpreter `M` of sources and `M'` of compiled code, in contract `c`. -/
structure Twin (ns : List Str) (c : Str) (M M' : Machine) : Prop where
  plain : ∀ x ∈ ns, Plain x
  data : M'.D = M.D
  global : ∀ id, OkId id → M'.global c (rename ns id) = M.global c id
  unbound : ∀ id, M.global c id = none → id ∉ ns
  decimal : M'.global c (py! "decimal") = none
  builtin : M.D.builtin (py! "decimal") = true
  member : ∀ c' a, Plain a → M'.member c' a = M.member c' a
  call : M'.call = M.call
  top : M'.top = M.top
  cost : ∀ s : Stmt, M'.cost c (s.comp ns c) = M.cost c s
  loops : M'.loops = M.loops
  out : M'.out = M.out

/-- The same local variables, under their source names and renamed. -/
structure Same (ns : List Str) (l l' : Locals) : Prop where
  names : ∀ id, Plain id → l'.names.contains (rename ns id) = l.names.contains id
  vars : ∀ id, Plain id → Dict.get? l'.vars (rename ns id) = Dict.get? l.vars id
  decimal : l'.names.contains (py! "decimal") = false

section
variable {ns : List Str} {c : Str} {M M' : Machine} {l l' : Locals}

theorem Same.set (hns : ∀ x ∈ ns, Plain x) (h : Same ns l l') {x : Str} (hx : Plain x) (v : Val) : Same ns (l.set x v) (l'.set (rename ns x) v) where
  names := h.names
  vars := by
    intro id hid
    simp only [Locals.set, Dict.get?_set]
    by_cases e : id = x
    · rw [e, if_pos rfl, if_pos rfl]
    · rw [if_neg (fun h => e (rename_inj hns (.inl hid) (.inl hx) h.symm)), if_neg (fun h => e h.symm), h.vars id hid]
  decimal := h.decimal

theorem nameVal_comp (ht : Twin ns c M M') (h : Same ns l l') {id : Str} (hid : Plain id) (k : Val → Prog) :
    nameVal M' c l' (rename ns id) k = nameVal M c l id k := by
  unfold nameVal
  rw [h.names id hid, h.vars id hid, ht.global id (.inl hid), ht.data]
  split
  · rfl
  · split
    · rfl
    · rename_i hn
      rw [rename_out (ht.unbound id hn)]

theorem attrVal_comp (ht : Twin ns c M M') (v : Val) {a : Str} (ha : Plain a) (k : Val → Prog) : attrVal M' v a k = attrVal M v a k := by
  cases v <;> simp only [attrVal, ht.data, ht.member _ _ ha]

theorem callVal_comp (ht : Twin ns c M M') (v : Val) (vs : List Val) (ks : List (Str × Val)) (k : Val → Prog) :
    callVal M' v vs ks k = callVal M v vs ks k := by
  cases v with
  | meth v a => cases v <;> simp only [callVal, callMethod, ht.data]
  | sys s => simp only [callVal, callSys, ht.data, ht.top]
  | fn c i => simp only [callVal, ht.call]
  | _ => rfl

theorem subVal_comp (ht : Twin ns c M M') (v i : Val) (k : Val → Prog) : subVal M' v i k = subVal M v i k := by
  unfold subVal
  rw [ht.data]

theorem storeVal_comp (ht : Twin ns c M M') (v i x : Val) (k : Prog) : storeVal M' v i x k = storeVal M v i x k := by
  unfold storeVal
  rw [ht.data]

/-- A float literal. -/
theorem float_comp (ht : Twin ns c M M') (h : Same ns l l') (t : Str) (k : Val → Prog) :
    eval M' c l' (.call (.name (py! "decimal")) [.const (.str t)] []) k = eval M c l (.const (.float t)) k := by
  have hb : M'.D.builtin (py! "decimal") = true := by rw [ht.data]; exact ht.builtin
  have ho : ormClasses.contains (py! "decimal") = false := by decide
  have e1 : ¬ py! "decimal" = py! "__Driver" := by decide
  have e2 : ¬ (py! "decimal" = py! "__Contract" ∨ py! "decimal" = py! "rt") := by decide
  have e3 : ¬ py! "decimal" = py! "importlib.import_module" := by decide
  have e4 : ¬ py! "decimal" = py! "importlib.owner_of" := by decide
  have e5 : startsWith (py! "decimal") (py! "random.") = false := by decide
  have hn : ∀ k, nameVal M' c l' (py! "decimal") k = k (.sys (py! "decimal")) := by
    intro k
    unfold nameVal
    rw [h.decimal, if_neg (by simp), ht.decimal]
    simp only [sysName]
    rw [if_neg (by rw [ho]; simp), if_neg e1, if_neg e2, if_pos (.inr (.inr hb))]
  simp only [eval, evalAll, evalKws, hn, constVal, callVal, callSys]
  rw [orRaise]
  simp only [e3, e4, e5, Bool.false_eq_true, if_false, asDatas, asData, asKws, ht.data]

mutual
theorem eval_comp (ht : Twin ns c M M') (h : Same ns l l') : ∀ (e : Expr), e.All SrcName SrcName → ∀ k, eval M' c l' (e.comp ns) k = eval M c l e k
  | .name id, ha, k => by simp only [Expr.comp, eval]; exact nameVal_comp ht h ha.1 k
  | .const x, _, k => by
    cases x with
    | float t => rw [Expr.comp]; exact float_comp ht h t k
    | _ => simp only [Expr.comp, eval, ht.data]
  | .attr e a, ha, k => by
    simp only [Expr.comp, eval]
    rw [eval_comp ht h e ha.1]
    congr 1
    funext v
    exact attrVal_comp ht v ha.2.1 k
  | .call f args kws, ha, k => by
    simp only [Expr.comp, eval]
    rw [eval_comp ht h f ha.1]
    congr 1
    funext v
    rw [evalAll_comp ht h args ha.2.1]
    congr 1
    funext vs
    rw [evalKws_comp ht h kws ha.2.2]
    congr 1
    funext ks
    exact callVal_comp ht v vs ks k
  | .sub e i, ha, k => by
    simp only [Expr.comp, eval]
    rw [eval_comp ht h e ha.1]
    congr 1
    funext v
    rw [eval_comp ht h i ha.2]
    congr 1
    funext j
    exact subVal_comp ht v j k
  | .op o args, ha, k => by
    simp only [Expr.comp, eval]
    rw [evalAll_comp ht h args ha, ht.data]
  | .bool b args, ha, k => by
    simp only [Expr.comp, eval]
    exact evalBool_comp ht h b args ha k
  | .cond t a b, ha, k => by
    simp only [Expr.comp, eval]
    rw [eval_comp ht h t ha.1]
    congr 1
    funext v
    congr 1
    funext d
    rw [eval_comp ht h a ha.2.1, eval_comp ht h b ha.2.2]
theorem evalAll_comp (ht : Twin ns c M M') (h : Same ns l l') : ∀ (es : List Expr), exprsAll SrcName SrcName es → ∀ k,
    evalAll M' c l' (compAll ns es) k = evalAll M c l es k
  | [], _, k => rfl
  | e :: es, ha, k => by
    simp only [compAll, evalAll]
    rw [eval_comp ht h e ha.1]
    congr 1
    funext v
    rw [evalAll_comp ht h es ha.2]
theorem evalKws_comp (ht : Twin ns c M M') (h : Same ns l l') : ∀ (es : List (Str × Expr)), kwsAll SrcName SrcName es → ∀ k,
    evalKws M' c l' (compKws ns es) k = evalKws M c l es k
  | [], _, k => rfl
  | (x, e) :: es, ha, k => by
    simp only [compKws, evalKws]
    rw [eval_comp ht h e ha.1]
    congr 1
    funext v
    rw [evalKws_comp ht h es ha.2]
theorem evalBool_comp (ht : Twin ns c M M') (h : Same ns l l') (b : Bool) : ∀ (es : List Expr), exprsAll SrcName SrcName es → ∀ k,
    evalBool M' c l' b (compAll ns es) k = evalBool M c l b es k
  | [], _, k => rfl
  | [e], ha, k => by
    simp only [compAll, evalBool]
    exact eval_comp ht h e ha.1 k
  | e :: e' :: es, ha, k => by
    have := evalBool_comp ht h b (e' :: es) ha.2 k
    simp only [compAll, evalBool] at this ⊢
    rw [eval_comp ht h e ha.1]
    congr 1
    funext v
    congr 1
    funext d
    rw [this]
end

theorem tick_comp (ht : Twin ns c M M') (s : Stmt) (p : Prog) : tick M' c (s.comp ns c) p = tick M c s p := by
  unfold tick
  rw [ht.cost]

/-- Continuations that do the same with the same local variables. -/
def SameK (ns : List Str) (k k' : Flow → Locals → Prog) : Prop := ∀ f l l', Same ns l l' → k' f l' = k f l

theorem afterRound_comp {k k' : Flow → Locals → Prog} {g g' : Locals → Prog} (hk : SameK ns k k') (hg : ∀ l l', Same ns l l' → g' l' = g l) :
    SameK ns (afterRound k g) (afterRound k' g') := by
  intro f l l' h
  cases f with
  | next => exact hg l l' h
  | «continue» => exact hg l l' h
  | «break» => exact hk _ l l' h
  | ret v => exact hk _ l l' h

theorem whileLoop_comp {out : PyErr} {round round' : Locals → (Flow → Locals → Prog) → Prog → Prog}
    (hr : ∀ l l' next next' done, Same ns l l' → SameK ns next next' → round' l' next' done = round l next done) {k k' : Flow → Locals → Prog}
    (hk : SameK ns k k') : ∀ (n : Nat) (l l' : Locals), Same ns l l' → whileLoop out round' n l' k' = whileLoop out round n l k
  | 0, _, _, _ => rfl
  | n + 1, l, l', h => by
    simp only [whileLoop]
    rw [hk _ l l' h]
    exact hr l l' _ _ _ h (afterRound_comp hk (whileLoop_comp hr hk n))

theorem forLoop_comp {round round' : PyVal → Locals → (Flow → Locals → Prog) → Prog} {done done' : Prog → Prog}
    (hr : ∀ v l l' next next', Same ns l l' → SameK ns next next' → round' v l' next' = round v l next) (hd : done' = done) {k k' : Flow → Locals → Prog}
    (hk : SameK ns k k') : ∀ (vs : List PyVal) (l l' : Locals), Same ns l l' → forLoop round' done' vs l' k' = forLoop round done vs l k
  | [], l, l', h => by simp only [forLoop]; rw [hk _ l l' h, hd]
  | v :: vs, l, l', h => by
    simp only [forLoop]
    exact hr v l l' _ _ h (afterRound_comp hk (forLoop_comp hr hd hk vs))

/-- `eval_comp` with different continuations. -/
theorem eval_k (ht : Twin ns c M M') (h : Same ns l l') {e : Expr} (ha : e.All SrcName SrcName) {k k' : Val → Prog} (hk : ∀ v, k' v = k v) :
    eval M' c l' (e.comp ns) k' = eval M c l e k := by
  rw [eval_comp ht h e ha, show k' = k from funext hk]

mutual
theorem exec_comp (ht : Twin ns c M M') : ∀ (s : Stmt), s.All SrcName SrcName → ∀ (l l' : Locals) (k k' : Flow → Locals → Prog), Same ns l l' → SameK ns k k' →
    exec M' c (s.comp ns c) l' k' = exec M c s l k
  | .assign x e, ha, l, l', k, k', h, hk => by
    have := tick_comp ht (.assign x e)
    simp only [Stmt.comp, compAssigned_src ha.2] at this
    simp only [Stmt.comp, compAssigned_src ha.2, exec, this]
    congr 1
    exact eval_k ht h ha.2 fun v => hk _ _ _ (h.set ht.plain ha.1.1 v)
  | .assignSub e i v, ha, l, l', k, k', h, hk => by
    have := tick_comp ht (.assignSub e i v)
    simp only [Stmt.comp] at this
    simp only [Stmt.comp, exec, this]
    congr 1
    refine eval_k ht h ha.2.2 fun v => eval_k ht h ha.1 fun e => eval_k ht h ha.2.1 fun i => ?_
    rw [storeVal_comp ht, hk _ _ _ h]
  | .aug op x e, ha, l, l', k, k', h, hk => by
    have := tick_comp ht (.aug op x e)
    simp only [Stmt.comp] at this
    simp only [Stmt.comp, exec, this]
    congr 1
    rw [nameVal_comp ht h ha.1.1]
    congr 1
    funext a
    refine eval_k ht h ha.2 fun b => ?_
    congr 1
    funext ds
    rw [ht.data]
    congr 1
    funext r
    exact hk _ _ _ (h.set ht.plain ha.1.1 _)
  | .augSub op e i v, ha, l, l', k, k', h, hk => by
    have := tick_comp ht (.augSub op e i v)
    simp only [Stmt.comp] at this
    simp only [Stmt.comp, exec, this]
    congr 1
    refine eval_k ht h ha.1 fun e => eval_k ht h ha.2.1 fun i => ?_
    rw [subVal_comp ht]
    congr 1
    funext a
    refine eval_k ht h ha.2.2 fun b => ?_
    congr 1
    funext ds
    rw [ht.data]
    congr 1
    funext r
    rw [storeVal_comp ht, hk _ _ _ h]
  | .expr e, ha, l, l', k, k', h, hk => by
    have := tick_comp ht (.expr e)
    simp only [Stmt.comp] at this
    simp only [Stmt.comp, exec, this]
    congr 1
    exact eval_k ht h ha fun v => hk _ _ _ h
  | .assert t m, ha, l, l', k, k', h, hk => by
    have := tick_comp ht (.assert t m)
    simp only [Stmt.comp] at this
    simp only [Stmt.comp, exec, this]
    congr 1
    refine eval_k ht h ha.1 fun v => ?_
    congr 1
    funext d
    rw [hk _ _ _ h, evalAll_comp ht h m ha.2]
  | .ite t b o, ha, l, l', k, k', h, hk => by
    have := tick_comp ht (.ite t b o)
    simp only [Stmt.comp] at this
    simp only [Stmt.comp, exec, this]
    congr 1
    refine eval_k ht h ha.1 fun v => ?_
    congr 1
    funext d
    rw [execAll_comp ht b ha.2.1 l l' k k' h hk, execAll_comp ht o ha.2.2 l l' k k' h hk]
  | .while t b, ha, l, l', k, k', h, hk => by
    have := tick_comp ht (.while t b)
    simp only [Stmt.comp] at this
    simp only [Stmt.comp, exec, this, ht.loops, ht.out]
    refine whileLoop_comp (fun l l' next next' done h hn => ?_) hk _ l l' h
    congr 1
    refine eval_k ht h ha.1 fun v => ?_
    congr 1
    funext d
    rw [execAll_comp ht b ha.2 l l' next next' h hn]
  | .for x it b, ha, l, l', k, k', h, hk => by
    have := tick_comp ht (.for x it b)
    simp only [Stmt.comp] at this
    simp only [Stmt.comp, exec, this, ht.data]
    congr 1
    refine eval_k ht h ha.2.1 fun v => ?_
    congr 1
    funext d
    congr 1
    funext vs
    refine forLoop_comp (fun v l l' next next' h hn => ?_) (funext fun p => this p) hk vs l l' h
    congr 1
    exact execAll_comp ht b ha.2.2 _ _ next next' (h.set ht.plain ha.1.1 _) hn
  | .ret es, ha, l, l', k, k', h, hk => by
    have := tick_comp ht (.ret es)
    simp only [Stmt.comp] at this
    simp only [Stmt.comp, exec, this]
    congr 1
    rw [evalAll_comp ht h es ha]
    congr 1
    funext vs
    exact hk _ _ _ h
  | .pass, _, l, l', k, k', h, hk => by
    have := tick_comp ht .pass
    simp only [Stmt.comp] at this
    simp only [Stmt.comp, exec, this, hk _ _ _ h]
  | .break, _, l, l', k, k', h, hk => by
    have := tick_comp ht .break
    simp only [Stmt.comp] at this
    simp only [Stmt.comp, exec, this, hk _ _ _ h]
  | .continue, _, l, l', k, k', h, hk => by
    have := tick_comp ht .continue
    simp only [Stmt.comp] at this
    simp only [Stmt.comp, exec, this, hk _ _ _ h]
theorem execAll_comp (ht : Twin ns c M M') : ∀ (ss : List Stmt), stmtsAll SrcName SrcName ss → ∀ (l l' : Locals) (k k' : Flow → Locals → Prog), Same ns l l' → SameK ns k k' →
    execAll M' c (compStmts ns c ss) l' k' = execAll M c ss l k
  | [], _, l, l', k, k', h, hk => hk _ _ _ h
  | s :: ss, ha, l, l', k, k', h, hk => by
    simp only [compStmts, execAll]
    refine exec_comp ht s ha.1 l l' _ _ h fun f l l' h => ?_
    cases f with
    | next => exact execAll_comp ht ss ha.2 l l' k k' h hk
    | _ => exact hk _ _ _ h
end

end

end Verif.Lang
