import Verif.Proofs.Finish
/-!
# The interpreter with two bounds

Two machines that differ only in how deep they call and how often they go round a loop make programs that agree for
as many lines as both bounds allow.
-/
namespace Verif.Lang
open Verif

/-- The machines differ only in calls and bounds, and agree for `j` lines. -/
structure Near (j : Nat) (M M' : Machine) : Prop where
  D : M.D = M'.D
  global : M.global = M'.global
  member : M.member = M'.member
  cost : M.cost = M'.cost
  top : ∀ c, Lockstep j (M.top c) (M'.top c)
  call : ∀ c i vs ks k k', (∀ v, Lockstep j (k v) (k' v)) → Lockstep j (M.call c i vs ks k) (M'.call c i vs ks k')

theorem Near.mono {b j : Nat} {M M' : Machine} (h : Near b M M')
    (hc : ∀ c i vs ks k k', (∀ v, Lockstep j (k v) (k' v)) → Lockstep j (M.call c i vs ks k) (M'.call c i vs ks k')) (hj : j ≤ b) : Near j M M' :=
  ⟨h.D, h.global, h.member, h.cost, fun c => (h.top c).mono hj, hc⟩

section
variable {j : Nat} {M M' : Machine} {c : Str}

theorem orRaise_agree {α : Type} {r : Except PyErr α} {k k' : α → Prog} (h : ∀ v, Lockstep j (k v) (k' v)) :
    Lockstep j (orRaise r k) (orRaise r k') := by
  cases r with
  | ok v => exact h v
  | error e => exact .raise e

theorem asData_agree {v : Val} {k k' : PyVal → Prog} (h : ∀ v, Lockstep j (k v) (k' v)) : Lockstep j (asData v k) (asData v k') := by
  cases v with
  | data d => exact h d
  | _ => exact .raise _

theorem asDatas_agree : ∀ {vs : List Val} {k k' : List PyVal → Prog}, (∀ v, Lockstep j (k v) (k' v)) → Lockstep j (asDatas vs k) (asDatas vs k')
  | [], _, _, h => h []
  | _ :: _, _, _, h => asData_agree fun d => asDatas_agree fun ds => h (d :: ds)

theorem asKws_agree : ∀ {ks : List (Str × Val)} {k k' : List (Str × PyVal) → Prog}, (∀ v, Lockstep j (k v) (k' v)) →
    Lockstep j (asKws ks k) (asKws ks k')
  | [], _, _, h => h []
  | (x, _) :: _, _, _, h => asData_agree fun d => asKws_agree fun ds => h ((x, d) :: ds)

theorem sysName_agree {D : Data} {id : Str} {k k' : Val → Prog} (h : ∀ v, Lockstep j (k v) (k' v)) :
    Lockstep j (sysName D id k) (sysName D id k') := by
  unfold sysName
  split
  · exact h _
  split
  · exact h _
  split
  · exact .raise _
  split
  · exact h _
  · refine .act (a := .envGet _) trivial fun v => ?_
    split
    · exact .raise _
    · exact h _

theorem nameVal_agree (hM : Near j M M') {l : Locals} {id : Str} {k k' : Val → Prog} (h : ∀ v, Lockstep j (k v) (k' v)) :
    Lockstep j (nameVal M c l id k) (nameVal M' c l id k') := by
  unfold nameVal
  rw [hM.global, hM.D]
  split
  · split
    · exact h _
    · exact .raise _
  · split
    · exact orRaise_agree h
    · exact sysName_agree h

theorem ctxAction_free {a : Str} {x : Action} (h : ctxAction a = some x) : x.NotGuarded := by
  unfold ctxAction at h
  repeat' split at h
  all_goals first | cases h; trivial | cases h

theorem randomCall_free {f : Str} {vs : List Val} {ks : List (Str × Val)} {a : Action} (h : randomCall f vs ks = .ok a) : a.NotGuarded := by
  rcases randomCall_kind h with ⟨_, rfl⟩ | ⟨_, rfl⟩ | ⟨_, rfl⟩ <;> trivial

theorem attrVal_agree (hM : Near j M M') {v : Val} {a : Str} {k k' : Val → Prog} (h : ∀ v, Lockstep j (k v) (k' v)) :
    Lockstep j (attrVal M v a k) (attrVal M' v a k') := by
  unfold attrVal
  rw [hM.member, hM.D]
  cases v with
  | data d =>
    simp only
    split
    · exact h _
    · exact orRaise_agree fun _ => h _
  | mod c' =>
    simp only
    split
    · exact orRaise_agree h
    · exact sysName_agree h
  | sys s =>
    simp only
    split
    · split
      · rename_i x hx
        exact .act (ctxAction_free hx) fun _ => h _
      · exact .raise _
    · exact h _
  | cls _ => exact .raise _
  | fn _ _ => exact .raise _
  | meth _ _ => exact .raise _
  | driver => exact h _
  | var _ => exact h _
  | hash _ => exact h _
  | fvar _ => exact h _
  | fhash _ => exact h _
  | event _ _ => exact .raise _
  | params _ => exact .raise _

theorem callMethod_agree (hM : Near j M M') {v : Val} {a : Str} {vs : List Val} {ks : List (Str × Val)} {k k' : Val → Prog}
    (h : ∀ v, Lockstep j (k v) (k' v)) : Lockstep j (callMethod M v a vs ks k) (callMethod M' v a vs ks k') := by
  unfold callMethod
  rw [hM.D]
  cases v with
  | data d => exact asDatas_agree fun _ => asKws_agree fun _ => orRaise_agree fun _ => h _
  | var x =>
    simp only
    split
    · exact orRaise_agree fun _ => .act (a := .varGet _) trivial fun _ => h _
    split
    · exact orRaise_agree fun _ => asDatas_agree fun _ => .act (a := .varSet _ _) trivial fun _ => h _
    · exact .raise _
  | hash x =>
    simp only
    split
    · exact asDatas_agree fun _ => .act (a := .hashAll _ _) trivial fun _ => h _
    split
    · exact asDatas_agree fun _ => .act (a := .hashClear _ _) trivial fun _ => h _
    · exact .raise _
  | fvar x =>
    simp only
    split
    · exact orRaise_agree fun _ => .act (a := .varGet _) trivial fun _ => h _
    split
    · exact orRaise_agree fun _ => asDatas_agree fun _ => .act (a := .foreignVarSet _ _) trivial fun _ => h _
    · exact .raise _
  | fhash x =>
    simp only
    split
    · exact asDatas_agree fun _ => .act (a := .hashAll _ _) trivial fun _ => h _
    split
    · exact asDatas_agree fun _ => .act (a := .foreignHashClear _ _) trivial fun _ => h _
    · exact .raise _
  | driver =>
    simp only
    split
    · refine asDatas_agree fun ds => ?_
      split
      · exact .act (a := .rawGet _) trivial fun _ => h _
      · exact .raise _
    split
    · refine asDatas_agree fun ds => ?_
      split
      · exact .act (a := .rawSet _ _) trivial fun _ => h _
      · exact .raise _
    · exact .raise _
  | cls _ => exact .raise _
  | fn _ _ => exact .raise _
  | mod _ => exact .raise _
  | sys _ => exact .raise _
  | meth _ _ => exact .raise _
  | event _ _ => exact .raise _
  | params _ => exact .raise _

theorem built_agree {v : Val} {k k' : Prog} (h : Lockstep j k k') : Lockstep j (built v k) (built v k') := by
  unfold built
  split
  · exact .act (a := .newLog _ _) trivial fun _ => h
  · exact h

theorem callEvent_agree {e : Str} {ps : Dict Str Param} {vs : List Val} {ks : List (Str × Val)} {k k' : Val → Prog}
    (h : ∀ v, Lockstep j (k v) (k' v)) : Lockstep j (callEvent e ps vs ks k) (callEvent e ps vs ks k') := by
  refine orRaise_agree fun b => asDatas_agree fun ds => ?_
  split
  · refine orRaise_agree fun data => .act (a := .newLog _ _) trivial fun i => ?_
    split
    · exact .act (a := .emit _ _) trivial fun _ => h _
    · exact .raise _
  · exact .raise _

theorem callSys_agree (hM : Near j M M') {s : Str} {vs : List Val} {ks : List (Str × Val)} {k k' : Val → Prog}
    (h : ∀ v, Lockstep j (k v) (k' v)) : Lockstep j (callSys M s vs ks k) (callSys M' s vs ks k') := by
  unfold callSys
  rw [hM.D]
  split
  · split
    · exact .load (hM.top _) fun _ => h _
    · exact .raise _
  split
  · split
    · exact .act (a := .ownerOf _) trivial fun _ => h _
    · exact .raise _
  split
  · cases hr : randomCall (s.drop 7) vs ks with
    | error e => exact .raise _
    | ok a => exact .act (randomCall_free hr) fun _ => h _
  · exact asDatas_agree fun _ => asKws_agree fun _ => orRaise_agree fun _ => h _

theorem callVal_agree (hM : Near j M M') {v : Val} {vs : List Val} {ks : List (Str × Val)} {k k' : Val → Prog}
    (h : ∀ v, Lockstep j (k v) (k' v)) : Lockstep j (callVal M v vs ks k) (callVal M' v vs ks k') := by
  unfold callVal
  cases v with
  | fn c' i => exact hM.call c' i vs ks k k' h
  | cls s => exact orRaise_agree fun v => built_agree (h v)
  | event e ps => exact callEvent_agree h
  | sys s => exact callSys_agree hM h
  | meth v a => exact callMethod_agree hM h
  | _ => exact .raise _

theorem subVal_agree (hM : Near j M M') {v i : Val} {k k' : Val → Prog} (h : ∀ v, Lockstep j (k v) (k' v)) :
    Lockstep j (subVal M v i k) (subVal M' v i k') := by
  unfold subVal
  rw [hM.D]
  refine asData_agree fun i => ?_
  cases v with
  | data d => exact orRaise_agree fun _ => h _
  | hash x => exact .act (a := .hashGet _ _) trivial fun _ => h _
  | fhash x => exact .act (a := .hashGet _ _) trivial fun _ => h _
  | _ => exact .raise _

theorem storeVal_agree (hM : Near j M M') {v i x : Val} {k k' : Prog} (h : Lockstep j k k') :
    Lockstep j (storeVal M v i x k) (storeVal M' v i x k') := by
  unfold storeVal
  rw [hM.D]
  refine asData_agree fun i => asData_agree fun x => ?_
  cases v with
  | hash y => exact .act (a := .hashSet _ _ _) trivial fun _ => h
  | fhash y => exact .act (a := .foreignHashSet _ _ _) trivial fun _ => h
  | _ => exact .raise _

mutual
theorem eval_agree (hM : Near j M M') {l : Locals} : ∀ (e : Expr) (k k' : Val → Prog), (∀ v, Lockstep j (k v) (k' v)) →
    Lockstep j (eval M c l e k) (eval M' c l e k')
  | .name id, k, k', h => by rw [eval, eval]; exact nameVal_agree hM h
  | .const x, k, k', h => by rw [eval, eval, hM.D]; exact orRaise_agree fun _ => h _
  | .attr e a, k, k', h => by
    rw [eval, eval]
    exact eval_agree hM e _ _ fun v => attrVal_agree hM h
  | .call f args kws, k, k', h => by
    rw [eval, eval]
    exact eval_agree hM f _ _ fun v => evalAll_agree hM args _ _ fun vs => evalKws_agree hM kws _ _ fun ks => callVal_agree hM h
  | .sub e i, k, k', h => by
    rw [eval, eval]
    exact eval_agree hM e _ _ fun v => eval_agree hM i _ _ fun _ => subVal_agree hM h
  | .op o args, k, k', h => by
    rw [eval, eval, hM.D]
    exact evalAll_agree hM args _ _ fun vs => asDatas_agree fun _ => orRaise_agree fun _ => h _
  | .bool b args, k, k', h => by
    rw [eval, eval]
    exact evalBool_agree hM b args k k' h
  | .cond t a b, k, k', h => by
    rw [eval, eval]
    refine eval_agree hM t _ _ fun v => asData_agree fun d => ?_
    split
    · exact eval_agree hM a k k' h
    · exact eval_agree hM b k k' h
theorem evalAll_agree (hM : Near j M M') {l : Locals} : ∀ (es : List Expr) (k k' : List Val → Prog), (∀ v, Lockstep j (k v) (k' v)) →
    Lockstep j (evalAll M c l es k) (evalAll M' c l es k')
  | [], k, k', h => by rw [evalAll, evalAll]; exact h []
  | e :: es, k, k', h => by
    rw [evalAll, evalAll]
    exact eval_agree hM e _ _ fun v => evalAll_agree hM es _ _ fun vs => h _
theorem evalKws_agree (hM : Near j M M') {l : Locals} : ∀ (es : List (Str × Expr)) (k k' : List (Str × Val) → Prog),
    (∀ v, Lockstep j (k v) (k' v)) → Lockstep j (evalKws M c l es k) (evalKws M' c l es k')
  | [], k, k', h => by rw [evalKws, evalKws]; exact h []
  | (x, e) :: es, k, k', h => by
    rw [evalKws, evalKws]
    exact eval_agree hM e _ _ fun v => evalKws_agree hM es _ _ fun vs => h _
theorem evalBool_agree (hM : Near j M M') {l : Locals} (b : Bool) : ∀ (es : List Expr) (k k' : Val → Prog),
    (∀ v, Lockstep j (k v) (k' v)) → Lockstep j (evalBool M c l b es k) (evalBool M' c l b es k')
  | [], k, k', h => by rw [evalBool, evalBool]; exact h _
  | [e], k, k', h => by
    rw [evalBool, evalBool]
    exact eval_agree hM e k k' h
  | e :: e' :: es, k, k', h => by
    have e1 : ∀ (M : Machine) k, evalBool M c l b (e :: e' :: es) k =
        eval M c l e fun v => asData v fun d => if truthy d = b then evalBool M c l b (e' :: es) k else k v := by
      intro M k
      rw [evalBool]
      intro h; cases h
    rw [e1, e1]
    refine eval_agree hM e _ _ fun v => asData_agree fun d => ?_
    split
    · exact evalBool_agree hM b (e' :: es) k k' h
    · exact h v
end
end

/-- The machines agree on every smaller number of lines, and go round loops `b` times at least. -/
structure Below (b : Nat) (M M' : Machine) : Prop where
  near : ∀ j, j < b → Near j M M'
  cost : M.cost = M'.cost
  loops : b ≤ M.loops
  loops' : b ≤ M'.loops

theorem Below.pred {b : Nat} {M M' : Machine} (h : Below (b + 1) M M') : Below b M M' :=
  ⟨fun j hj => h.near j (by omega), h.cost, by have := h.loops; omega, by have := h.loops'; omega⟩

section
variable {M M' : Machine} {c : Str}

theorem tick_agree {b : Nat} {s : Stmt} {k k' : Prog} (hc : M.cost = M'.cost) (h : ∀ j, b = j + 1 → Lockstep j k k') :
    Lockstep b (tick M c s k) (tick M' c s k') := by
  cases b with
  | zero => exact .out _ _
  | succ j =>
    unfold tick
    rw [hc]
    exact .tick fun _ => h j rfl

/-- Continuations that agree. -/
def Conts (b : Nat) (k k' : Flow → Locals → Prog) : Prop := ∀ f l, Lockstep b (k f l) (k' f l)

theorem Conts.pred {b : Nat} {k k' : Flow → Locals → Prog} (h : Conts (b + 1) k k') : Conts b k k' := fun f l => (h f l).mono (Nat.le_succ b)

theorem afterRound_agree {b : Nat} {k k' : Flow → Locals → Prog} {again again' : Locals → Prog} (hk : Conts b k k')
    (ha : ∀ l, Lockstep b (again l) (again' l)) : Conts b (afterRound k again) (afterRound k' again') := by
  intro f l
  cases f with
  | next => exact ha l
  | ret v => exact hk (.ret v) l
  | «break» => exact hk .next l
  | «continue» => exact ha l

theorem whileLoop_agree {out out' : PyErr} {round round' : Locals → (Flow → Locals → Prog) → Prog → Prog} {B : Nat}
    (hr : ∀ b l next next' done done', b < B → Conts b next next' → Lockstep b done done' →
      Lockstep (b + 1) (round l next done) (round' l next' done')) {k k' : Flow → Locals → Prog} :
    ∀ (b n n' : Nat) (l : Locals), b ≤ B → b ≤ n → b ≤ n' → Conts b k k' → Lockstep b (whileLoop out round n l k) (whileLoop out' round' n' l k')
  | 0, _, _, _, _, _, _, _ => .out _ _
  | b + 1, n + 1, n' + 1, l, hB, h1, h2, hk => by
    rw [whileLoop, whileLoop]
    exact hr b l _ _ _ _ (by omega) (afterRound_agree hk.pred fun l => whileLoop_agree hr b n n' l (by omega) (by omega) (by omega) hk.pred)
      (hk.pred .next l)
  | b + 1, 0, _, _, _, h1, _, _ => by omega
  | b + 1, _, 0, _, _, _, h2, _ => by omega

theorem forLoop_agree {round round' : PyVal → Locals → (Flow → Locals → Prog) → Prog} {done done' : Prog → Prog} {b : Nat}
    (hr : ∀ v l next next', Conts b next next' → Lockstep b (round v l next) (round' v l next'))
    (hd : ∀ p p', Lockstep b p p' → Lockstep b (done p) (done' p'))
    {k k' : Flow → Locals → Prog} (hk : Conts b k k') : ∀ (vs : List PyVal) (l : Locals),
      Lockstep b (forLoop round done vs l k) (forLoop round' done' vs l k')
  | [], l => hd _ _ (hk .next l)
  | v :: vs, l => hr v l _ _ (afterRound_agree hk fun l => forLoop_agree hr hd hk vs l)

mutual
theorem exec_agree : ∀ (s : Stmt) {b : Nat} (_ : Below b M M') (l : Locals) (k k' : Flow → Locals → Prog), Conts b k k' →
    Lockstep b (exec M c s l k) (exec M' c s l k')
  | .assign x e, b, hM, l, k, k', hk => by
    rw [exec, exec]
    refine tick_agree hM.cost fun j hj => ?_
    subst hj
    exact eval_agree (hM.near j (by omega)) e _ _ fun v => hk.pred _ _
  | .assignSub e i v, b, hM, l, k, k', hk => by
    rw [exec, exec]
    refine tick_agree hM.cost fun j hj => ?_
    subst hj
    have h := hM.near j (by omega)
    exact eval_agree h v _ _ fun _ => eval_agree h e _ _ fun o => eval_agree h i _ _ fun _ => storeVal_agree h (hk.pred _ _)
  | .aug op x e, b, hM, l, k, k', hk => by
    rw [exec, exec]
    refine tick_agree hM.cost fun j hj => ?_
    subst hj
    have h := hM.near j (by omega)
    rw [h.D]
    exact nameVal_agree h fun _ => eval_agree h e _ _ fun _ => asDatas_agree fun _ => orRaise_agree fun _ => hk.pred _ _
  | .augSub op e i v, b, hM, l, k, k', hk => by
    rw [exec, exec]
    refine tick_agree hM.cost fun j hj => ?_
    subst hj
    have h := hM.near j (by omega)
    rw [h.D]
    exact eval_agree h e _ _ fun o => eval_agree h i _ _ fun _ => subVal_agree h fun _ => eval_agree h v _ _ fun _ =>
      asDatas_agree fun _ => orRaise_agree fun _ => storeVal_agree h (hk.pred _ _)
  | .expr e, b, hM, l, k, k', hk => by
    rw [exec, exec]
    refine tick_agree hM.cost fun j hj => ?_
    subst hj
    exact eval_agree (hM.near j (by omega)) e _ _ fun _ => hk.pred _ _
  | .assert t m, b, hM, l, k, k', hk => by
    rw [exec, exec]
    refine tick_agree hM.cost fun j hj => ?_
    subst hj
    have h := hM.near j (by omega)
    refine eval_agree h t _ _ fun _ => asData_agree fun d => ?_
    split
    · exact hk.pred _ _
    · exact evalAll_agree h m _ _ fun _ => .raise _
  | .ite t bd o, b, hM, l, k, k', hk => by
    rw [exec, exec]
    refine tick_agree hM.cost fun j hj => ?_
    subst hj
    refine eval_agree (hM.near j (by omega)) t _ _ fun _ => asData_agree fun d => ?_
    split
    · exact execAll_agree bd hM.pred l _ _ hk.pred
    · exact execAll_agree o hM.pred l _ _ hk.pred
  | .while t bd, b, hM, l, k, k', hk => by
    rw [exec, exec]
    refine whileLoop_agree (B := b) (fun i l next next' done done' hi hn hd => ?_) b _ _ l (Nat.le_refl b) hM.loops hM.loops' hk
    refine tick_agree hM.cost fun j hj => ?_
    cases hj
    refine eval_agree (hM.near i hi) t _ _ fun _ => asData_agree fun d => ?_
    split
    · exact execAll_agree bd ⟨fun j hj => hM.near j (by omega), hM.cost, by have := hM.loops; omega, by have := hM.loops'; omega⟩ l _ _ hn
    · exact hd
  | .for x it bd, b, hM, l, k, k', hk => by
    rw [exec, exec]
    refine tick_agree hM.cost fun j hj => ?_
    subst hj
    have h := hM.near j (by omega)
    rw [h.D]
    refine eval_agree h it _ _ fun _ => asData_agree fun d => orRaise_agree fun vs => ?_
    refine forLoop_agree (fun v l next next' hn => tick_agree hM.cost fun i hi => ?_) (fun p p' hp => tick_agree hM.cost fun i hi => ?_)
      hk.pred vs l
    · subst hi
      exact execAll_agree bd hM.pred.pred _ _ _ hn.pred
    · subst hi
      exact hp.mono (Nat.le_succ i)
  | .ret es, b, hM, l, k, k', hk => by
    rw [exec, exec]
    refine tick_agree hM.cost fun j hj => ?_
    subst hj
    exact evalAll_agree (hM.near j (by omega)) es _ _ fun vs => hk.pred _ _
  | .pass, b, hM, l, k, k', hk => by
    rw [exec, exec]
    exact tick_agree hM.cost fun j hj => by subst hj; exact hk.pred _ _
  | .break, b, hM, l, k, k', hk => by
    rw [exec, exec]
    exact tick_agree hM.cost fun j hj => by subst hj; exact hk.pred _ _
  | .continue, b, hM, l, k, k', hk => by
    rw [exec, exec]
    exact tick_agree hM.cost fun j hj => by subst hj; exact hk.pred _ _
theorem execAll_agree : ∀ (ss : List Stmt) {b : Nat} (_ : Below b M M') (l : Locals) (k k' : Flow → Locals → Prog), Conts b k k' →
    Lockstep b (execAll M c ss l k) (execAll M' c ss l k')
  | [], b, hM, l, k, k', hk => by rw [execAll, execAll]; exact hk _ _
  | s :: ss, b, hM, l, k, k', hk => by
    rw [execAll, execAll]
    refine exec_agree s hM l _ _ fun f l => ?_
    cases f with
    | next => exact execAll_agree ss hM l k k' hk
    | ret v => exact hk (.ret v) l
    | «break» => exact hk .break l
    | «continue» => exact hk .continue l
end
end

/-! ### Modules and calls -/

theorem topProg_agree {load load' : Str → Prog} {D : Data} {own : List Str} {cost : Top → Nat × Nat} : ∀ (m : Module) {b : Nat},
    (∀ j n, j < b → Lockstep j (load n) (load' n)) → Lockstep b (topProg load D own cost m) (topProg load' D own cost m)
  | [], _, _ => .ret _
  | t :: m, 0, _ => .out _ _
  | t :: m, b + 1, h => by
    rw [topProg, topProg]
    have ih := topProg_agree m (D := D) (own := own) (cost := cost) (b := b) fun j n hj => h j n (by omega)
    refine .tick fun _ => ?_
    cases t with
    | «import» n a => exact .load (h b n (by omega)) fun _ => ih
    | decl x cls kws => exact orRaise_agree fun v => built_agree ih
    | assign x e => exact orRaise_agree fun v => ih
    | «def» f => exact orRaise_agree fun v => ih

/-- The same chain, with something else raised where a bound is reached. -/
def Chain.ending (C : Chain) (e : PyErr) : Chain := { C with out := e }

theorem Chain.ending_global (C : Chain) (e : PyErr) : (C.ending e).global = C.global := rfl
theorem Chain.ending_code (C : Chain) (e : PyErr) : (C.ending e).code = C.code := rfl
theorem Chain.ending_D (C : Chain) (e : PyErr) : (C.ending e).D = C.D := rfl
theorem Chain.ending_cost (C : Chain) (e : PyErr) : (C.ending e).cost = C.cost := rfl
theorem Chain.ending_topCost (C : Chain) (e : PyErr) : (C.ending e).topCost = C.topCost := rfl
theorem Chain.ending_wrapper (C : Chain) (e : PyErr) : (C.ending e).systemWrapper = C.systemWrapper := rfl

theorem Chain.top_agree (C : Chain) (e : PyErr) : ∀ (b n n' : Nat) (c : Str), b < n → b < n' → Lockstep b (C.top n c) ((C.ending e).top n' c)
  | b, n + 1, n' + 1, c, h1, h2 => by
    rw [Chain.top, Chain.top]
    rw [C.ending_code, C.ending_D, C.ending_topCost]
    split
    · exact .raise _
    · exact topProg_agree _ fun j c' hj => Chain.top_agree C e j n n' c' (by omega) (by omega)
  | _, 0, _, _, h1, _ => by omega
  | _, _ + 1, 0, _, _, h2 => by omega

/-- Calls agree for as many lines as both depths allow. -/
theorem Chain.call_agree (C : Chain) (e : PyErr) : ∀ (b n n' : Nat) (_ : b < n) (_ : b < n') c i vs ks k k', (∀ v, Lockstep b (k v) (k' v)) →
    Lockstep b (C.call n c i vs ks k) ((C.ending e).call n' c i vs ks k')
  | b, n + 1, n' + 1, h1, h2, c, i, vs, ks, k, k', h => by
    rw [Chain.call, Chain.call, C.ending_code, C.ending_D, C.ending_cost, C.ending_global, C.ending_wrapper]
    have hM : Below b { D := C.D, global := C.global, member := C.global, call := C.call n, top := C.top n, cost := C.cost, loops := n, out := C.out }
        { D := C.D, global := C.global, member := C.global, call := (C.ending e).call n', top := (C.ending e).top n', cost := C.cost, loops := n', out := e } :=
      ⟨fun j hj => ⟨rfl, rfl, rfl, rfl, fun c => C.top_agree e j n n' c (by omega) (by omega),
        fun c i vs ks k k' h => Chain.call_agree C e j n n' (by omega) (by omega) c i vs ks k k' h⟩, rfl, by simp only; omega, by simp only; omega⟩
    split
    · exact .raise _
    split
    · exact .raise _
    simp only
    split
    · split
      · exact .call (orRaise_agree fun l => execAll_agree _ hM l _ _ fun f l => asData_agree fun v => .ret v) fun v => h _
      · exact .raise _
    · exact orRaise_agree fun l => execAll_agree _ hM l _ _ fun f l => h _
  | _, 0, _, h1, _, _, _, _, _, _, _, _ => by omega
  | _, _ + 1, 0, _, h2, _, _, _, _, _, _, _ => by omega

theorem Chain.body_agree (C : Chain) (e : PyErr) {b n n' : Nat} (h1 : b < n) (h2 : b < n') (c : Str) (m : Module) (f : Fun) (vs : List Val)
    (ks : List (Str × Val)) : Lockstep b (C.body n c m f vs ks) ((C.ending e).body n' c m f vs ks) := by
  unfold Chain.body
  have hM : Below b (C.machine n) ((C.ending e).machine n') :=
    ⟨fun j hj => ⟨rfl, rfl, rfl, rfl, fun c => C.top_agree e j n n' c (by omega) (by omega),
      fun c i vs ks k k' h => C.call_agree e j n n' (by omega) (by omega) c i vs ks k k' h⟩, rfl, by show b ≤ n; omega, by show b ≤ n'; omega⟩
  exact orRaise_agree fun l => execAll_agree _ hM l _ _ fun f l => asData_agree fun v => .ret v

/-- What a transaction calls agrees. -/
theorem Chain.entry_agree (C : Chain) (e : PyErr) {b n n' : Nat} (h1 : b < n) (h2 : b < n') (c fname : Str) :
    (C.entry n c fname = none ∧ (C.ending e).entry n' c fname = none) ∨
    ∃ w f f', C.entry n c fname = some (w, f) ∧ (C.ending e).entry n' c fname = some (w, f') ∧ ∀ kw, Lockstep b (f kw) (f' kw) := by
  unfold Chain.entry
  rw [C.ending_code, C.ending_D, C.ending_wrapper]
  split
  · exact .inl ⟨rfl, rfl⟩
  split
  · split
    · exact .inl ⟨rfl, rfl⟩
    split
    · split
      · exact .inr ⟨_, _, _, rfl, rfl, fun kw => C.body_agree e h1 h2 _ _ _ _ _⟩
      · exact .inr ⟨_, _, _, rfl, rfl, fun kw => .raise _⟩
    · exact .inr ⟨_, _, _, rfl, rfl, fun kw => C.body_agree e h1 h2 _ _ _ _ _⟩
  · exact .inl ⟨rfl, rfl⟩

end Verif.Lang
