import Verif.Spec.Lang
/-!
# Programs made by the interpreter

`Closed P ok`: `P` holds of what the interpreter builds, when the API calls are `ok`.
-/
namespace Verif.Lang
open Verif

/-- `P` is closed under the steps of the interpreter. -/
structure Closed (P : Prog → Prop) (ok : Action → Prop) : Prop where
  ret : ∀ v, P (.ret v)
  raise : ∀ e, P (.raise e)
  act : ∀ {a k}, ok a → (∀ v, P (k v)) → P (api a k)
  load : ∀ {n d body k}, P body → (∀ v, P (k v)) → P (.load n d body fun r => orRaise r k)

/-- What the API calls of the interpreter are allowed, given that names satisfy `N` and attributes `A`. -/
structure Allows (N A : Str → Prop) (S : Val → Prop) (ok : Action → Prop) : Prop where
  data : ∀ v, S (.data v)
  sys : ∀ s, S (.sys s)
  mod : ∀ c, S (.mod c)
  meth : ∀ {v a}, A a → S v → S (.meth v a)
  unmeth : ∀ {v a}, S (.meth v a) → S v
  cls : ∀ {id}, N id → id ∈ ormClasses → S (.cls id)
  build : ∀ {s vs ks v}, S (.cls s) → construct s vs ks = .ok v → S v
  driver : N (py! "__Driver") → S .driver
  rawSet : S .driver → ∀ k v, ok (.rawSet k v)
  rawGet : S .driver → ∀ k, ok (.rawGet k)
  varSet : ∀ {x} v, S (.var x) → ok (.varSet x v)
  hashSet : ∀ {h} ix v, S (.hash h) → ok (.hashSet h ix v)
  hashClear : ∀ {h} args, S (.meth (.hash h) (py! "clear")) → ok (.hashClear h args)
  varGet : ∀ x, ok (.varGet x)
  hashGet : ∀ h ix, ok (.hashGet h ix)
  hashAll : ∀ {h} args, S (.meth (.hash h) (py! "all")) → ok (.hashAll h args)
  foreignHashAll : ∀ {h} args, S (.meth (.fhash h) (py! "all")) → ok (.hashAll h args)
  foreignVarSet : ∀ x v, ok (.foreignVarSet x v)
  foreignHashSet : ∀ h ix v, ok (.foreignHashSet h ix v)
  foreignHashClear : ∀ h args, ok (.foreignHashClear h args)
  envGet : ∀ n, ok (.envGet n)
  ctx : ∀ {a x}, ctxAction a = some x → ok x
  ownerOf : ∀ c, ok (.ownerOf c)
  line : ∀ b x y, ok (.line b x y)
  params : ∀ ps, S (.params ps)
  newLog : ∀ {e ps}, S (.event e ps) → ok (.newLog e ps)
  emit : ∀ i data, ok (.emit i data)
  random : ∀ {f vs ks a}, randomCall f vs ks = .ok a → ok a

/-- The surroundings give good values for names in `N` and attributes in `A`, and calls keep `P`. -/
structure Good (P : Prog → Prop) (N A : Str → Prop) (S : Val → Prop) (M : Machine) (c : Str) : Prop where
  attrs : ∀ a, A a → N a
  global : ∀ id v, N id → M.global c id = some (.ok v) → S v
  member : ∀ c' a v, A a → M.member c' a = some (.ok v) → S v
  call : ∀ c' i vs ks k, S (.fn c' i) → (∀ v ∈ vs, S v) → (∀ q ∈ ks, S q.2) → (∀ v, S v → P (k v)) → P (M.call c' i vs ks k)
  top : ∀ c', P (M.top c')

/-- All local variables are harmless. -/
def SafeLocals (S : Val → Prop) (l : Locals) : Prop := ∀ q ∈ l.vars, S q.2

/-- So is what a block returns. -/
def SafeFlow (S : Val → Prop) : Flow → Prop
  | .ret v => S v
  | _ => True

section
variable {P : Prog → Prop} {ok : Action → Prop} {N A : Str → Prop} {S : Val → Prop} {M : Machine} {c : Str}

theorem orRaise_P {α : Type} (hP : Closed P ok) {r : Except PyErr α} {k : α → Prog} (h : ∀ v, r = .ok v → P (k v)) : P (orRaise r k) := by
  cases r with
  | ok v => exact h v rfl
  | error e => exact hP.raise e

theorem asData_P (hP : Closed P ok) {v : Val} {k : PyVal → Prog} (h : ∀ d, P (k d)) : P (asData v k) := by
  cases v with
  | data d => exact h d
  | _ => exact hP.raise _

theorem asDatas_P (hP : Closed P ok) : ∀ {vs : List Val} {k : List PyVal → Prog}, (∀ ds, P (k ds)) → P (asDatas vs k)
  | [], _, h => h []
  | _ :: _, _, h => asData_P hP fun d => asDatas_P hP fun ds => h (d :: ds)

theorem asKws_P (hP : Closed P ok) : ∀ {ks : List (Str × Val)} {k : List (Str × PyVal) → Prog}, (∀ ds, P (k ds)) → P (asKws ks k)
  | [], _, h => h []
  | (x, _) :: _, _, h => asData_P hP fun d => asKws_P hP fun ds => h ((x, d) :: ds)

theorem Dict.get?_mem' {α : Type} {d : List (Str × α)} {k : Str} {v : α} (h : Dict.get? d k = some v) : (k, v) ∈ d := by
  induction d with
  | nil => cases h
  | cons p d ih =>
    obtain ⟨k', v'⟩ := p
    simp only [Dict.get?] at h
    split at h
    · rename_i hk
      cases h
      simp [hk]
    · exact List.mem_cons_of_mem _ (ih h)

theorem Dict.set_mem' {α : Type} {d : List (Str × α)} {k : Str} {v : α} {q : Str × α} (h : q ∈ Dict.set d k v) : q ∈ d ∨ q.2 = v := by
  induction d with
  | nil =>
    simp only [Dict.set, List.mem_singleton] at h
    exact .inr (by rw [h])
  | cons p d ih =>
    obtain ⟨k', v'⟩ := p
    simp only [Dict.set] at h
    split at h
    · rcases List.mem_cons.1 h with h | h
      · exact .inr (by rw [h])
      · exact .inl (List.mem_cons_of_mem _ h)
    · rcases List.mem_cons.1 h with h | h
      · exact .inl (by rw [h]; simp)
      · rcases ih h with h | h
        · exact .inl (List.mem_cons_of_mem _ h)
        · exact .inr h

theorem SafeLocals.set {l : Locals} (h : SafeLocals S l) {x : Str} {v : Val} (hv : S v) : SafeLocals S (l.set x v) := by
  intro q hq
  rcases Dict.set_mem' hq with hq | hq
  · exact h q hq
  · rw [hq]; exact hv

theorem sysName_P (hP : Closed P ok) (hS : Allows N A S ok) {D : Data} {id : Str} (hid : N id) {k : Val → Prog}
    (h : ∀ v, S v → P (k v)) : P (sysName D id k) := by
  unfold sysName
  split
  · rename_i h1
    exact h _ (hS.cls hid (by simpa using h1))
  split
  · rename_i _ h2
    exact h _ (hS.driver (h2 ▸ hid))
  split
  · exact hP.raise _
  split
  · exact h _ (hS.sys _)
  · refine hP.act (hS.envGet _) fun v => ?_
    split
    · exact hP.raise _
    · exact h _ (hS.data _)

theorem nameVal_P (hP : Closed P ok) (hS : Allows N A S ok) (hM : Good P N A S M c) {l : Locals} (hl : SafeLocals S l) {id : Str}
    (hid : N id) {k : Val → Prog} (h : ∀ v, S v → P (k v)) : P (nameVal M c l id k) := by
  unfold nameVal
  split
  · split
    · rename_i v hv
      exact h v (hl _ (Dict.get?_mem' hv))
    · exact hP.raise _
  · split
    · rename_i r hv
      exact orRaise_P hP fun v e => h v (hM.global id v hid (e ▸ hv))
    · exact sysName_P hP hS hid h

theorem attrVal_P (hP : Closed P ok) (hS : Allows N A S ok) (hM : Good P N A S M c) {v : Val} (hv : S v) {a : Str} (ha : A a)
    {k : Val → Prog} (h : ∀ v, S v → P (k v)) : P (attrVal M v a k) := by
  unfold attrVal
  cases v with
  | data d =>
    simp only
    split
    · exact h _ (hS.meth ha hv)
    · exact orRaise_P hP fun _ _ => h _ (hS.data _)
  | mod c' =>
    simp only
    split
    · rename_i r hv
      exact orRaise_P hP fun v e => h v (hM.member c' a v ha (e ▸ hv))
    · exact sysName_P hP hS (hM.attrs a ha) h
  | sys s =>
    simp only
    split
    · split
      · rename_i x hx
        exact hP.act (hS.ctx hx) fun _ => h _ (hS.data _)
      · exact hP.raise _
    · exact h _ (hS.sys _)
  | cls _ => exact hP.raise _
  | fn _ _ => exact hP.raise _
  | meth _ _ => exact hP.raise _
  | driver => exact h _ (hS.meth ha hv)
  | var _ => exact h _ (hS.meth ha hv)
  | hash _ => exact h _ (hS.meth ha hv)
  | fvar _ => exact h _ (hS.meth ha hv)
  | fhash _ => exact h _ (hS.meth ha hv)
  | event _ _ => exact hP.raise _
  | params _ => exact hP.raise _

theorem callMethod_P (hP : Closed P ok) (hS : Allows N A S ok) {v : Val} {a : Str} (hm : S (.meth v a)) {vs : List Val}
    {ks : List (Str × Val)} {k : Val → Prog} (h : ∀ v, S v → P (k v)) : P (callMethod M v a vs ks k) := by
  have hv := hS.unmeth hm
  unfold callMethod
  cases v with
  | data d => exact asDatas_P hP fun _ => asKws_P hP fun _ => orRaise_P hP fun _ _ => h _ (hS.data _)
  | var x =>
    simp only
    split
    · exact orRaise_P hP fun _ _ => hP.act (hS.varGet _) fun _ => h _ (hS.data _)
    split
    · exact orRaise_P hP fun _ _ => asDatas_P hP fun _ => hP.act (hS.varSet _ hv) fun _ => h _ (hS.data _)
    · exact hP.raise _
  | hash x =>
    simp only
    split
    · rename_i ha
      exact asDatas_P hP fun _ => hP.act (hS.hashAll _ (ha ▸ hm)) fun _ => h _ (hS.data _)
    split
    · rename_i ha
      exact asDatas_P hP fun _ => hP.act (hS.hashClear _ (ha ▸ hm)) fun _ => h _ (hS.data _)
    · exact hP.raise _
  | fvar x =>
    simp only
    split
    · exact orRaise_P hP fun _ _ => hP.act (hS.varGet _) fun _ => h _ (hS.data _)
    split
    · exact orRaise_P hP fun _ _ => asDatas_P hP fun _ => hP.act (hS.foreignVarSet _ _) fun _ => h _ (hS.data _)
    · exact hP.raise _
  | fhash x =>
    simp only
    split
    · rename_i ha
      exact asDatas_P hP fun _ => hP.act (hS.foreignHashAll _ (ha ▸ hm)) fun _ => h _ (hS.data _)
    split
    · exact asDatas_P hP fun _ => hP.act (hS.foreignHashClear _ _) fun _ => h _ (hS.data _)
    · exact hP.raise _
  | driver =>
    simp only
    split
    · refine asDatas_P hP fun ds => ?_
      split
      · exact hP.act (hS.rawGet hv _) fun _ => h _ (hS.data _)
      · exact hP.raise _
    split
    · refine asDatas_P hP fun ds => ?_
      split
      · exact hP.act (hS.rawSet hv _ _) fun _ => h _ (hS.data _)
      · exact hP.raise _
    · exact hP.raise _
  | cls _ => exact hP.raise _
  | fn _ _ => exact hP.raise _
  | mod _ => exact hP.raise _
  | sys _ => exact hP.raise _
  | meth _ _ => exact hP.raise _
  | event _ _ => exact hP.raise _
  | params _ => exact hP.raise _

theorem randomCall_kind {f : Str} {vs : List Val} {ks : List (Str × Val)} {a : Action} (h : randomCall f vs ks = .ok a) :
    (∃ s, a = .seed s) ∨ (∃ n, a = .getrandbits n) ∨ ∃ q, a = .draw q := by
  unfold randomCall at h
  repeat' split at h
  all_goals first | cases h | skip
  all_goals
    cases hb : bindArgs _ _ vs ks with
    | error e => rw [hb] at h; cases h
    | ok b =>
      rw [hb] at h
      simp only [Except.bind] at h
      split at h <;> cases h <;> simp

theorem built_P (hP : Closed P ok) (hS : Allows N A S ok) {v : Val} (hv : ∀ e ps, v = .event e ps → S (.event e ps)) {k : Prog} (h : P k) :
    P (built v k) := by
  unfold built
  split
  · exact hP.act (hS.newLog (hv _ _ rfl)) fun _ => h
  · exact h

theorem callEvent_P (hP : Closed P ok) (hS : Allows N A S ok) {e : Str} {ps : Dict Str Param} (he : S (.event e ps)) {vs : List Val}
    {ks : List (Str × Val)} {k : Val → Prog} (h : ∀ v, S v → P (k v)) : P (callEvent e ps vs ks k) := by
  refine orRaise_P hP fun b _ => asDatas_P hP fun ds => ?_
  split
  · refine orRaise_P hP fun data _ => hP.act (hS.newLog he) fun i => ?_
    split
    · exact hP.act (hS.emit _ _) fun _ => h _ (hS.data _)
    · exact hP.raise _
  · exact hP.raise _

theorem callSys_P (hP : Closed P ok) (hS : Allows N A S ok) (hM : Good P N A S M c) {s : Str} {vs : List Val}
    {ks : List (Str × Val)} {k : Val → Prog} (h : ∀ v, S v → P (k v)) : P (callSys M s vs ks k) := by
  unfold callSys
  split
  · split
    · exact hP.load (hM.top _) fun _ => h _ (hS.mod _)
    · exact hP.raise _
  split
  · split
    · exact hP.act (hS.ownerOf _) fun _ => h _ (hS.data _)
    · exact hP.raise _
  split
  · exact orRaise_P hP fun a ha => hP.act (hS.random ha) fun _ => h _ (hS.data _)
  · exact asDatas_P hP fun _ => asKws_P hP fun _ => orRaise_P hP fun _ _ => h _ (hS.data _)

theorem callVal_P (hP : Closed P ok) (hS : Allows N A S ok) (hM : Good P N A S M c) {v : Val} (hv : S v) {vs : List Val}
    {ks : List (Str × Val)} (hvs : ∀ v ∈ vs, S v) (hks : ∀ q ∈ ks, S q.2) {k : Val → Prog} (h : ∀ v, S v → P (k v)) :
    P (callVal M v vs ks k) := by
  unfold callVal
  cases v with
  | fn c' i => exact hM.call c' i vs ks k hv hvs hks h
  | cls s => exact orRaise_P hP fun v hc => built_P hP hS (fun _ _ e => e ▸ hS.build hv hc) (h v (hS.build hv hc))
  | event e ps => exact callEvent_P hP hS hv h
  | sys s => exact callSys_P hP hS hM h
  | meth v a => exact callMethod_P hP hS hv h
  | _ => exact hP.raise _

theorem subVal_P (hP : Closed P ok) (hS : Allows N A S ok) {v i : Val} {k : Val → Prog} (h : ∀ v, S v → P (k v)) : P (subVal M v i k) := by
  refine asData_P hP fun i => ?_
  cases v with
  | data d => exact orRaise_P hP fun _ _ => h _ (hS.data _)
  | hash x => exact hP.act (hS.hashGet _ _) fun _ => h _ (hS.data _)
  | fhash x => exact hP.act (hS.hashGet _ _) fun _ => h _ (hS.data _)
  | _ => exact hP.raise _

theorem storeVal_P (hP : Closed P ok) (hS : Allows N A S ok) {v i x : Val} (hv : S v) {k : Prog} (h : P k) : P (storeVal M v i x k) := by
  refine asData_P hP fun i => asData_P hP fun x => ?_
  cases v with
  | hash y => exact hP.act (hS.hashSet _ _ hv) fun _ => h
  | fhash y => exact hP.act (hS.foreignHashSet _ _ _) fun _ => h
  | _ => exact hP.raise _

mutual
theorem eval_P (hP : Closed P ok) (hS : Allows N A S ok) (hM : Good P N A S M c) {l : Locals} (hl : SafeLocals S l) :
    ∀ (e : Expr), e.All N A → ∀ (k : Val → Prog), (∀ v, S v → P (k v)) → P (eval M c l e k)
  | .name id, he, k, h => by rw [eval]; exact nameVal_P hP hS hM hl he h
  | .const x, _, k, h => by rw [eval]; exact orRaise_P hP fun _ _ => h _ (hS.data _)
  | .attr e a, he, k, h => by
    rw [eval]
    exact eval_P hP hS hM hl e he.1 _ fun v hv => attrVal_P hP hS hM hv he.2 h
  | .call f args kws, he, k, h => by
    rw [eval]
    exact eval_P hP hS hM hl f he.1 _ fun v hv => evalAll_P hP hS hM hl args he.2.1 _ fun vs hvs =>
      evalKws_P hP hS hM hl kws he.2.2 _ fun ks hks => callVal_P hP hS hM hv hvs hks h
  | .sub e i, he, k, h => by
    rw [eval]
    exact eval_P hP hS hM hl e he.1 _ fun v hv => eval_P hP hS hM hl i he.2 _ fun _ _ => subVal_P hP hS h
  | .op o args, he, k, h => by
    rw [eval]
    exact evalAll_P hP hS hM hl args he _ fun vs _ => asDatas_P hP fun _ => orRaise_P hP fun _ _ => h _ (hS.data _)
  | .bool b args, he, k, h => by
    rw [eval]
    exact evalBool_P hP hS hM hl b args he k h
  | .cond t a b, he, k, h => by
    rw [eval]
    refine eval_P hP hS hM hl t he.1 _ fun v hv => asData_P hP fun d => ?_
    split
    · exact eval_P hP hS hM hl a he.2.1 k h
    · exact eval_P hP hS hM hl b he.2.2 k h
theorem evalAll_P (hP : Closed P ok) (hS : Allows N A S ok) (hM : Good P N A S M c) {l : Locals} (hl : SafeLocals S l) :
    ∀ (es : List Expr), exprsAll N A es → ∀ (k : List Val → Prog), (∀ vs, (∀ v ∈ vs, S v) → P (k vs)) →
      P (evalAll M c l es k)
  | [], _, k, h => by rw [evalAll]; exact h [] (by simp)
  | e :: es, he, k, h => by
    rw [evalAll]
    refine eval_P hP hS hM hl e he.1 _ fun v hv => evalAll_P hP hS hM hl es he.2 _ fun vs hvs => h _ ?_
    simp only [List.mem_cons, forall_eq_or_imp]
    exact ⟨hv, hvs⟩
theorem evalKws_P (hP : Closed P ok) (hS : Allows N A S ok) (hM : Good P N A S M c) {l : Locals} (hl : SafeLocals S l) :
    ∀ (es : List (Str × Expr)), kwsAll N A es → ∀ (k : List (Str × Val) → Prog),
      (∀ vs, (∀ q ∈ vs, S q.2) → P (k vs)) → P (evalKws M c l es k)
  | [], _, k, h => by rw [evalKws]; exact h [] (by simp)
  | (x, e) :: es, he, k, h => by
    rw [evalKws]
    refine eval_P hP hS hM hl e he.1 _ fun v hv => evalKws_P hP hS hM hl es he.2 _ fun vs hvs => h _ ?_
    simp only [List.mem_cons, forall_eq_or_imp]
    exact ⟨hv, hvs⟩
theorem evalBool_P (hP : Closed P ok) (hS : Allows N A S ok) (hM : Good P N A S M c) {l : Locals} (hl : SafeLocals S l) (b : Bool) :
    ∀ (es : List Expr), exprsAll N A es → ∀ (k : Val → Prog), (∀ v, S v → P (k v)) → P (evalBool M c l b es k)
  | [], _, k, h => by rw [evalBool]; exact h _ (hS.data _)
  | [e], he, k, h => by
    rw [evalBool]
    exact eval_P hP hS hM hl e he.1 k h
  | e :: e' :: es, he, k, h => by
    rw [evalBool]
    · refine eval_P hP hS hM hl e he.1 _ fun v hv => asData_P hP fun d => ?_
      split
      · exact evalBool_P hP hS hM hl b (e' :: es) he.2 k h
      · exact h v hv
    · intro h; cases h
end

theorem tick_P (hP : Closed P ok) (hS : Allows N A S ok) {s : Stmt} {k : Prog} (h : P k) : P (tick M c s k) :=
  hP.act (hS.line _ _ _) fun _ => h

/-- Continuations of statements. -/
def SafeCont (P : Prog → Prop) (S : Val → Prop) (k : Flow → Locals → Prog) : Prop :=
  ∀ f l, SafeFlow S f → SafeLocals S l → P (k f l)

theorem afterRound_P {k : Flow → Locals → Prog} {again : Locals → Prog} (hk : SafeCont P S k)
    (ha : ∀ l, SafeLocals S l → P (again l)) : SafeCont P S (afterRound k again) := by
  intro f l hf hl
  cases f with
  | next => exact ha l hl
  | ret v => exact hk (.ret v) l hf hl
  | «break» => exact hk .next l trivial hl
  | «continue» => exact ha l hl

theorem whileLoop_P (hP : Closed P ok) {out : PyErr} {round : Locals → (Flow → Locals → Prog) → Prog → Prog}
    (hr : ∀ l next done, SafeLocals S l → SafeCont P S next → P done → P (round l next done)) {k : Flow → Locals → Prog}
    (hk : SafeCont P S k) : ∀ (n : Nat) (l : Locals), SafeLocals S l → P (whileLoop out round n l k)
  | 0, _, _ => hP.raise _
  | n + 1, l, hl => hr l _ _ hl (afterRound_P hk fun l hl => whileLoop_P hP hr hk n l hl) (hk .next l trivial hl)

theorem forLoop_P {round : PyVal → Locals → (Flow → Locals → Prog) → Prog} {done : Prog → Prog}
    (hr : ∀ v l next, SafeLocals S l → SafeCont P S next → P (round v l next)) (hd : ∀ p, P p → P (done p))
    {k : Flow → Locals → Prog} (hk : SafeCont P S k) : ∀ (vs : List PyVal) (l : Locals), SafeLocals S l → P (forLoop round done vs l k)
  | [], l, hl => hd _ (hk .next l trivial hl)
  | v :: vs, l, hl => hr v l _ hl (afterRound_P hk fun l hl => forLoop_P hr hd hk vs l hl)

mutual
theorem exec_P (hP : Closed P ok) (hS : Allows N A S ok) (hM : Good P N A S M c) : ∀ (s : Stmt), s.All N A →
    ∀ (l : Locals) (k : Flow → Locals → Prog), SafeLocals S l → SafeCont P S k → P (exec M c s l k)
  | .assign x e, hs, l, k, hl, hk => by
    rw [exec]
    exact tick_P hP hS (eval_P hP hS hM hl e hs.2 _ fun v hv => hk _ _ trivial (hl.set hv))
  | .assignSub e i v, hs, l, k, hl, hk => by
    rw [exec]
    exact tick_P hP hS (eval_P hP hS hM hl v hs.2.2 _ fun _ _ => eval_P hP hS hM hl e hs.1 _ fun o ho =>
      eval_P hP hS hM hl i hs.2.1 _ fun _ _ => storeVal_P hP hS ho (hk _ _ trivial hl))
  | .aug op x e, hs, l, k, hl, hk => by
    rw [exec]
    exact tick_P hP hS (nameVal_P hP hS hM hl hs.1 fun _ _ => eval_P hP hS hM hl e hs.2 _ fun _ _ => asDatas_P hP fun _ =>
      orRaise_P hP fun _ _ => hk _ _ trivial (hl.set (hS.data _)))
  | .augSub op e i v, hs, l, k, hl, hk => by
    rw [exec]
    exact tick_P hP hS (eval_P hP hS hM hl e hs.1 _ fun o ho => eval_P hP hS hM hl i hs.2.1 _ fun _ _ =>
      subVal_P hP hS fun _ _ => eval_P hP hS hM hl v hs.2.2 _ fun _ _ => asDatas_P hP fun _ =>
      orRaise_P hP fun _ _ => storeVal_P hP hS ho (hk _ _ trivial hl))
  | .expr e, hs, l, k, hl, hk => by
    rw [exec]
    exact tick_P hP hS (eval_P hP hS hM hl e hs _ fun _ _ => hk _ _ trivial hl)
  | .assert t m, hs, l, k, hl, hk => by
    rw [exec]
    refine tick_P hP hS (eval_P hP hS hM hl t hs.1 _ fun _ _ => asData_P hP fun d => ?_)
    split
    · exact hk _ _ trivial hl
    · exact evalAll_P hP hS hM hl m hs.2 _ fun _ _ => hP.raise _
  | .ite t b o, hs, l, k, hl, hk => by
    rw [exec]
    refine tick_P hP hS (eval_P hP hS hM hl t hs.1 _ fun _ _ => asData_P hP fun d => ?_)
    split
    · exact execAll_P hP hS hM b hs.2.1 l k hl hk
    · exact execAll_P hP hS hM o hs.2.2 l k hl hk
  | .while t b, hs, l, k, hl, hk => by
    rw [exec]
    refine whileLoop_P hP (fun l next done hl hn hd => ?_) hk _ l hl
    refine tick_P hP hS (eval_P hP hS hM hl t hs.1 _ fun _ _ => asData_P hP fun d => ?_)
    split
    · exact execAll_P hP hS hM b hs.2 l next hl hn
    · exact hd
  | .for x it b, hs, l, k, hl, hk => by
    rw [exec]
    refine tick_P hP hS (eval_P hP hS hM hl it hs.2.1 _ fun _ _ => asData_P hP fun d => orRaise_P hP fun vs _ => ?_)
    exact forLoop_P (fun v l next hl hn => tick_P hP hS (execAll_P hP hS hM b hs.2.2 _ next (hl.set (hS.data _)) hn))
      (fun p hp => tick_P hP hS hp) hk vs l hl
  | .ret es, hs, l, k, hl, hk => by
    rw [exec]
    refine tick_P hP hS (evalAll_P hP hS hM hl es hs _ fun vs hvs => hk _ _ ?_ hl)
    cases vs with
    | nil => exact hS.data _
    | cons v vs => exact hvs v (by simp)
  | .pass, _, l, k, hl, hk => by rw [exec]; exact tick_P hP hS (hk _ _ trivial hl)
  | .break, _, l, k, hl, hk => by rw [exec]; exact tick_P hP hS (hk _ _ trivial hl)
  | .continue, _, l, k, hl, hk => by rw [exec]; exact tick_P hP hS (hk _ _ trivial hl)
theorem execAll_P (hP : Closed P ok) (hS : Allows N A S ok) (hM : Good P N A S M c) : ∀ (ss : List Stmt), stmtsAll N A ss →
    ∀ (l : Locals) (k : Flow → Locals → Prog), SafeLocals S l → SafeCont P S k → P (execAll M c ss l k)
  | [], _, l, k, hl, hk => by rw [execAll]; exact hk _ _ trivial hl
  | s :: ss, hs, l, k, hl, hk => by
    rw [execAll]
    refine exec_P hP hS hM s hs.1 l _ hl fun f l hf hl => ?_
    cases f with
    | next => exact execAll_P hP hS hM ss hs.2 l k hl hk
    | ret v => exact hk (.ret v) l hf hl
    | «break» => exact hk .break l hf hl
    | «continue» => exact hk .continue l hf hl
end

end

/-! ### Modules -/

/-- The log events that modules declare are in `S`. -/
def EventsIn (S : Val → Prop) (C : Chain) : Prop :=
  ∀ c m x cls kws e ps, C.code c = some m → Top.decl x cls kws ∈ m → declVal C.D (m.map Top.bound) cls kws = .ok (.event e ps) →
    S (.event e ps)

/-- The chain is good for `P`: names in `N` and attributes in `A` stand for values in `S`, calls keep `P`. The code of
the contracts `runs` is what has the property, other contracts are only called through exported functions. -/
structure Ready (P : Prog → Prop) (N A : Str → Prop) (S : Val → Prop) (C : Chain) (runs : Str → Prop) : Prop where
  attrs : ∀ a, A a → N a
  events : EventsIn S C
  global : ∀ c id v, runs c → N id → C.global c id = some (.ok v) → S v
  member : ∀ c a v, A a → C.global c a = some (.ok v) → S v
  code : ∀ c m f, runs c → C.code c = some m → f ∈ funs m → exprsAll N A f.defaults ∧ stmtsAll N A f.body
  plain : ∀ c m i f, ¬ runs c → C.code c = some m → (funs m)[i]? = some f → S (.fn c i) → ∃ w d, f.deco = .wrapped w d
  call : ∀ {c m i f w d n vs ks} {k : PyVal → Prog}, C.code c = some m → (funs m)[i]? = some f → f.deco = .wrapped w d →
    C.systemWrapper c w = true → S (.fn c i) → (∀ v ∈ vs, S v) → (∀ q ∈ ks, S q.2) →
    (runs c → P (C.body n c m f vs ks)) → (∀ v, P (k v)) → P (.call d (C.body n c m f vs ks) fun r => orRaise r k)

section
variable {P : Prog → Prop} {ok : Action → Prop} {N A : Str → Prop} {S : Val → Prop} {C : Chain} {runs : Str → Prop}

theorem bind_ok {α β : Type} {x : Except PyErr α} {f : α → Except PyErr β} {b : β} (h : x.bind f = .ok b) :
    ∃ a, x = .ok a ∧ f a = .ok b := by
  cases x with
  | ok a => exact ⟨a, rfl, h⟩
  | error e => cases h

theorem map_ok {α β : Type} {x : Except PyErr α} {f : α → β} {b : β} (h : x.map f = .ok b) : ∃ a, x = .ok a ∧ f a = b := by
  cases x with
  | ok a => cases h; exact ⟨a, rfl, rfl⟩
  | error e => cases h

theorem pureVal_S (hS : Allows N A S ok) {D : Data} {own : List Str} {e : Expr} {v : Val} (he : e.All N A)
    (h : pureVal D own e = .ok v) : S v := by
  unfold pureVal at h
  split at h
  · obtain ⟨x, _, rfl⟩ := map_ok h
    exact hS.data _
  · split at h
    · obtain ⟨x, _, rfl⟩ := map_ok h
      exact hS.data _
    · cases h
  · split at h
    · cases h
    split at h
    · rename_i hm
      cases h
      exact hS.cls he (by simpa using hm)
    split at h
    · cases h
      exact hS.sys _
    · cases h
  · split at h
    · cases h
      exact hS.sys _
    · cases h
  · obtain ⟨x, _, rfl⟩ := map_ok h
    exact hS.params _
  · cases h

theorem pureVals_S (hS : Allows N A S ok) {D : Data} {own : List Str} : ∀ {es : List Expr} {vs : List Val}, exprsAll N A es →
    pureVals D own es = .ok vs → ∀ v ∈ vs, S v
  | [], vs, _, h => by cases h; simp
  | e :: es, vs, he, h => by
    obtain ⟨x, hx, h⟩ := bind_ok h
    obtain ⟨y, hy, h⟩ := bind_ok h
    cases h
    simp only [List.mem_cons, forall_eq_or_imp]
    exact ⟨pureVal_S hS he.1 hx, pureVals_S hS he.2 hy⟩

theorem fillArgs_S {ks ds : List (Str × Val)} (hk : ∀ q ∈ ks, S q.2) (hd : ∀ q ∈ ds, S q.2) : ∀ {ps : List Str} {r : List (Str × Val)},
    fillArgs ks ds ps = .ok r → ∀ q ∈ r, S q.2
  | [], r, h => by cases h; simp
  | p :: ps, r, h => by
    simp only [fillArgs] at h
    split at h
    · cases h
    · rename_i v hv
      obtain ⟨r', hr, rfl⟩ := map_ok h
      simp only [List.mem_cons, forall_eq_or_imp]
      refine ⟨?_, fillArgs_S hk hd hr⟩
      cases hg : Dict.get? ks p with
      | some u =>
        rw [hg] at hv
        cases hv
        exact hk _ (Dict.get?_mem' hg)
      | none =>
        rw [hg] at hv
        exact hd _ (Dict.get?_mem' hv)

theorem bindArgs_S {ps : List Str} {ds : List (Str × Val)} {vs : List Val} {ks b : List (Str × Val)} (hd : ∀ q ∈ ds, S q.2)
    (hv : ∀ v ∈ vs, S v) (hk : ∀ q ∈ ks, S q.2) (h : bindArgs ps ds vs ks = .ok b) : ∀ q ∈ b, S q.2 := by
  unfold bindArgs at h
  split at h
  · cases h
  split at h
  · obtain ⟨r, hr, rfl⟩ := map_ok h
    intro q hq
    rcases List.mem_append.1 hq with hq | hq
    · exact hv _ (List.of_mem_zip hq).2
    · exact fillArgs_S hk hd hr q hq
  · cases h

theorem Fun.start_S (hS : Allows N A S ok) {D : Data} {own : List Str} {f : Fun} (hf : exprsAll N A f.defaults) {vs : List Val}
    {ks : List (Str × Val)} (hv : ∀ v ∈ vs, S v) (hk : ∀ q ∈ ks, S q.2) {l : Locals} (h : f.start D own vs ks = .ok l) : SafeLocals S l := by
  obtain ⟨ds, hd, h⟩ := bind_ok h
  obtain ⟨b, hb, h⟩ := bind_ok h
  cases h
  obtain ⟨us, hu, rfl⟩ := map_ok hd
  refine bindArgs_S ?_ hv hk hb
  intro q hq
  exact pureVals_S hS hf hu _ (List.of_mem_zip hq).2

theorem Fun.start_names {D : Data} {own : List Str} {f : Fun} {vs : List Val} {ks : List (Str × Val)} {l : Locals}
    (h : f.start D own vs ks = .ok l) : l.names = f.args.map Prod.fst ++ boundAll f.body := by
  obtain ⟨ds, hd, h⟩ := bind_ok h
  obtain ⟨b, hb, h⟩ := bind_ok h
  cases h
  rfl

theorem topProg_P (hP : Closed P ok) (hS : Allows N A S ok) {load : Str → Prog} (hl : ∀ c, P (load c)) {D : Data} {own : List Str}
    {cost : Top → Nat × Nat} : ∀ m, (∀ x cls kws e ps, Top.decl x cls kws ∈ m → declVal D own cls kws = .ok (.event e ps) → S (.event e ps)) →
      P (topProg load D own cost m)
  | [], _ => hP.ret _
  | t :: m, he => by
    refine hP.act (hS.line _ _ _) fun _ => ?_
    have := topProg_P hP hS hl (D := D) (own := own) (cost := cost) m fun x cls kws e ps h => he x cls kws e ps (List.mem_cons_of_mem _ h)
    cases t with
    | «import» n a => exact hP.load (hl n) fun _ => this
    | decl x cls kws => exact orRaise_P hP fun v hv => built_P hP hS (fun e ps h => he x cls kws e ps List.mem_cons_self (h ▸ hv)) this
    | assign x e => exact orRaise_P hP fun _ _ => this
    | «def» f => exact orRaise_P hP fun _ _ => this

theorem Chain.top_P (hP : Closed P ok) (hS : Allows N A S ok) (hE : EventsIn S C) : ∀ (n : Nat) (c : Str), P (C.top n c)
  | 0, _ => hP.raise _
  | n + 1, c => by
    rw [Chain.top]
    split
    · exact hP.raise _
    · rename_i m hm
      exact topProg_P hP hS (fun c => Chain.top_P hP hS hE n c) m fun x cls kws e ps => hE c m x cls kws e ps hm

mutual
theorem Chain.call_P (hP : Closed P ok) (hS : Allows N A S ok) (hC : Ready P N A S C runs) :
    ∀ (n : Nat) (c : Str) (i : Nat) (vs : List Val) (ks : List (Str × Val)) (k : Val → Prog), S (.fn c i) → (∀ v ∈ vs, S v) →
      (∀ q ∈ ks, S q.2) → (∀ v, S v → P (k v)) → P (C.call n c i vs ks k)
  | 0, _, _, _, _, _, _, _, _, _ => hP.raise _
  | n + 1, c, i, vs, ks, k, hs, hv, hk, h => by
    rw [Chain.call]
    split
    · exact hP.raise _
    rename_i m hm
    split
    · exact hP.raise _
    rename_i f hf
    simp only
    have hmem : f ∈ funs m := List.mem_of_getElem? hf
    split
    · rename_i w d hd
      split
      · rename_i hw
        exact hC.call (n := n) hm hf hd hw hs hv hk
          (fun hr => Chain.body_P hP hS hC n c m f vs ks hr hm hmem hv hk)
          (fun v => h _ (hS.data v))
      · exact hP.raise _
    · rename_i hd
      have hr : runs c := by
        by_cases hr : runs c
        · exact hr
        · obtain ⟨w, d, e⟩ := hC.plain c m i f hr hm hf hs
          exact (hd w d e).elim
      obtain ⟨h1, h2⟩ := hC.code c m f hr hm hmem
      refine orRaise_P hP fun l hl => ?_
      refine execAll_P hP hS (Chain.machine_good hP hS hC n c hr) f.body h2 l _ (Fun.start_S hS h1 hv hk hl) ?_
      intro fl l' hf _
      refine h _ ?_
      cases fl with
      | ret v => exact hf
      | _ => exact hS.data _
theorem Chain.machine_good (hP : Closed P ok) (hS : Allows N A S ok) (hC : Ready P N A S C runs) (n : Nat) (c : Str) (hr : runs c) :
    Good P N A S (C.machine n) c where
  attrs := hC.attrs
  global := fun id v hi hg => hC.global c id v hr hi hg
  member := hC.member
  call := Chain.call_P hP hS hC n
  top := Chain.top_P hP hS hC.events n
theorem Chain.body_P (hP : Closed P ok) (hS : Allows N A S ok) (hC : Ready P N A S C runs) (n : Nat) (c : Str) (m : Module) (f : Fun)
    (vs : List Val) (ks : List (Str × Val)) (hr : runs c) (hm : C.code c = some m) (hf : f ∈ funs m) (hv : ∀ v ∈ vs, S v)
    (hk : ∀ q ∈ ks, S q.2) : P (C.body n c m f vs ks) := by
  obtain ⟨h1, h2⟩ := hC.code c m f hr hm hf
  refine orRaise_P hP fun l hl => ?_
  refine execAll_P hP hS (Chain.machine_good hP hS hC n c hr) f.body h2 l _ (Fun.start_S hS h1 hv hk hl) ?_
  intro fl l' _ _
  exact asData_P hP fun d => hP.ret d
end

end

end Verif.Lang
