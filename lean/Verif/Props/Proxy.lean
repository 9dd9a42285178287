import Verif.Model.Proxy
import Verif.Props.Client
import Verif.Props.Interface
/-!
# C80: calling contracts through the client
-/
namespace Verif
open Spec

/-! ## Which callables there are -/

theorem proxyFuncs_mem (t : Ast) (f : Str) (ps : List Str) :
    (f, ps) ∈ proxyFuncs t ↔ ∃ fn ∈ functions t, fn.name = f ∧ argNames fn.args = ps := by
  unfold proxyFuncs functions
  rw [List.mem_filterMap]
  constructor
  · rintro ⟨n, hn, h⟩
    have hn := (walk_nodes t).mem_iff.1 hn
    cases n with
    | functionDef nm as os b ds rs =>
      simp only [Option.some.injEq, Prod.mk.injEq] at h
      obtain ⟨rfl, rfl⟩ := h
      refine ⟨⟨nm, as, ds, rs⟩, List.mem_filterMap.2 ⟨_, hn, rfl⟩, rfl, ?_⟩
      rw [argName_eq]; rfl
    | _ => cases h
  · rintro ⟨fn, hf, rfl, rfl⟩
    obtain ⟨n, hn, h⟩ := List.mem_filterMap.1 hf
    cases n with
    | functionDef nm as os b ds rs =>
      cases h
      refine ⟨_, (walk_nodes t).mem_iff.2 hn, ?_⟩
      simp only [argName_eq]; rfl
    | _ => cases h

theorem makeProxies_error {e : PyErr} : ∀ {fs : List (Str × List Str)} {d : Dict Str (List Str)},
    makeProxies d fs = .error e ↔ e = .typeError ∧ ∃ p ∈ fs, ∃ x ∈ p.2, x ∈ proxyKeywords
  | [], d => by simp [makeProxies]
  | (f, ps) :: fs, d => by
    rw [makeProxies]
    by_cases h : (ps.any (proxyKeywords.contains ·)) = true
    · rw [if_pos h]
      have : ∃ x ∈ ps, x ∈ proxyKeywords := by simpa using h
      simp only [Except.error.injEq, List.mem_cons, exists_eq_or_imp, this, true_or, and_true]
      exact eq_comm
    · rw [if_neg h, makeProxies_error]
      have : ¬ ∃ x ∈ ps, x ∈ proxyKeywords := by simpa using h
      simp only [List.mem_cons, exists_eq_or_imp, this, false_or]

theorem makeProxies_get {f : Str} {ps : List Str} : ∀ {fs : List (Str × List Str)} {d d' : Dict Str (List Str)},
    makeProxies d fs = .ok d' → (Dict.get? d' f = some ps →
      (f, ps) ∈ fs ∨ ((∀ qs, (f, qs) ∉ fs) ∧ Dict.get? d f = some ps))
  | [], d, d', h, hg => by cases h; exact .inr ⟨by simp, hg⟩
  | (g, qs) :: fs, d, d', h, hg => by
    rw [makeProxies] at h
    split at h
    · cases h
    · rcases makeProxies_get h hg with h1 | ⟨h1, h2⟩
      · exact .inl (List.mem_cons_of_mem _ h1)
      · rw [Dict.get?_set] at h2
        by_cases hgf : g = f
        · subst hgf
          simp at h2
          subst h2
          exact .inl List.mem_cons_self
        · rw [if_neg hgf] at h2
          refine .inr ⟨?_, h2⟩
          intro r hr
          rcases List.mem_cons.1 hr with e | hr
          · cases e; exact hgf rfl
          · exact h1 r hr

theorem makeProxies_some {f : Str} : ∀ {fs : List (Str × List Str)} {d d' : Dict Str (List Str)},
    makeProxies d fs = .ok d' → ((∃ ps, (f, ps) ∈ fs) ∨ (Dict.get? d f).isSome = true) → (Dict.get? d' f).isSome = true
  | [], d, d', h, hg => by
    cases h
    rcases hg with ⟨_, h⟩ | h
    · cases h
    · exact h
  | (g, qs) :: fs, d, d', h, hg => by
    rw [makeProxies] at h
    split at h
    · cases h
    · refine makeProxies_some h ?_
      rcases hg with ⟨ps, hm⟩ | hg
      · rcases List.mem_cons.1 hm with e | hm
        · cases e; exact .inr (by simp)
        · exact .inl ⟨ps, hm⟩
      · refine .inr ?_
        rw [Dict.get?_set]
        split
        · rfl
        · exact hg

/-- C80, when it fails. For the stored (compiled) code of an accepted contract, `get_contract` raises exactly if some
function, exported or not, has a parameter named `signer`, `contract_name`, `executor`, `func` or
`return_full_output`; the error is `TypeError`. -/
theorem C80_raises {I : PyInfo} {c : Str} {t t' : Ast} (h : t.compile I c = .ok t') (e : PyErr) :
    getContract t' = .error e ↔ e = .typeError ∧
      ∃ f ∈ functions t, ∃ x ∈ argNames f.args, x ∈ [py! "signer", py! "contract_name", py! "executor", py! "func", py! "return_full_output"] := by
  obtain ⟨w, _, hc⟩ := C42_functions h
  unfold getContract
  rw [makeProxies_error]
  refine and_congr_right fun _ => ⟨?_, ?_⟩
  · rintro ⟨⟨f, ps⟩, hp, x, hx, hk⟩
    obtain ⟨fn, hf, rfl, rfl⟩ := (proxyFuncs_mem _ _ _).1 hp
    obtain ⟨f0, hf0, hr⟩ := forall₂_left hc fn hf
    exact ⟨f0, hf0, x, hr.1 ▸ hx, hk⟩
  · rintro ⟨f0, hf0, x, hx, hk⟩
    obtain ⟨fn, hf, hr⟩ := forall₂_right hc f0 hf0
    exact ⟨(fn.name, argNames fn.args), (proxyFuncs_mem _ _ _).2 ⟨fn, hf, rfl, rfl⟩, x, hr.1.symm ▸ hx, hk⟩

/-- C80, the callables. For the stored code of an accepted contract, each exported function of the source is a callable
of the client object; a callable whose name does not start with `__` belongs to an exported function of that name and
passes the parameters of one such function. -/
theorem C80_callables {I : PyInfo} {c : Str} {t t' : Ast} (h : t.compile I c = .ok t') {d : Dict Str (List Str)} (hd : getContract t' = .ok d) :
    (∀ f ∈ functions t, f.Exported → ∃ ps, Dict.get? d f.name = some ps) ∧
    (∀ n ps, Dict.get? d n = some ps → n.take 2 ≠ py! "__" → ∃ f ∈ functions t, f.Exported ∧ f.name = n ∧ argNames f.args = ps) := by
  obtain ⟨w, _, hc⟩ := C42_functions h
  refine ⟨fun f hf he => ?_, fun n ps hg hn => ?_⟩
  · obtain ⟨fn, hfn, hr⟩ := forall₂_right hc f hf
    have hname : fn.name = f.name := by
      rcases hr.2 with ⟨_, e, _⟩ | ⟨e, _⟩ | ⟨e, _⟩
      · exact e
      · rw [Fn.Exported, e] at he; simp at he
      · rw [Fn.Exported, e] at he; cases he
    have := makeProxies_some hd (f := f.name) (.inl ⟨argNames fn.args, (proxyFuncs_mem _ _ _).2 ⟨fn, hfn, hname, rfl⟩⟩)
    exact Option.isSome_iff_exists.1 this
  · rcases makeProxies_get hd hg with hm | ⟨_, hm⟩
    · obtain ⟨fn, hfn, rfl, rfl⟩ := (proxyFuncs_mem _ _ _).1 hm
      obtain ⟨f, hf, hr⟩ := forall₂_left hc fn hfn
      rcases hr.2 with ⟨he, e, _⟩ | ⟨_, e, _⟩ | ⟨_, e, _⟩
      · exact ⟨f, hf, he, e.symm, hr.1.symm⟩
      · exact absurd (by rw [e]; rfl) hn
      · exact absurd (by rw [e]; rfl) hn
    · cases hm

/-- C80, the example: `put` passes `key` and `at`; there are callables for the private function and the constructor
too (the executor refuses those). -/
example : getContract AstDemo.token' = .ok [(py! "____", []), (py! "put", [py! "key", py! "at"]), (py! "__helper", [py! "key"])] := by
  decide +kernel

/-! ## What a call passes -/

/-- What a client call passes for a keyword: the value given, else `None` if it is a parameter of the function. -/
def Spec.ClientPasses (params : List Str) (given : Dict Str PyVal) (k : Str) : Option PyVal :=
  match Dict.get? given k with
  | some v => some v
  | none => if k ∈ params then some .none else none

theorem get?_update_val {k : Str} : ∀ (e d : Dict Str PyVal), (Dict.keys e).Nodup →
    Dict.get? (Dict.update d e) k = (match Dict.get? e k with | some v => some v | none => Dict.get? d k)
  | [], d, _ => rfl
  | (k', v) :: e, d, hn => by
    have step : Dict.update d ((k', v) :: e) = Dict.update (Dict.set d k' v) e := rfl
    have hn' : k' ∉ Dict.keys e ∧ (Dict.keys e).Nodup := List.nodup_cons.1 hn
    rw [step, get?_update_val e _ hn'.2, Dict.get?_cons, Dict.get?_set]
    by_cases hk : k' = k
    · subst hk
      have : Dict.get? e k' = none := Dict.get?_eq_none_iff.2 hn'.1
      simp [this]
    · simp [hk]

theorem get?_params {k : Str} : ∀ (ps : List Str), Dict.get? (ps.map fun p => (p, PyVal.none)) k = if k ∈ ps then some .none else none
  | [] => rfl
  | p :: ps => by
    rw [List.map_cons, Dict.get?_cons, get?_params ps]
    by_cases h : p = k
    · simp [h]
    · have : k ≠ p := fun e => h e.symm
      simp [h, this]

theorem filter_params {params : List Str} (hp : ∀ p ∈ params, p ∉ callKeywords) :
    (params.filter fun p => !callKeywords.contains p) = params := by
  rw [List.filter_eq_self]
  intro p h
  simp [hp p h]

theorem get?_fillNow (env : Dict Str PyVal) (now clock : PyVal) {k : Str} (hk : k ≠ py! "now") :
    Dict.get? (fillNow env now clock) k = Dict.get? env k := by
  unfold fillNow
  split
  · rw [Dict.get?_set_ne _ _ (Ne.symm hk)]
  · rfl

/-- C80. Let no parameter of the function be named `self`, `environment`, `stamps`, `metering` or `now` (nor, see
`C80_raises`, like a keyword of the proxy). Then a call `contract.f(**given)` is exactly one transaction: of this
contract, this function and the given signer, else the client's; for every keyword it passes the value given, and
`None` for each parameter of the function that was not given. The outcome is that of the transaction; the process is
left as the transaction leaves it. -/
theorem C80_call (H : Host) (c : Client) (hpr : c.production = false) (f : Str) (params : List Str) (g : Given) (clock : PyVal) (code : Code)
    (hs : py! "self" ∉ params) (hp : ∀ p ∈ params, p ∉ [py! "environment", py! "stamps", py! "metering", py! "now"])
    (hg : (Dict.keys g.kwargs).Nodup) :
    ∃ tx : Tx, tx.sender = g.signer.getD c.signer ∧ tx.contract = c.name ∧ tx.function = f ∧ tx.code = code ∧
      tx.stamps = g.stamps.getD 1000000 ∧ tx.metering = g.metering ∧ tx.autoCommit = false ∧
      (∀ k, Dict.get? tx.kwargs k = Spec.ClientPasses params g.kwargs k) ∧
      (∀ k, k ≠ py! "now" → Dict.get? tx.environment k = Dict.get? (if g.environment = [] then c.environment else g.environment) k) ∧
      (c.proxyCall H f params g clock code).2.world = (execute H c.cfg tx c.world).2 ∧
      (c.proxyCall H f params g clock code).1 =
        (match (execute H c.cfg tx c.world).1 with | .error e => .error e | .ok o => o.result) := by
  have hst : py! "stamps" ∉ params := fun hm => hp _ hm (by decide)
  have hb : bindCall c f params g clock code = .ok
      { func := f, signer := g.signer.getD c.signer, env := g.environment, stamps := g.stamps.getD 1000000, metering := g.metering,
        now := g.now, clock := clock, code := code, kwargs := Dict.update (params.map fun p => (p, .none)) g.kwargs } := by
    unfold bindCall
    rw [if_neg (by simp [hs, hst]), filter_params hp]
  refine ⟨{ sender := g.signer.getD c.signer, contract := c.name, function := f,
            kwargs := Dict.update (params.map fun p => (p, .none)) g.kwargs,
            environment := fillNow (if g.environment.length = 0 then c.environment else g.environment) g.now clock,
            stamps := g.stamps.getD 1000000, metering := g.metering, code := code }, rfl, rfl, rfl, rfl, rfl, rfl, rfl, ?_, ?_, ?_, ?_⟩
  · intro k
    rw [get?_update_val _ _ hg, get?_params]
    rfl
  · intro k hk
    simp only [get?_fillNow _ _ _ hk, List.length_eq_zero_iff]
  · unfold Client.proxyCall
    rw [hb]
    simp only [Client.call]
    split
    · rename_i e w he
      by_cases ho : g.environment.length = 0 <;> simp_all
    · rename_i o w he
      by_cases ho : g.environment.length = 0 <;> simp_all
  · unfold Client.proxyCall
    rw [hb]
    simp only [Client.call]
    split
    · rename_i e w he
      by_cases ho : g.environment.length = 0 <;> simp_all
    · rename_i o w he
      by_cases ho : g.environment.length = 0 <;> simp_all

/-- A transaction depends on the function called only through what it does for the arguments passed. -/
theorem execute_congr (H : Host) (cfg : ExecCfg) (tx : Tx) (w : World) (top : Prog) (ex : Bool) (b b' : Dict Str PyVal → Prog)
    (hb : ∀ kw, fixKwargs tx.kwargs = .ok kw → b kw = b' kw) :
    execute H cfg { tx with code := { top := top, fn := some (ex, b) } } w =
    execute H cfg { tx with code := { top := top, fn := some (ex, b') } } w := by
  have hi : ∀ m host w, invoke H { tx with code := { top := top, fn := some (ex, b) } } m host w =
      invoke H { tx with code := { top := top, fn := some (ex, b') } } m host w := by
    intro m host w
    cases host with
    | true => rfl
    | false =>
      simp only [invoke, Bool.false_eq_true, if_false]
      cases hk : fixKwargs tx.kwargs with
      | error e => rfl
      | ok kw =>
        simp only [callEntry, hb kw hk]
        rfl
  have ha : ∀ m w, attempt H cfg { tx with code := { top := top, fn := some (ex, b) } } m w =
      attempt H cfg { tx with code := { top := top, fn := some (ex, b') } } m w := by
    intro m w
    unfold attempt
    simp only [hi]
    rfl
  unfold execute
  simp only [tryBlock, ha]
  rfl

theorem fixKwargs_keys : ∀ {kw kw' : Dict Str PyVal}, fixKwargs kw = .ok kw' → Dict.keys kw' = Dict.keys kw
  | [], kw', h => by cases h; rfl
  | (k, v) :: kw, kw', h => by
    rw [fixKwargs] at h
    cases hv : normValue v with
    | error e => rw [hv] at h; cases h
    | ok v' =>
      cases hr : fixKwargs kw with
      | error e => rw [hv, hr] at h; cases h
      | ok r =>
        rw [hv, hr] at h
        cases h
        show k :: Dict.keys r = k :: Dict.keys kw
        rw [fixKwargs_keys hr]

/-- C80, defaults never apply: through the client, the default values of the parameters of a contract function make no
difference. -/
theorem C80_defaults (H : Host) (c : Client) (f : Str) (g : Given) (clock : PyVal) (top : Prog) (ex : Bool)
    (ps ps' : List (Str × Option PyVal)) (hps : ps.map Prod.fst = ps'.map Prod.fst) (body : Dict Str PyVal → Prog)
    (hp : ∀ p ∈ ps, p.1 ∉ [py! "environment", py! "stamps", py! "metering", py! "now"]) (hg : (Dict.keys g.kwargs).Nodup) :
    c.proxyCall H f (ps.map Prod.fst) g clock { top := top, fn := some (ex, bindParams ps body) } =
    c.proxyCall H f (ps.map Prod.fst) g clock { top := top, fn := some (ex, bindParams ps' body) } := by
  have hcode : ∀ code, bindCall c f (ps.map Prod.fst) g clock code =
      (bindCall c f (ps.map Prod.fst) g clock { top := top, fn := none }).map fun q => { q with code := code } := by
    intro code
    unfold bindCall
    split
    · rfl
    · rfl
  unfold Client.proxyCall
  rw [hcode { top := top, fn := some (ex, bindParams ps body) }, hcode { top := top, fn := some (ex, bindParams ps' body) }]
  cases hq : bindCall c f (ps.map Prod.fst) g clock { top := top, fn := none } with
  | error e => rfl
  | ok q =>
    have hkw : q.kwargs = Dict.update ((ps.map Prod.fst).map fun p => (p, .none)) g.kwargs := by
      unfold bindCall at hq
      split at hq
      · cases hq
      · cases hq
        show Dict.update (((ps.map Prod.fst).filter fun p => !callKeywords.contains p).map fun p => (p, PyVal.none)) g.kwargs = _
        rw [filter_params]
        intro p hm
        obtain ⟨r, hr, rfl⟩ := List.mem_map.1 hm
        exact hp r hr
    have same : ∀ kw, fixKwargs q.kwargs = .ok kw → bindParams ps body kw = bindParams ps' body kw := by
      intro kw hk
      have hall : ∀ x ∈ ps.map Prod.fst, (Dict.get? kw x).isSome = true := by
        intro x hx
        rw [Dict.get?_isSome_iff, fixKwargs_keys hk, ← Dict.get?_isSome_iff, hkw, get?_update_val _ _ hg, get?_params, if_pos hx]
        cases Dict.get? g.kwargs x <;> rfl
      have one : ∀ qs : List (Str × Option PyVal), qs.map Prod.fst = ps.map Prod.fst → bindParams qs body kw =
          if (Dict.keys kw).all ((ps.map Prod.fst).contains ·) then body ((ps.map Prod.fst).map fun n => (n, (Dict.get? kw n).getD .none)) else .raise .typeError := by
        intro qs hqs
        unfold bindParams
        have h2 : (qs.all fun p => p.2.isSome || (Dict.get? kw p.1).isSome) = true := by
          rw [List.all_eq_true]
          intro p hm
          rw [hall p.1 (hqs ▸ List.mem_map.2 ⟨p, hm, rfl⟩), Bool.or_true]
        have h3 : (qs.map fun p => (p.1, ((Dict.get? kw p.1).orElse fun _ => p.2).getD .none)) =
            (ps.map Prod.fst).map fun n => (n, (Dict.get? kw n).getD .none) := by
          rw [← hqs, List.map_map]
          refine List.map_congr_left fun p hm => ?_
          have := hall p.1 (hqs ▸ List.mem_map.2 ⟨p, hm, rfl⟩)
          obtain ⟨v, hv⟩ := Option.isSome_iff_exists.1 this
          simp [hv]
        rw [h2, hqs, Bool.and_true, h3]
      rw [one ps rfl, one ps' hps.symm]
    show Client.call H c _ = Client.call H c _
    unfold Client.call
    simp only
    have key := execute_congr H c.cfg
      { sender := q.signer, contract := c.name, function := q.func, kwargs := q.kwargs,
        environment := fillNow (if q.env.length = 0 then c.environment else q.env) q.now q.clock,
        stamps := q.stamps, metering := q.metering, code := { top := top, fn := none } } c.world top ex _ _ same
    by_cases ho : q.env.length = 0
    · simp only [ho, if_true] at key ⊢
      rw [key]
    · simp only [ho, if_false] at key ⊢
      rw [key]

/-- A contract function `def f(a, b=5): return b` called through the client. -/
def ClientDemo.withDefault : Code :=
  { top := .ret .none, fn := some (true, bindParams [(py! "a", none), (py! "b", some (.int 5))] fun args => .ret (dget args (py! "b"))) }

/-- The same transaction, given to the executor. -/
def ClientDemo.direct : Tx :=
  { sender := Demo.bob, contract := Demo.conA, function := py! "f", kwargs := [(py! "a", .int 1)],
    environment := [(py! "now", .int 1)], code := withDefault }

/-- C80, the difference: called through the client with `a` alone the function gets `None` for `b`; the same transaction
given to the executor gets the default. -/
theorem C80_refuted :
    (ClientDemo.client.proxyCall Demo.host (py! "f") [py! "a", py! "b"] { kwargs := [(py! "a", .int 1)] } (.int 1) ClientDemo.withDefault).1 =
      .ok .none ∧
    ((execute Demo.host ClientDemo.client.cfg ClientDemo.direct ClientDemo.client.world).1.map fun o => o.result) = .ok (.ok (.int 5)) := by decide +kernel

/-- C80, parameters that cannot be passed: a contract function with a parameter named `environment`, `stamps`, `metering` or
`now` without default cannot be run through the client: these keywords are for the client (so they are not among the
others, `hk`), and the call of the function is a `TypeError` whatever its body. -/
theorem C80_swallowed (H : Host) (c : Client) (f : Str) (g : Given) (clock : PyVal) (top : Prog) (ex : Bool)
    (ps : List (Str × Option PyVal)) {p : Str} (hm : (p, none) ∈ ps) (hp : p ∈ [py! "environment", py! "stamps", py! "metering", py! "now"])
    (hk : p ∉ Dict.keys g.kwargs) (hg : (Dict.keys g.kwargs).Nodup) (body : Dict Str PyVal → Prog) :
    c.proxyCall H f (ps.map Prod.fst) g clock { top := top, fn := some (ex, bindParams ps body) } =
    c.proxyCall H f (ps.map Prod.fst) g clock { top := top, fn := some (ex, fun _ => .raise .typeError) } := by
  have hcode : ∀ code, bindCall c f (ps.map Prod.fst) g clock code =
      (bindCall c f (ps.map Prod.fst) g clock { top := top, fn := none }).map fun q => { q with code := code } := by
    intro code
    unfold bindCall
    split <;> rfl
  unfold Client.proxyCall
  rw [hcode { top := top, fn := some (ex, bindParams ps body) }, hcode { top := top, fn := some (ex, fun _ => .raise .typeError) }]
  cases hq : bindCall c f (ps.map Prod.fst) g clock { top := top, fn := none } with
  | error e => rfl
  | ok q =>
    have hkw : q.kwargs = Dict.update (((ps.map Prod.fst).filter fun p => !callKeywords.contains p).map fun p => (p, .none)) g.kwargs := by
      unfold bindCall at hq
      split at hq
      · cases hq
      · cases hq; rfl
    have same : ∀ kw, fixKwargs q.kwargs = .ok kw → bindParams ps body kw = .raise .typeError := by
      intro kw hkk
      have hnone : Dict.get? kw p = none := by
        rw [Dict.get?_eq_none_iff, fixKwargs_keys hkk, ← Dict.get?_eq_none_iff, hkw, get?_update_val _ _ hg, Dict.get?_eq_none_iff.2 hk, get?_params,
          if_neg]
        intro hmem
        have := (List.mem_filter.1 hmem).2
        have hc : callKeywords.contains p = true := List.contains_iff_mem.2 hp
        rw [hc] at this
        cases this
      unfold bindParams
      rw [if_neg]
      intro hand
      rw [Bool.and_eq_true, List.all_eq_true, List.all_eq_true] at hand
      have := hand.2 _ hm
      rw [hnone] at this
      cases this
    show Client.call H c _ = Client.call H c _
    unfold Client.call
    simp only
    have key := execute_congr H c.cfg
      { sender := q.signer, contract := c.name, function := q.func, kwargs := q.kwargs,
        environment := fillNow (if q.env.length = 0 then c.environment else q.env) q.now q.clock,
        stamps := q.stamps, metering := q.metering, code := { top := top, fn := none } } c.world top ex (bindParams ps body)
        (fun _ => .raise .typeError) same
    by_cases ho : q.env.length = 0
    · simp only [ho, if_true] at key ⊢
      rw [key]
    · simp only [ho, if_false] at key ⊢
      rw [key]

/-- C80, the hypotheses are met and the call is a `TypeError`, even with `now` given. -/
example : (ClientDemo.client.proxyCall Demo.host (py! "f") [py! "now"] { now := .int 3 } (.int 1)
    { top := .ret .none, fn := some (true, bindParams [(py! "now", none)] fun args => .ret (dget args (py! "now"))) }).1 = .error .typeError := by
  decide +kernel

end Verif
