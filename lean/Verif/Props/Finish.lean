import Verif.Proofs.Finish2
import Verif.Spec.Finish
import Verif.Proofs.Node2
/-!
# Metered code finishes
-/
namespace Verif.Lang
open Verif

/-- Two codes that load alike and whose functions agree for more lines than may be traced. -/
structure Alike (a b : Code) : Prop where
  top : a.top = b.top
  fn : (a.fn = none ∧ b.fn = none) ∨ ∃ w f f', a.fn = some (w, f) ∧ b.fn = some (w, f') ∧ ∀ kw, Lockstep (maxCallCount + 1) (f kw) (f' kw)

theorem as_orRaise {k : Except PyErr PyVal → Prog} (h : ∀ e, k (.error e) = .raise e) : k = fun r => orRaise r fun v => k (.ok v) := by
  funext r
  cases r with
  | ok v => rfl
  | error e => exact h e

theorem call_agree' {b : Nat} {c : Str} {p p' : Prog} {k k' : Except PyErr PyVal → Prog} (hp : Lockstep b p p') (h : ∀ e, k (.error e) = .raise e)
    (h' : ∀ e, k' (.error e) = .raise e) (hk : ∀ v, Lockstep b (k (.ok v)) (k' (.ok v))) : Lockstep b (.call c p k) (.call c p' k') := by
  rw [as_orRaise h, as_orRaise h']
  exact .call hp hk

theorem callEntry_agree {H : Host} {tx : Tx} {code : Code} {kwargs : Dict Str PyVal} {wr : Bool} {f f' : Dict Str PyVal → Prog}
    (h : ∀ kw, Lockstep (maxCallCount + 1) (f kw) (f' kw)) {w : World} :
    callEntry H tx kwargs (wr, f) (setUp tx true w) = callEntry H { tx with code := code } kwargs (wr, f') (setUp tx true w) := by
  have h1 : (setUp tx true w).meter.started = true := rfl
  have h2 : (setUp tx true w).meter.calls = 0 := rfl
  unfold callEntry
  cases wr with
  | false =>
    rw [if_neg (by simp), if_neg (by simp)]
    exact ((h kwargs).run h1 (by rw [h2]; omega) (by rw [h2]; omega)).1
  | true =>
    rw [if_pos rfl, if_pos rfl]
    exact (Lockstep.run (call_agree' (h kwargs) (fun _ => rfl) (fun _ => rfl) fun v => .ret v) h1 (by rw [h2]; omega) (by rw [h2]; omega)).1

/-- Two codes that load alike and whose functions do the same when a transaction calls them. -/
structure Interchangeable (H : Host) (tx : Tx) (metering : Bool) (a b : Code) : Prop where
  top : a.top = b.top
  fn : (a.fn = none ∧ b.fn = none) ∨ ∃ g g', a.fn = some g ∧ b.fn = some g' ∧ ∀ kwargs w, fixKwargs tx.kwargs = .ok kwargs →
    callEntry H tx kwargs g (setUp tx metering w) = callEntry H { tx with code := b } kwargs g' (setUp tx metering w)

theorem invoke_alike {H : Host} {tx : Tx} {metering : Bool} {code : Code} (h : Interchangeable H tx metering tx.code code) (host : Bool) (w : World) :
    invoke H tx metering host w = invoke H { tx with code := code } metering host w := by
  unfold invoke
  cases host with
  | true => rfl
  | false =>
    simp only [Bool.false_eq_true, if_false]
    rcases h.fn with ⟨a, b⟩ | ⟨g, g', a, b, hf⟩
    · rw [a]
      show _ = (match code.fn with | none => _ | some _ => _)
      rw [b]
    · rw [a]
      show _ = (match code.fn with | none => _ | some _ => _)
      rw [b]
      simp only
      cases hk : fixKwargs tx.kwargs with
      | error e => rfl
      | ok kwargs => exact hf kwargs _ hk

theorem attempt_alike {H : Host} {cfg : ExecCfg} {tx : Tx} {metering : Bool} {code : Code} (h : Interchangeable H tx metering tx.code code) (w : World) :
    attempt H cfg tx metering w = attempt H cfg { tx with code := code } metering w := by
  have e3 : ∀ w, loadEntry H { tx with code := code } w = loadEntry H tx w := by
    intro w
    unfold loadEntry
    rw [h.top]
  have e4 : ∀ (x : Except PyErr Bool × World),
      (match x with | (.error e, w) => (Except.error e, w) | (.ok host, w) => invoke H tx metering host w) =
      match x with | (.error e, w) => (Except.error e, w) | (.ok host, w) => invoke H { tx with code := code } metering host w := by
    intro x
    obtain ⟨r, w⟩ := x
    cases r with
    | error e => rfl
    | ok host => exact invoke_alike h host w
  unfold attempt
  show _ = (match (if metering then checkFunds cfg tx w else (.ok (), w)) with
    | (.error e, w) => (Except.error e, w)
    | (.ok _, w) => match setBase tx { w with env := Dict.update w.env tx.environment } with
      | (.error e, w) => (Except.error e, w)
      | (.ok _, w) => match loadEntry H { tx with code := code } w with
        | (.error e, w) => (Except.error e, w)
        | (.ok host, w) => invoke H { tx with code := code } metering host w)
  cases (if metering then checkFunds cfg tx w else (.ok (), w)) with
  | mk r w1 =>
    cases r with
    | error e => rfl
    | ok u =>
      simp only
      cases setBase tx { w1 with env := Dict.update w1.env tx.environment } with
      | mk r w2 =>
        cases r with
        | error e => rfl
        | ok u =>
          simp only
          rw [e3]
          exact e4 _

theorem execute_attempt {H : Host} {cfg : ExecCfg} {tx : Tx} {code : Code} {w : World}
    (h : attempt H cfg tx (tx.metered cfg) { w with driver := w.driver.clearTxWrites.clearEvents } =
      attempt H cfg { tx with code := code } (tx.metered cfg) { w with driver := w.driver.clearTxWrites.clearEvents }) :
    execute H cfg tx w = execute H cfg { tx with code := code } w := by
  have e : ∀ s, tryBlock H cfg { tx with code := code } (tx.metered cfg) s { w with driver := w.driver.clearTxWrites.clearEvents } =
      tryBlock H cfg tx (tx.metered cfg) s { w with driver := w.driver.clearTxWrites.clearEvents } := by
    intro s
    unfold tryBlock
    rw [← h]
    rfl
  unfold execute
  have hm' : tx.metering.getD cfg.metering = tx.metered cfg := rfl
  simp only [hm', e]
  rfl

/-- Metered transactions do the same with either code. -/
theorem execute_alike {H : Host} {cfg : ExecCfg} {tx : Tx} {code : Code} (h : Alike tx.code code) (hm : tx.metered cfg = true) (w : World) :
    execute H cfg tx w = execute H cfg { tx with code := code } w := by
  refine execute_attempt (attempt_alike ⟨h.top, ?_⟩ _)
  rcases h.fn with h | ⟨wr, f, f', a, b, hf⟩
  · exact .inl h
  · exact .inr ⟨_, _, a, b, fun kwargs w _ => by rw [hm]; exact callEntry_agree hf⟩

/-! ### Loading -/

theorem topProg_congr {load load' : Str → Prog} {D : Data} {own : List Str} {cost : Top → Nat × Nat} : ∀ (m : Module),
    (∀ d a, Top.import d a ∈ m → load d = load' d) → topProg load D own cost m = topProg load' D own cost m
  | [], _ => rfl
  | t :: m, h => by
    rw [topProg, topProg, topProg_congr m fun d a hd => h d a (List.mem_cons_of_mem _ hd)]
    cases t with
    | «import» n a => simp only [topStep]; rw [h n a (by simp)]
    | decl x cls kws => rfl
    | assign x e => rfl
    | «def» f => rfl

theorem Chain.top_nested (C : Chain) (e : PyErr) {r : Nat} {c : Str} (h : Nested C.code r c) : ∀ {n n' : Nat}, r ≤ n → r ≤ n' → C.top n c = (C.ending e).top n' c := by
  induction h with
  | @mk r c _ ih =>
    intro n n' h1 h2
    obtain ⟨n, rfl⟩ : ∃ k, n = k + 1 := ⟨n - 1, by omega⟩
    obtain ⟨n', rfl⟩ : ∃ k, n' = k + 1 := ⟨n' - 1, by omega⟩
    rw [Chain.top, Chain.top, C.ending_code, C.ending_D, C.ending_topCost]
    cases hc : C.code c with
    | none => rfl
    | some m =>
      simp only
      exact topProg_congr m fun d a hd => ih d ⟨m, a, hc, hd⟩ (by omega) (by omega)

theorem Nested.mono {code : Str → Option Module} {r : Nat} {c : Str} (h : Nested code r c) : ∀ {s}, r ≤ s → Nested code s c := by
  induction h with
  | mk _ ih =>
    intro s hs
    obtain ⟨s, rfl⟩ : ∃ k, s = k + 1 := ⟨s - 1, by omega⟩
    exact .mk fun d hd => ih d hd (by omega)

theorem Grounded.nested {code : Str → Option Module} (hs : code (py! "submission") = none) {c : Str} (h : Grounded code c) :
    ∃ r, Nested code r c := by
  induction h with
  | submission => exact ⟨1, .mk fun d ⟨m, a, h, _⟩ => by rw [hs] at h; cases h⟩
  | @mk c hc _ ih =>
    cases hm : code c with
    | none => exact absurd hm hc
    | some m =>
      have key : ∀ (ts : List Top), (∀ t ∈ ts, t ∈ m) → ∃ r, ∀ d a, Top.import d a ∈ ts → Nested code r d := by
        intro ts
        induction ts with
        | nil => intro _; exact ⟨0, fun _ _ h => by cases h⟩
        | cons t ts iht =>
          intro hts
          obtain ⟨r, hr⟩ := iht fun t ht => hts t (List.mem_cons_of_mem _ ht)
          by_cases ht : ∃ d a, t = Top.import d a
          · obtain ⟨d, a, rfl⟩ := ht
            obtain ⟨s, hs⟩ := ih d ⟨m, a, hm, hts _ (by simp)⟩
            refine ⟨max r s, fun d' a' h => ?_⟩
            rcases List.mem_cons.1 h with h | h
            · cases h; exact hs.mono (Nat.le_max_right _ _)
            · exact (hr d' a' h).mono (Nat.le_max_left _ _)
          · refine ⟨r, fun d' a' h => ?_⟩
            rcases List.mem_cons.1 h with h | h
            · exact absurd ⟨d', a', h.symm⟩ ht
            · exact hr d' a' h
      obtain ⟨r, hr⟩ := key m fun _ h => h
      exact ⟨r + 1, .mk fun d ⟨m', a, h1, h2⟩ => by rw [hm] at h1; cases h1; exact hr d a h2⟩

theorem Chain.codeFor_alike (C : Chain) (e : PyErr) {r : Nat} {c : Str} (h : Nested C.code r c) {n n' : Nat} (h1 : r ≤ n) (h2 : r ≤ n')
    (h3 : maxCallCount + 1 < n) (h4 : maxCallCount + 1 < n') (fname : Str) : Alike (C.codeFor n c fname) ((C.ending e).codeFor n' c fname) :=
  ⟨C.top_nested e h h1 h2, C.entry_agree e h3 h4 c fname⟩

/-! ### Submission -/

theorem perform_api (a : Action) (k : PyVal → Prog) : perform a k = api a k := by
  unfold perform api
  congr 1
  funext r
  cases r <;> rfl

theorem perform_agree {b : Nat} {a : Action} {k k' : PyVal → Prog} (ha : a.NotGuarded) (h : ∀ v, Lockstep b (k v) (k' v)) :
    Lockstep b (perform a k) (perform a k') := by
  rw [perform_api, perform_api]
  exact .act ha h

theorem orRaise_bind (r : Except PyErr PyVal) (k : PyVal → Prog) (f : PyVal → Prog) :
    (orRaise r k).bind (fun r => orRaise r f) = orRaise r fun v => (k v).bind fun r => orRaise r f := by
  cases r <;> rfl

theorem bind_agree {b : Nat} {p q : Prog} (h : Lockstep b p q) : ∀ {f f' : PyVal → Prog}, (∀ v, Lockstep b (f v) (f' v)) →
    Lockstep b (p.bind fun r => orRaise r f) (q.bind fun r => orRaise r f') := by
  induction h with
  | out p q => intro _ _ _; exact .out _ _
  | ret v => intro f f' hf; exact hf v
  | raise e => intro f f' hf; exact .raise e
  | tick _ ih =>
    intro f f' hf
    simp only [api, Prog.bind, orRaise_bind]
    exact .tick fun v => ih v fun v => (hf v).mono (Nat.le_succ _)
  | act ha _ ih =>
    intro f f' hf
    simp only [api, Prog.bind, orRaise_bind]
    exact .act ha fun v => ih v hf
  | call hb _ _ ih =>
    intro f f' hf
    simp only [Prog.bind, orRaise_bind]
    exact .call hb fun v => ih v hf
  | load hb _ _ ih =>
    intro f f' hf
    simp only [Prog.bind, orRaise_bind]
    exact .load hb fun v => ih v hf

theorem bind_agree' {b : Nat} {p p' : Prog} {k k' : Except PyErr PyVal → Prog} (hp : Lockstep b p p') (h : ∀ e, k (.error e) = .raise e)
    (h' : ∀ e, k' (.error e) = .raise e) (hk : ∀ v, Lockstep b (k (.ok v)) (k' (.ok v))) : Lockstep b (p.bind k) (p'.bind k') := by
  rw [as_orRaise h, as_orRaise h']
  exact bind_agree hp hk

theorem boundNow_agree (C : Chain) (b : Nat) (name : Str) : Lockstep b (C.boundNow name) (C.boundNow name) := by
  unfold Chain.boundNow
  split
  · exact .ret _
  · exact .raise _
  · exact .raise _
  · exact .ret _

theorem deploy_agree (C : Chain) (e : PyErr) {b n n' : Nat} (h1 : b < n) (h2 : b < n') (name : Str) (args : PyVal) :
    Lockstep b (C.deploy n name args) ((C.ending e).deploy n' name args) := by
  unfold Chain.deploy
  rw [C.ending_global, show (C.ending e).boundNow = C.boundNow from rfl]
  refine bind_agree (C.top_agree e b n n' name h1 h2) fun v => ?_
  split
  · exact boundNow_agree C b name
  · exact orRaise_agree fun ks => C.call_agree e b n n' h1 h2 _ _ _ _ _ _ fun _ => boundNow_agree C b name
  · exact .raise _

/-- The same node, with something else raised where a bound is reached. -/
def Node.ending (N : Node) (e : PyErr) : Node := { N with out := e }

theorem nodeDeploy_agree (N : Node) (e : PyErr) {b n n' : Nat} (h1 : b < n) (h2 : b < n') (d : Driver) (name source : Str) (args : PyVal) :
    Lockstep b (N.deploy n d name source args) ((N.ending e).deploy n' d name source args) := by
  unfold Node.deploy
  show Lockstep b _ (match N.read source with | none => _ | some m => (((N.chain d).plus name (compileModule name m)).ending e).deploy n' name args)
  cases N.read source
  · exact .raise _
  · exact deploy_agree _ e h1 h2 name args

theorem setContract_agree (T : Toolchain) (b : Nat) (name text : Str) (owner time developer : PyVal) :
    Lockstep b (setContract T name text owner time developer) (setContract T name text owner time developer) := by
  unfold setContract
  refine perform_agree (a := .rawGet _) trivial fun v => ?_
  split
  · split
    · exact .raise _
    · exact perform_agree (a := .rawSet _ _) trivial fun _ => perform_agree (a := .rawSet _ _) trivial fun _ =>
        perform_agree (a := .rawSet _ _) trivial fun _ => perform_agree (a := .rawSet _ _) trivial fun _ =>
        perform_agree (a := .rawSet _ _) trivial fun _ => .ret _
  · exact .ret _

theorem submitContract_agree {H : Host} {T : Toolchain} {b : Nat} {name code : Str} {owner : PyVal} {top top' : Prog} (h : Lockstep b top top') :
    Lockstep b (submitContract H T name code owner top) (submitContract H T name code owner top') := by
  unfold submitContract
  refine perform_agree (a := .ctxCaller) trivial fun caller => ?_
  split
  · exact .raise _
  refine perform_agree (a := .ctxSigner) trivial fun signer => ?_
  repeat' split
  all_goals first | exact .raise _ | skip
  unfold submit
  refine perform_agree (a := .rawGet _) trivial fun v => ?_
  split
  · split
    · exact .raise _
    · refine bind_agree' h (fun _ => rfl) (fun _ => rfl) fun v => ?_
      split
      · exact .raise _
      · exact setContract_agree T b _ _ _ _ _
      · exact perform_agree (a := .envGet _) trivial fun _ => setContract_agree T b _ _ _ _ _
  · exact .raise _

theorem bindParams_agree {b : Nat} {ps : List (Str × Option PyVal)} {f f' : Dict Str PyVal → Prog} (h : ∀ kw, Lockstep b (f kw) (f' kw))
    (kwargs : Dict Str PyVal) : Lockstep b (bindParams ps f kwargs) (bindParams ps f' kwargs) := by
  unfold bindParams
  repeat' split
  all_goals first | exact .raise _ | exact h _

theorem changeDeveloper_agree (b : Nat) (contract : Str) (new : PyVal) : Lockstep b (changeDeveloper contract new) (changeDeveloper contract new) := by
  unfold changeDeveloper
  refine perform_agree (a := .rawGet _) trivial fun d => perform_agree (a := .ctxCaller) trivial fun caller => ?_
  split
  · exact .raise _
  · exact perform_agree (a := .rawSet _ _) trivial fun _ => .ret _

theorem Node.codeFor_alike (N : Node) (e : PyErr) (H : Host) (d : Driver) {r : Nat} {c : Str} (h : c ≠ py! "submission" → Nested (N.code d) r c) {n n' : Nat}
    (h1 : r ≤ n) (h2 : r ≤ n') (h3 : maxCallCount + 1 < n) (h4 : maxCallCount + 1 < n') (fname : Str) :
    Alike (N.codeFor H n d c fname) ((N.ending e).codeFor H n' d c fname) := by
  unfold Node.codeFor
  by_cases hc : c = py! "submission"
  · rw [if_pos hc, if_pos hc]
    refine ⟨rfl, ?_⟩
    simp only
    split
    · refine .inr ⟨true, _, _, rfl, rfl, fun kw => bindParams_agree (fun kw => ?_) kw⟩
      split
      · exact submitContract_agree (nodeDeploy_agree N e h3 h4 _ _ _ _)
      · exact .raise _
    split
    · refine .inr ⟨true, _, _, rfl, rfl, fun kw => bindParams_agree (fun kw => ?_) kw⟩
      split
      · exact changeDeveloper_agree _ _ _
      · exact .raise _
    · exact .inl ⟨rfl, rfl⟩
  · rw [if_neg hc, if_neg hc]
    exact (N.chain d).codeFor_alike e (h hc) h1 h2 h3 h4 fname

end Verif.Lang
