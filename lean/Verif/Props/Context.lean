import Verif.Proofs.Context
import Verif.Props.Executor
import Verif.Props.Isolation
/-!
# Properties C36 – C38: `ctx`, contract owners, and the context stack
-/
namespace Verif

/-! ### C36: the context -/

/-- **C36.** A run of contract code gives exactly what the lexical reference gives (`Spec.runLex`: the callee of
another contract sees itself as `this`, the contract that called it as `caller`, the same signer and entry;
calls within a contract see the same context), for every tree of calls nested within the limit of 1024
contracts: same result, same effects on everything else, and when it ends normally the context is restored. -/
theorem C36_lexical {H : Host} {p : Prog} (hn : p.NoCatch) {n : Nat} (hd : p.Nests n) {w : World} (hp : w.Pos)
    (hl : w.stack.length + n ≤ 1024) :
    (p.run H w).1 = (Spec.runLex H p w.current w).1 ∧
    (p.run H w).2.forget = (Spec.runLex H p w.current w).2.forget ∧
    (∀ x, (p.run H w).1 = .ok x → (p.run H w).2.current = w.current) := by
  obtain ⟨h1, h2, h3⟩ := Prog.run_lex (H := H) p hn n hd w w rfl hp hl
  refine ⟨h1, h2, fun x hx => ?_⟩
  obtain ⟨h4, h5⟩ := h3 x hx
  unfold World.current
  rw [h4, h5]

/-- **C36, whole transactions.** Whatever the state of the process and whatever happens: either the function
called never runs (the outcome is the same for every function body), or the call ends up in a function of a host
module, or the function runs exactly as the lexical reference says, in the context whose `this` is the called
contract and whose `caller` and `signer` are the sender. -/
theorem C36_transaction {H : Host} {cfg : ExecCfg} {tx : Tx} {m : Bool} {w : World} {fn : Bool × (Dict Str PyVal → Prog)}
    (hfn : tx.code.fn = some fn) (hn : ∀ kw, (fn.2 kw).NoCatch) (hd : ∀ kw, (fn.2 kw).Nests 1024) :
    (∃ e w1, ∀ body, attempt H cfg { tx with code := { tx.code with fn := some (fn.1, body) } } m w = (.error e, w1)) ∨
    (∃ w1, attempt H cfg tx m w = (H.hostCall tx.contract tx.function, w1)) ∨
    (∃ kwargs owner submission w1, fixKwargs tx.kwargs = .ok kwargs ∧ w1.stack = [] ∧
      (attempt H cfg tx m w).1 = (Spec.runLex H (fn.2 kwargs) (Spec.entryFrame tx owner submission) w1).1 ∧
      (attempt H cfg tx m w).2.forget = (Spec.runLex H (fn.2 kwargs) (Spec.entryFrame tx owner submission) w1).2.forget) := by
  have hpre : ∀ body, attemptPre H cfg { tx with code := { tx.code with fn := some (fn.1, body) } } m w = attemptPre H cfg tx m w :=
    fun _ => rfl
  cases hp : attemptPre H cfg tx m w with
  | mk r w1 =>
    cases r with
    | error e =>
      left
      refine ⟨e, w1, fun body => ?_⟩
      rw [attempt_pre, hpre body, hp]
    | ok host =>
      cases host with
      | true =>
        right; left
        refine ⟨(invoke H tx m true w1).2, ?_⟩
        rw [attempt_pre, hp]
        rfl
      | false =>
        cases hk : fixKwargs tx.kwargs with
        | error e =>
          left
          refine ⟨e, (if tx.contract = py! "submission" then
            { w1 with base := { w1.base with submission := (Dict.get? tx.kwargs (py! "name")).getD .none } } else w1), fun body => ?_⟩
          rw [attempt_pre, hpre body, hp]
          simp only [invoke, Bool.false_eq_true, if_false, hk]
        | ok kwargs =>
          right; right
          obtain ⟨owner, hbase⟩ := attemptPre_base hp
          have hrun : attempt H cfg tx m w = callEntry H tx kwargs fn (setUp tx m (if tx.contract = py! "submission" then
              { w1 with base := { w1.base with submission := (Dict.get? tx.kwargs (py! "name")).getD .none } } else w1)) := by
            rw [attempt_pre, hp]
            simp only [invoke, Bool.false_eq_true, if_false, hk, hfn]
          generalize hw2 : (if tx.contract = py! "submission" then
              { w1 with base := { w1.base with submission := (Dict.get? tx.kwargs (py! "name")).getD .none } } else w1 : World) = w2 at hrun
          have hb2 : ∃ sub, (setUp tx m w2).base = Spec.entryFrame tx owner sub := by
            rw [← hw2]
            split
            · exact ⟨(Dict.get? tx.kwargs (py! "name")).getD .none, by simp only [setUp]; rw [hbase]; rfl⟩
            · exact ⟨.none, by simp only [setUp]; exact hbase⟩
          obtain ⟨sub, hb2⟩ := hb2
          have hst : (setUp tx m w2).stack = [] := rfl
          have hcur : (setUp tx m w2).current = Spec.entryFrame tx owner sub := by unfold World.current; rw [hst]; exact hb2
          have hpos : (setUp tx m w2).Pos := by intro e he; rw [hst] at he; cases he
          obtain ⟨l1, l2, l3⟩ := Prog.run_lex (H := H) (fn.2 kwargs) (hn kwargs) 1024 (hd kwargs) (setUp tx m w2) (setUp tx m w2) rfl hpos
            (by rw [hst]; exact Nat.le_refl _)
          rw [hcur] at l1 l2
          refine ⟨kwargs, owner, sub, setUp tx m w2, rfl, rfl, ?_⟩
          rw [hrun]
          unfold callEntry
          split
          · -- the export wrapper of the entry function finds its own contract running
            have hent : enter tx.contract (setUp tx m w2) = (.ok (), setUp tx m w2) := by
              unfold enter
              rw [hcur, if_neg (by simp [Spec.entryFrame])]
              unfold World.insState
              rw [hst]
            simp only [Prog.run, hent]
            rw [← l1, ← l2]
            cases hr : ((fn.2 kwargs).run H (setUp tx m w2)).1 with
            | error e => exact ⟨rfl, popState_forget _⟩
            | ok x => exact ⟨rfl, popState_forget _⟩
          · exact ⟨l1, l2⟩

/-- A tree of calls meeting the hypotheses, and what `ctx` is at its leaves: `bob` calls `con_a`, which calls
`con_b`, which calls `con_a` back: there the caller is `con_b` and the signer still `bob`; back in `con_b`
the caller is `con_a` again. -/
example :
    let ask (a : Action) (k : PyVal → Prog) : Prog := .act a fun r => match r with | .ok v => k v | .error e => .raise e
    let conB := py! "con_b"
    let leaf := ask .ctxCaller fun c => ask .ctxSigner fun s => .ret (.tuple [c, s])
    let inB : Prog := .call Demo.conA leaf fun r => match r with
      | .ok v => ask .ctxCaller fun c => .ret (.tuple [v, c])
      | .error e => .raise e
    let p : Prog := .call conB inB fun r => match r with | .ok v => .ret v | .error e => .raise e
    (execute Demo.host {} (Demo.tx p) Demo.w0).1.map Output.result =
      .ok (.ok (.tuple [.tuple [.str conB, .str Demo.bob], .str Demo.conA])) ∧ p.Nests 2 ∧ p.NoCatch := by
  refine ⟨by decide +kernel, ?_, ?_⟩
  · simp only [Prog.Nests]
    refine ⟨by decide, ⟨by decide, fun r => ?_, fun r => ?_⟩, fun r => ?_⟩
    · cases r with
      | error e => trivial
      | ok v => simp only [Prog.Nests]; intro r; cases r <;> trivial
    · cases r with
      | error e => trivial
      | ok v => simp only [Prog.Nests]; intro r; cases r <;> trivial
    · cases r <;> trivial
  · simp only [Prog.NoCatch]
    refine ⟨⟨⟨fun _ => trivial, fun v => ⟨fun _ => trivial, fun _ => trivial⟩⟩, fun _ => trivial, fun v => ⟨fun _ => trivial, fun _ => trivial⟩⟩,
      fun _ => trivial, fun _ => trivial⟩

/-! ### C37: owners -/

/-- **C37, calls from another contract.** Calling an exported function of a contract with an owner, from a contract
that is not the owner: the function's body makes no difference, an exception is raised in its place. -/
theorem C37_call {H : Host} {w : World} {c : Str} {owner : PyVal} (ho : owner ≠ .none) (ho' : owner ≠ .str [])
    (hown : (w.driver.get (c ++ py! ".__owner__")).1 = .ok owner) (hthis : w.current.this ≠ some c)
    (hcaller : ∀ t, w.current.this = some t → owner ≠ .str t) :
    ∃ w1, ∀ body k, (Prog.call c body k).run H w = (k (.error .exception)).run H w1 := by
  have hkey : makeKey c (py! "__owner__") = c ++ py! ".__owner__" := rfl
  have hg : (w.driver.getOwner c).1 = .ok owner := by
    unfold Driver.getOwner
    rw [hkey]
    cases hx : w.driver.get (c ++ py! ".__owner__") with
    | mk r d =>
      rw [hx] at hown
      simp only at hown
      subst hown
      split
      · rename_i h; cases h
      · rename_i h; cases h; exact absurd rfl ho'
      · rename_i h; cases h; rfl
  cases hx : w.driver.getOwner c with
  | mk r d =>
    rw [hx] at hg
    simp only at hg
    subst hg
    refine ⟨(enter c w).2, fun body k => ?_⟩
    have he : enter c w = (.error .exception, (enter c w).2) := by
      unfold enter
      rw [if_pos hthis, hx]
      simp only
      have : ownerRefuses owner w.current.this = true := by
        rw [ownerRefuses_iff]
        rintro (h | ⟨x, h1, h2⟩)
        · exact ho h
        · exact hcaller x h2 h1
      rw [if_pos this]
    simp only [Prog.run]
    rw [he]

/-- **C37, direct calls.** With no frame left over from earlier transactions, `execute` on a contract whose owner is
not the sender runs none of its code -- neither the module's top level nor any function -- and reports failure. -/
theorem C37_direct {H : Host} {cfg : ExecCfg} {tx : Tx} {w : World} (hs : w.stack = []) {owner : PyVal}
    (ho : owner ≠ .none) (ho' : owner ≠ .str []) (hown : (w.driver.get (tx.contract ++ py! ".__owner__")).1 = .ok owner)
    (hsend : owner ≠ .str tx.sender) :
    (∀ code, execute H cfg { tx with code := code } w = execute H cfg tx w) ∧
    ∀ o w', execute H cfg tx w = (.ok o, w') → o.status = 1 := by
  have hkey : makeKey tx.contract (py! "__owner__") = tx.contract ++ py! ".__owner__" := rfl
  -- reading records nothing that matters
  have hread : ∀ v : World, (∃ r, v = { startWorld w with driver := { (startWorld w).driver with pendingReads := r } }) →
      ∃ e w1, ∀ code, setBase { tx with code := code } { v with env := Dict.update v.env tx.environment } = (.error e, w1) := by
    rintro v ⟨r, rfl⟩
    have hg : (Driver.getOwner { (startWorld w).driver with pendingReads := r } tx.contract).1 = .ok owner := by
      unfold Driver.getOwner
      rw [hkey]
      have hx : (Driver.get { (startWorld w).driver with pendingReads := r } (tx.contract ++ py! ".__owner__")).1 = .ok owner := by
        rw [← hown, (Driver.get_frame _ _).2, (Driver.get_frame _ _).2]; rfl
      cases hy : Driver.get { (startWorld w).driver with pendingReads := r } (tx.contract ++ py! ".__owner__") with
      | mk r d =>
        rw [hy] at hx
        simp only at hx
        subst hx
        split
        · rename_i h; cases h
        · rename_i h; cases h; exact absurd rfl ho'
        · rename_i h; cases h; rfl
    cases hy : Driver.getOwner { (startWorld w).driver with pendingReads := r } tx.contract with
    | mk q d =>
      rw [hy] at hg
      simp only at hg
      subst hg
      have href : ownerRefuses owner (some tx.sender) = true := by
        rw [ownerRefuses_iff]
        rintro (h | ⟨x, h1, h2⟩)
        · exact ho h
        · cases h2; exact hsend h1
      have hst : (startWorld w).stack = [] := hs
      generalize hX : ({ startWorld w with driver := { (startWorld w).driver with pendingReads := r }, env := Dict.update (startWorld w).env tx.environment } : World) = X
      have hXd : X.driver = { (startWorld w).driver with pendingReads := r } := by rw [← hX]
      have hXs : X.stack = [] := by rw [← hX]; exact hst
      refine ⟨.exception, (setBase tx X).2, fun code => ?_⟩
      have hb : ∀ code, setBase { tx with code := code } X = setBase tx X := fun _ => rfl
      have hb' : setBase tx X = (.error .exception, (setBase tx X).2) := by
        unfold setBase
        rw [hXd, hy]
        simp only [World.current, hXs, href, if_true]
      exact (hb code).trans hb'
  have hatt : ∃ e w1, ∀ code, attempt H cfg { tx with code := code } (tx.metered cfg) (startWorld w) = (.error e, w1) := by
    cases hm : tx.metered cfg with
    | false =>
      obtain ⟨e, w1, h⟩ := hread (startWorld w) ⟨_, rfl⟩
      refine ⟨e, w1, fun code => ?_⟩
      unfold attempt
      rw [if_neg (by simp)]
      simp only
      rw [h code]
    | true =>
      obtain ⟨r, hf⟩ := checkFunds_frame cfg tx (startWorld w)
      have hcode : ∀ code, checkFunds cfg { tx with code := code } (startWorld w) = checkFunds cfg tx (startWorld w) := fun _ => rfl
      cases hc : checkFunds cfg tx (startWorld w) with
      | mk q v =>
        rw [hc] at hf
        simp only at hf
        cases q with
        | error e =>
          refine ⟨e, v, fun code => ?_⟩
          unfold attempt
          rw [if_pos rfl, hcode, hc]
        | ok u =>
          obtain ⟨e, w1, h⟩ := hread v ⟨r, hf⟩
          refine ⟨e, w1, fun code => ?_⟩
          unfold attempt
          rw [if_pos rfl, hcode, hc]
          simp only
          rw [h code]
  obtain ⟨e, w1, hatt⟩ := hatt
  have htry : ∀ code, tryBlock H cfg { tx with code := code } (tx.metered cfg) w.driver.pendingWrites (startWorld w) =
      onError tx w.driver.pendingWrites e w1 := by
    intro code
    unfold tryBlock
    rw [hatt code]
    rfl
  have hex : ∀ code, execute H cfg { tx with code := code } w = execute H cfg { tx with code := ⟨.ret .none, none⟩ } w := by
    intro code
    have e1 := htry code
    have e2 := htry ⟨.ret .none, none⟩
    unfold execute
    unfold startWorld Tx.metered at e1 e2
    simp only
    rw [e1, e2]
    rfl
  refine ⟨fun code => (hex code).trans (hex tx.code).symm, ?_⟩
  intro o w' h
  obtain ⟨_, writes, w2, _, rfl, _⟩ := execute_ok h
  refine Output.status_one.2 ⟨e, ?_⟩
  unfold ranOutcome
  exact congrArg (fun t => t.1.result) (htry tx.code)

/-- `con_c` is owned by `alice`; `con_a` and `con_b` are ordinary. -/
def Demo.owned : World := Demo.world (Demo.stored Demo.conA ++ Demo.stored (py! "con_b") ++ Demo.stored (py! "con_c") ++
  [(py! "con_c.__owner__", .str (py! "alice")), (Demo.bobKey, .int 100)])

/-- A direct call of `con_c` by `bob`, whose code would set a variable. -/
def Demo.callC : Tx :=
  { Demo.tx (Demo.step (.varSet (.make (py! "con_c") (py! "x")) (.int 1)) (.ret .none)) with contract := py! "con_c" }

/-- The hypotheses of C37 are met. -/
example : Demo.owned.stack = [] ∧ (Demo.owned.driver.get (py! "con_c.__owner__")).1 = .ok (.str (py! "alice")) ∧
    (execute Demo.host {} Demo.callC Demo.owned).1.map Output.status = .ok 1 ∧
    (execute Demo.host {} { Demo.callC with sender := py! "alice", metering := some false } Demo.owned).1.map Output.status = .ok 0 := by
  decide +kernel

/-- Loading `con_a` calls `con_b`, which calls the owned `con_c`. -/
def Demo.leaky : Tx :=
  let inner : Prog := .call (py! "con_c") (.ret .none) (Demo.andThen (.ret .none))
  { Demo.tx (.ret .none) with code :=
      { top := .call (py! "con_b") inner (Demo.andThen (.ret .none)), fn := some (true, fun _ => .ret .none) } }

/-- **C37 is false after a leftover frame**: loading `con_a` calls `con_b`, which calls the owned `con_c` and is
refused; one exit pops the wrong frame and `con_b`'s frame stays. In the next transaction `bob`, not the
owner, calls `con_c` directly: the owner check looks at the leftover frame, and `con_c`'s code runs and writes. -/
theorem C37_refuted :
    let r := execute Demo.host {} Demo.leaky Demo.owned
    let s := execute Demo.host {} Demo.callC r.2
    r.1.map Output.status = .ok 1 ∧ s.1.map Output.status = .ok 0 ∧
    (s.2.driver.get (py! "con_c.x")).1 = .ok (.int 1) ∧ (r.2.driver.get (py! "con_c.x")).1 = .ok .none := by
  decide +kernel

/-! ### C38: the stack is empty after every transaction -/

/-- Neither the module's top level nor the function catches exceptions (contract source cannot, C40). -/
def Code.NoCatch (c : Code) : Prop := c.top.NoCatch ∧ ∀ fn, c.fn = some fn → ∀ kwargs, (fn.2 kwargs).NoCatch

/-- Somewhere a call of an exported function is refused while the entry module loads, or in a function that is run
although it is private. -/
def Spec.RefusedOutside (H : Host) (tx : Tx) : Prop :=
  (∃ w1, ∃ x ∈ Spec.events H tx.code.top w1, Spec.Refused x) ∨
  ∃ fn, tx.code.fn = some fn ∧ fn.1 = false ∧ ∃ kwargs w1, ∃ x ∈ Spec.events H (fn.2 kwargs) w1, Spec.Refused x

/-- **C38.** Whatever a transaction does -- calls nested to any depth, even beyond the limit -- and wherever it fails,
even if `execute` itself raises: no context frame survives it, unless an owner check refused a call made while the
entry module was loading, or made by a private function (both exceptions are real, see below). -/
theorem C38_empty {H : Host} {cfg : ExecCfg} {tx : Tx} {w : World} (hcode : tx.code.NoCatch) (hs : w.stack = []) :
    (execute H cfg tx w).2.stack = [] ∨ Spec.RefusedOutside H tx := by
  by_cases href : Spec.RefusedOutside H tx
  · exact .inr href
  left
  have htop : ∀ w1, ∀ x ∈ Spec.events H tx.code.top w1, ¬ Spec.Refused x := fun w1 x hx hr => href (.inl ⟨w1, x, hx, hr⟩)
  have hpriv : ∀ fn, tx.code.fn = some fn → fn.1 = false → ∀ kwargs w1, ∀ x ∈ Spec.events H (fn.2 kwargs) w1, ¬ Spec.Refused x :=
    fun fn hf hx kwargs w1 x hx' hr => href (.inr ⟨fn, hf, hx, kwargs, w1, x, hx', hr⟩)
  have clean : ∀ p : Prog, p.NoCatch → (∀ w1, ∀ x ∈ Spec.events H p w1, ¬ Spec.Refused x) → ∀ w : World, w.stack = [] →
      (p.run H w).2.stack = [] := by
    intro p hn hr w hw
    obtain ⟨u1, u2⟩ := Prog.run_units_unrefused (H := H) p hn w (by intro e he; rw [hw] at he; cases he) (hr w)
    refine units_zero u1 ?_
    have : w.units = 0 := by unfold World.units; rw [hw]; rfl
    omega
  rcases execute_stack H cfg tx w with h | h
  · rw [h, hs]
  · rw [h]
    have hpre : (attemptPre H cfg tx (tx.metered cfg) (startWorld w)).2.stack = [] := by
      rw [attemptPre_stack (w := startWorld w) (clean _ hcode.1 htop) hs]; exact hs
    rw [attempt_pre]
    cases hc : attemptPre H cfg tx (tx.metered cfg) (startWorld w) with
    | mk r w1 =>
      rw [hc] at hpre
      simp only at hpre
      cases r with
      | error e => exact hpre
      | ok host =>
        obtain ⟨owner, hbase⟩ := attemptPre_base hc
        simp only
        unfold invoke
        split
        · rfl
        · split
          · exact hpre
          · rename_i fn hfn
            have hn := hcode.2 fn hfn
            simp only
            generalize hw2 : (if tx.contract = py! "submission" then
              { w1 with base := { w1.base with submission := (Dict.get? tx.kwargs (py! "name")).getD .none } } else w1 : World) = w2
            have hst2 : w2.stack = [] := by rw [← hw2]; split <;> exact hpre
            have hb2 : w2.base.this = some tx.contract := by
              rw [← hw2]
              split
              · simp only; rw [hbase]; rfl
              · rw [hbase]; rfl
            split
            · exact hst2
            · rename_i kwargs _
              have hst : (setUp tx (tx.metered cfg) w2).stack = [] := rfl
              unfold callEntry
              cases hx : fn.1 with
              | false =>
                rw [if_neg (by simp)]
                exact clean _ (hn kwargs) (hpriv fn hfn hx kwargs) _ hst
              | true =>
                rw [if_pos rfl]
                have hcur : (setUp tx (tx.metered cfg) w2).current.this = some tx.contract := by
                  unfold World.current; rw [hst]; exact hb2
                have hpos : (setUp tx (tx.metered cfg) w2).Pos := by intro e he; rw [hst] at he; cases he
                have hent : enter tx.contract (setUp tx (tx.metered cfg) w2) = (.ok (), setUp tx (tx.metered cfg) w2) := by
                  unfold enter
                  rw [hcur, if_neg (by simp)]
                  unfold World.insState
                  rw [hst]
                simp only [Prog.run, hent]
                obtain ⟨u1, u2⟩ := Prog.run_units (H := H) (fn.2 kwargs) (hn kwargs) _ hpos
                have hu0 : (setUp tx (tx.metered cfg) w2).units = 0 := by unfold World.units; rw [hst]; rfl
                have hsl : slack ((fn.2 kwargs).run H (setUp tx (tx.metered cfg) w2)).1 ≤ 1 := by
                  cases ((fn.2 kwargs).run H (setUp tx (tx.metered cfg) w2)).1 <;> simp [slack]
                have hfin : ((fn.2 kwargs).run H (setUp tx (tx.metered cfg) w2)).2.popState.stack = [] := by
                  refine units_zero (popState_pos u1) ?_
                  rw [popState_units u1]
                  omega
                cases ((fn.2 kwargs).run H (setUp tx (tx.metered cfg) w2)).1 <;> exact hfin

/-- Histories of returning transactions without such refusals, with anything done to the storage in between. -/
inductive Spec.ServedPlain (H : Host) : World → Prop where
  | start (d : Driver) : ServedPlain H (freshWorld d)
  | tx {w w' : World} {cfg : ExecCfg} {tx : Tx} {o : Output} :
      ServedPlain H w → tx.code.NoCatch → ¬ Spec.RefusedOutside H tx → execute H cfg tx w = (.ok o, w') → ServedPlain H w'
  | storage {w : World} (d : Driver) : ServedPlain H w → ServedPlain H { w with driver := d }

/-- **C38, C32 for whole histories.** After any history of such transactions the stack is empty, and so the next
transaction -- of any kind -- behaves as in a process restarted on the same storage. -/
theorem C38_history {H : Host} {w : World} (h : Spec.ServedPlain H w) :
    w.stack = [] ∧ ∀ cfg tx,
      (execute H cfg tx w).1 = (execute H cfg tx (freshWorld w.driver)).1 ∧
      (execute H cfg tx w).2.driver = (execute H cfg tx (freshWorld w.driver)).2.driver := by
  have key : w.stack = [] ∧ Spec.Served H w := by
    induction h with
    | start d => exact ⟨rfl, .start d⟩
    | tx _ hp hr he ih =>
      refine ⟨?_, .tx ih.2 he⟩
      have := congrArg (fun r => r.2.stack) he
      exact this.symm.trans ((C38_empty hp ih.1).resolve_right hr)
    | storage d _ ih => exact ⟨ih.1, .storage d ih.2⟩
  exact ⟨key.1, fun cfg tx => C32_restart key.2 key.1 cfg tx⟩

/-- Such a transaction: calls `con_b`, which calls an owned contract and is refused. -/
example : ¬ Spec.RefusedOutside Demo.host (Demo.tx (.call (py! "con_b") (.call (py! "con_c") (.ret .none) (Demo.andThen (.ret .none)))
      (Demo.andThen (.ret .none)))) ∧
    (Demo.tx (.call (py! "con_b") (.call (py! "con_c") (.ret .none) (Demo.andThen (.ret .none))) (Demo.andThen (.ret .none)))).code.NoCatch ∧
    (execute Demo.host {} (Demo.tx (.call (py! "con_b") (.call (py! "con_c") (.ret .none) (Demo.andThen (.ret .none)))
      (Demo.andThen (.ret .none)))) Demo.owned).1.map Output.status = .ok 1 := by
  refine ⟨?_, ⟨trivial, ?_⟩, by decide +kernel⟩
  · rintro (⟨w1, x, hx, _⟩ | ⟨fn, ⟨⟩, hf, _⟩)
    · simp [Demo.tx, Spec.events] at hx
    · cases hf
  · rintro fn ⟨⟩ kwargs
    exact ⟨⟨trivial, fun _ => rfl, fun _ => trivial⟩, fun _ => rfl, fun _ => trivial⟩

/-- Loading `con_a` calls the owned `con_c` and is refused. -/
def Demo.poison : Tx :=
  { Demo.tx (.ret .none) with code :=
      { top := .call (py! "con_c") (.ret .none) (Demo.andThen (.ret .none)), fn := some (true, fun _ => .ret .none) } }

/-- **C38 is false for calls made while a module loads**, and for private functions called with `bypass_privates`:
a refused call leaves a frame behind. -/
theorem C38_refuted :
    (execute Demo.host {} Demo.poison Demo.owned).1.map Output.status = .ok 1 ∧
    (execute Demo.host {} Demo.poison Demo.owned).2.stack.length = 1 ∧
    (let priv : Tx := { Demo.tx (.ret .none) with function := py! "__f", code :=
        { top := .ret .none, fn := some (false, fun _ => .call (py! "con_c") (.ret .none) (Demo.andThen (.ret .none))) } }
     (execute Demo.host { bypassPrivates := true } priv Demo.owned).2.stack.length = 1) := by
  decide +kernel

/-- A leftover frame whose owner refuses its caller on top of the stack. -/
def World.Poisoned (w : World) : Prop := ∃ f n s, w.stack = (f, n) :: s ∧ ownerRefuses f.owner f.caller = true

/-- **C38, consequence.** Once such a refused call has left its frame behind, every later transaction -- any sender, any
contract, any configuration -- fails, and the frame stays: the process never executes a transaction again. -/
theorem C38_poisoned {H : Host} {cfg : ExecCfg} {tx : Tx} {w w' : World} {o : Output} (hp : w.Poisoned)
    (h : execute H cfg tx w = (.ok o, w')) : o.status = 1 ∧ w'.Poisoned := by
  obtain ⟨f, n, s, hs, hr⟩ := hp
  have hset : ∀ v : World, v.stack = w.stack → ∃ e w1, setBase tx v = (.error e, w1) ∧ w1.stack = w.stack := by
    intro v hv
    unfold setBase
    cases hg : v.driver.getOwner tx.contract with
    | mk q d =>
      cases q with
      | error e => exact ⟨e, _, rfl, hv⟩
      | ok owner =>
        simp only [World.current]
        rw [hv, hs]
        simp only [hr, if_true]
        exact ⟨_, _, rfl, rfl⟩
  have hatt : ∃ e w1, attempt H cfg tx (tx.metered cfg) (startWorld w) = (.error e, w1) ∧ w1.stack = w.stack := by
    unfold attempt
    have h1 : (if tx.metered cfg then checkFunds cfg tx (startWorld w) else (.ok (), startWorld w)).2.stack = w.stack := by
      cases tx.metered cfg
      · rfl
      · obtain ⟨r, h⟩ := checkFunds_frame cfg tx (startWorld w)
        rw [if_pos rfl, h]; rfl
    cases hc : (if tx.metered cfg then checkFunds cfg tx (startWorld w) else (.ok (), startWorld w)) with
    | mk q v =>
      rw [hc] at h1
      simp only at h1
      cases q with
      | error e => exact ⟨e, v, rfl, h1⟩
      | ok u =>
        simp only
        obtain ⟨e, w1, he, hst⟩ := hset { v with env := Dict.update v.env tx.environment } h1
        rw [he]
        exact ⟨e, w1, rfl, hst⟩
  obtain ⟨e, w1, ha, hst⟩ := hatt
  constructor
  · obtain ⟨_, writes, w2, _, rfl, _⟩ := execute_ok h
    refine Output.status_one.2 ⟨e, ?_⟩
    simp only [ranOutcome, tryBlock, ha]
    rfl
  · have := execute_stack H cfg tx w
    rw [h, ha] at this
    have hst' : w'.stack = w.stack := by
      rcases this with h | h
      · exact h
      · exact h.trans hst
    exact ⟨f, n, s, hst'.trans hs, hr⟩

/-- That state is reached by the transaction above. -/
example : (execute Demo.host {} Demo.poison Demo.owned).2.Poisoned := by
  refine ⟨_, _, _, rfl, ?_⟩
  decide

end Verif
