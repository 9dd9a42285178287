import Verif.Props.Proxy
import Verif.Props.Submission
/-! # C85: submitting through the client -/
namespace Verif
open Spec

/-- What a successful call of a wrapped function ran, and what of its writes is left. -/
theorem wrapped_tx {H : Host} {cfg : ExecCfg} {tx : Tx} {B : Prog}
    {w w' : World} {o : Output} {F : Dict Str PyVal → Prog} {kw : Dict Str PyVal}
    (hhost : H.imported tx.contract = false ∧ H.importable tx.contract = false)
    (hfn : tx.code.fn = some (true, F)) (hkw : fixKwargs tx.kwargs = .ok kw) (hF : F kw = B)
    (hauto : tx.autoCommit = false) (h : execute H cfg tx w = (.ok o, w')) (hs : o.status = 0) :
    ∃ w0 v w4, B.run H w0 = (.ok v, w4) ∧ o.result = .ok v ∧
      w0.current.caller = some tx.sender ∧ w0.current.signer = some tx.sender ∧ w0.env = Dict.update w.env tx.environment ∧
      (∀ k, k ≠ balanceKey cfg tx.sender → Dict.get? w'.driver.pendingWrites k = Dict.get? w4.driver.pendingWrites k) ∧
      (∀ k, k ≠ balanceKey cfg tx.sender → w'.driver.find k = w4.driver.find k) ∧
      (tx.code.top = .ret .none → ∀ k, w0.driver.find k = w.driver.find k) := by
  obtain ⟨v, w1, ha, hres, _⟩ := execute_success h hs
  rcases attempt_ok ha with ⟨hh, _⟩ | ⟨w0, w2, p, hp, hf, hrun⟩
  · rw [hhost.1, hhost.2] at hh; simp at hh
  · obtain ⟨r, own, hw0⟩ := txPrepared_frame hp
    obtain ⟨fn, kwargs, w3, sub, hfn', hkw', rfl, rfl, _, hw3⟩ := fnWorld_cases hf
    rw [hfn] at hfn'
    cases hfn'
    rw [hkw] at hkw'
    cases hkw'
    have hbase : w3.base = w0.base ∧ w3.env = w0.env := by
      rcases hw3 with ⟨r, rfl, _⟩ | ⟨wt, v, wv, ht, hr, rfl⟩
      · exact ⟨rfl, rfl⟩
      · have h1 := (Prog.run_outside H tx.code.top wt).2.2.2
        rw [hr] at h1
        obtain ⟨r', hft⟩ := topWorld_frame ht
        simp only [World.addLoaded]
        rw [h1.1, h1.2.1, hft]
        exact ⟨rfl, rfl⟩
    simp only [Spec.entryProg, if_true, hF] at hrun
    simp only [Prog.run, enter] at hrun
    generalize hws : setUp tx (tx.metered cfg) { w3 with base := { w3.base with submission := sub } } = ws at hrun
    have hcur : ws.current = { w3.base with submission := sub } := by rw [← hws]; rfl
    have hthis : ws.current.this = some tx.contract := by
      rw [hcur, hbase.1, hw0]; rfl
    have hcaller : ws.current.caller = some tx.sender := by
      rw [hcur, hbase.1, hw0]; rfl
    have hsigner : ws.current.signer = some tx.sender := by
      rw [hcur, hbase.1, hw0]; rfl
    have henv : ws.env = Dict.update w.env tx.environment := by
      rw [← hws]; simp only [setUp]; rw [hbase.2, hw0]
    rw [if_neg (by rw [hthis]; simp)] at hrun
    have hins : ws.insState = ws := by rw [← hws]; rfl
    rw [hins] at hrun
    simp only at hrun
    cases hb : (B).run H ws with
    | mk r w4 =>
      rw [hb] at hrun
      cases r with
      | error e => cases hrun
      | ok v' =>
        simp only [Prog.run, Prod.mk.injEq, Except.ok.injEq] at hrun
        obtain ⟨rfl, rfl⟩ := hrun
        have hstart : tx.code.top = .ret .none → ∀ k, ws.driver.find k = w.driver.find k := by
          intro htop k
          have e0 : w0.driver.find k = w.driver.find k := by rw [hw0]; rfl
          rw [← hws, ← e0]
          show w3.driver.find k = _
          rcases hw3 with ⟨r, rfl, _⟩ | ⟨wt, v, wv, ht, hr, rfl⟩
          · rfl
          · rw [htop] at hr
            cases hr
            obtain ⟨r', hft⟩ := topWorld_frame ht
            rw [hft]; rfl
        have key : (∀ k, k ≠ balanceKey cfg tx.sender → Dict.get? w'.driver.pendingWrites k = Dict.get? w4.driver.pendingWrites k) ∧
            w'.driver.cache = w4.driver.cache ∧ w'.driver.disk = w4.driver.disk ∧ w'.driver.bypass = w4.driver.bypass := ?_
        refine ⟨ws, v', w4, hb, hres, hcaller, hsigner, henv, key.1,
          fun k hk => by unfold Driver.find Driver.fromDisk dget; rw [key.1 k hk, key.2.1, key.2.2.1, key.2.2.2], hstart⟩
        obtain ⟨_, wr, w5, hfee, _, rfl⟩ := execute_ok h
        have hran : (ranWorld H cfg tx w).driver = w4.driver.clearEvents.clearTxWrites := by
          have ht : tryBlock H cfg tx (tx.metered cfg) w.driver.pendingWrites (startWorld w) =
              ({ result := .ok v', writes := w4.popState.driver.txWrites, events := w4.popState.driver.events },
                { w4.popState with meter := w4.popState.meter.stop, restricted := false }) := by
            unfold tryBlock
            rw [ha]
            simp only [hauto, Bool.false_eq_true, if_false]
          unfold ranWorld
          simp only [ht]
          obtain ⟨s, hps⟩ := popState_frame w4
          rw [hps]
        have hst : (ranWorld H cfg tx w).meter.started = false := rfl
        change (∀ k, _ → Dict.get? _ k = Dict.get? w4.driver.clearEvents.clearTxWrites.pendingWrites k) ∧
            _ = w4.driver.clearEvents.clearTxWrites.cache ∧ _ = w4.driver.clearEvents.clearTxWrites.disk ∧
            _ = w4.driver.clearEvents.clearTxWrites.bypass
        rw [← hran]
        cases hm : tx.metered cfg with
        | false =>
          rw [hm] at hfee
          simp only [Bool.false_eq_true, if_false, Prod.mk.injEq] at hfee
          rw [← hfee.2]
          exact ⟨fun _ _ => rfl, rfl, rfl, rfl⟩
        | true =>
          rw [hm] at hfee
          simp only [if_true] at hfee
          obtain ⟨_, _, _, _, _, _, _, _, rfl⟩ := chargeFee_ok hauto hst hfee
          exact ⟨fun k hk => Dict.get?_set_ne _ _ (Ne.symm hk), rfl, rfl, rfl⟩

/-- What a successful transaction of `submit_contract` ran, and what of its writes is left. -/
theorem submit_tx {H : Host} {T : Toolchain} {cfg : ExecCfg} {tx : Tx} {name code : Str} {owner : PyVal} {top : Prog}
    {w w' : World} {o : Output} {F : Dict Str PyVal → Prog} {kw : Dict Str PyVal}
    (hcon : tx.contract = py! "submission") (hhost : H.imported tx.contract = false ∧ H.importable tx.contract = false)
    (hfn : tx.code.fn = some (true, F)) (hkw : fixKwargs tx.kwargs = .ok kw) (hF : F kw = submitContract H T name code owner top)
    (hauto : tx.autoCommit = false) (h : execute H cfg tx w = (.ok o, w')) (hs : o.status = 0) :
    ∃ w0 v w4, (submitContract H T name code owner top).run H w0 = (.ok v, w4) ∧ o.result = .ok v ∧
      w0.current.caller = some tx.sender ∧ w0.current.signer = some tx.sender ∧ w0.env = Dict.update w.env tx.environment ∧
      (∀ k, k ≠ balanceKey cfg tx.sender → Dict.get? w'.driver.pendingWrites k = Dict.get? w4.driver.pendingWrites k) ∧
      (∀ k, k ≠ balanceKey cfg tx.sender → w'.driver.find k = w4.driver.find k) ∧
      (tx.code.top = .ret .none → ∀ k, w0.driver.find k = w.driver.find k) :=
  wrapped_tx hhost hfn hkw hF hauto h hs

/-- The records are no balances. -/
theorem record_ne_balance {n s : Str} (hn : ':' ∉ n) (hs : s ∈ records) (cfg : ExecCfg) (sender : Str) :
    makeKey n s ≠ balanceKey cfg sender := by
  intro h
  have h1 : ':' ∈ makeKey n s := by rw [h]; simp [balanceKey]
  have h2 : ':' ∉ s := by
    simp only [records, fixedRecords, List.mem_cons, List.not_mem_nil, or_false] at hs
    rcases hs with rfl | rfl | rfl | rfl | rfl <;> decide
  unfold makeKey at h1
  rcases List.mem_append.1 h1 with h1 | h1
  · exact hn h1
  · rcases List.mem_cons.1 h1 with h1 | h1
    · exact absurd h1 (by decide)
    · exact h2 h1

/-- The time the client gives a transaction: `now` of the client's environment if there is one, else the clock. -/
def Spec.clientNow (environment : Dict Str PyVal) (clock : PyVal) : PyVal :=
  match Dict.get? environment (py! "now") with
  | some v => if v = .none then clock else v
  | none => clock

theorem dget_update_now {env : Dict Str PyVal} (henv : (Dict.keys env).Nodup) (clock : PyVal) (d : Dict Str PyVal) :
    dget (Dict.update d (fillNow env .none clock)) (py! "now") = Spec.clientNow env clock := by
  have hnd : (Dict.keys (fillNow env .none clock)).Nodup := by
    unfold fillNow; split
    · exact Dict.WF.set henv _ _
    · exact henv
  unfold dget
  rw [get?_update_val _ _ hnd]
  unfold fillNow Spec.clientNow dget
  cases h : Dict.get? env (py! "now") with
  | none => simp [PyVal.isNone]
  | some v =>
    by_cases hv : v = .none
    · subst hv; simp [PyVal.isNone]
    · have : v.isNone = false := by
        cases hq : v.isNone with
        | false => rfl
        | true => exact absurd (isNone_iff.1 hq) hv
      simp [this, h, hv]

/-- The transaction `submit` makes. -/
def submitTxOf (c : Client) (a : SubmitArgs) (name : Str) (clock : PyVal) (code : Code) : Tx :=
  { sender := a.signer.getD c.signer, contract := c.name, function := py! "submit_contract"
    kwargs := [(py! "name", .str name), (py! "code", .str a.source), (py! "owner", optStr a.owner), (py! "constructor_args", .dict a.args)]
    environment := fillNow c.environment .none clock, metering := a.metering, code := code }

theorem submit_eq (H : Host) (c : Client) (hpr : c.production = false) (a : SubmitArgs) (name : Str) (hname : a.name = some name)
    (clock : PyVal) (code : Code) :
    (c.submit H a clock code).1 = (match (execute H c.cfg (submitTxOf c a name clock code) c.world).1 with
      | .error e => .error e
      | .ok o => o.result.map fun _ => ()) ∧
    (c.submit H a clock code).2.world = (execute H c.cfg (submitTxOf c a name clock code) c.world).2 := by
  unfold Client.submit
  rw [hname]
  simp only [Client.proxyCall, bindCall]
  have : Dict.update ((([py! "name", py! "code", py! "owner", py! "constructor_args"] : List Str).filter fun p => !callKeywords.contains p).map fun p => (p, PyVal.none))
      [(py! "name", .str name), (py! "code", .str a.source), (py! "owner", optStr a.owner), (py! "constructor_args", .dict a.args)] =
      [(py! "name", .str name), (py! "code", .str a.source), (py! "owner", optStr a.owner), (py! "constructor_args", .dict a.args)] := rfl
  rw [this, if_neg (by decide)]
  simp only [Client.call, List.length_nil, if_true]
  split
  · rename_i e w he
    have he' : execute H c.cfg (submitTxOf c a name clock code) c.world = (.error e, w) := he
    rw [he']
    exact ⟨rfl, rfl⟩
  · rename_i o w he
    have he' : execute H c.cfg (submitTxOf c a name clock code) c.world = (.ok o, w) := he
    rw [he', hpr]
    exact ⟨rfl, rfl⟩

/-- **C85.** If `client.submit(source, name=..., owner=...)` returns, the name obeys the rules, the source was compiled, and what is now pending
under the contract's name is the compiled source, the owner given, the signer as developer and the time. -/
theorem C85_submitted {H : Host} {T : Toolchain} {topOf : Str → Str → PyVal → Prog} {N : Str → Prop} {c : Client} {a : SubmitArgs}
    {clock : PyVal} {code : Code} (hpr : c.production = false) (hc : c.name = py! "submission")
    (hhost : H.imported (py! "submission") = false ∧ H.importable (py! "submission") = false) (henv : (Dict.keys c.environment).Nodup)
    (hcode : code.fn = some (submitFn H T topOf))
    (hcolon : ∀ n, a.name = some n → ':' ∉ n) (htop : ∀ n, (topOf n a.source (.dict a.args)).All (UserAction N))
    (h : (c.submit H a clock code).1 = .ok ()) :
    ∃ name text answer, a.name = some name ∧ name.length ≤ 64 ∧ H.strIsLower name = true ∧
      (py! "con_" <+: name ∨ a.signer.getD c.signer = py! "sys") ∧ T.parse name a.source = .ok text ∧
      Recorded T name text (optStr a.owner) (recordedTime T answer (Spec.clientNow c.environment clock)) (.str (a.signer.getD c.signer))
        (c.submit H a clock code).2.world.driver := by
  cases hname : a.name with
  | none => unfold Client.submit at h; rw [hname] at h; cases h
  | some name =>
    obtain ⟨h1, h2⟩ := submit_eq H c hpr a name hname clock code
    rw [h1] at h
    rw [h2]
    cases hx : execute H c.cfg (submitTxOf c a name clock code) c.world with
    | mk r w' =>
      rw [hx] at h
      cases r with
      | error e => cases h
      | ok o =>
        simp only at h
        have hs : o.status = 0 := by
          unfold Output.status
          cases hr : o.result with
          | error e => rw [hr] at h; cases h
          | ok v => rfl
        have hkw : fixKwargs (submitTxOf c a name clock code).kwargs = .ok (submitTxOf c a name clock code).kwargs := by
          unfold submitTxOf
          cases a.owner <;> rfl
        obtain ⟨w0, v, w4, hrun, _, hcall, hsig, henv', hw, _⟩ := submit_tx (T := T) (name := name) (code := a.source) (owner := optStr a.owner)
          (top := topOf name a.source (.dict a.args)) hc (by rw [show (submitTxOf c a name clock code).contract = _ from hc]; exact hhost)
          (show (submitTxOf c a name clock code).code.fn = some (true, (submitFn H T topOf).2) from hcode) hkw rfl rfl hx hs
        obtain ⟨_, r1, r2, r3, _, _⟩ := C51_rules hrun
        rw [hcall] at r3
        obtain ⟨text, answer, r, w1, t1, t2, t3⟩ := C51_recorded (hcolon name hname) (htop name) hrun
        refine ⟨name, text, answer, rfl, r1, r2, r3.imp id (fun x => Option.some.inj x), t1, ?_⟩
        have ht : w0.envGet (py! "now") = Spec.clientNow c.environment clock := by
          unfold World.envGet
          rw [henv']
          exact dget_update_now henv clock _
        rw [ht, hcall] at t3
        have keep : ∀ s ∈ records, Dict.get? w'.driver.pendingWrites (makeKey name s) = Dict.get? w4.driver.pendingWrites (makeKey name s) :=
          fun s hs => hw _ (record_ne_balance (hcolon name hname) hs _ _)
        exact ⟨(keep _ (by decide)).trans t3.code,
          t3.compiled.imp fun b hb => ⟨hb.1, (keep _ (by decide)).trans hb.2⟩,
          t3.owner.imp fun b hb => ⟨hb.1, (keep _ (by decide)).trans hb.2⟩,
          t3.time.imp fun b hb => ⟨hb.1, (keep _ (by decide)).trans hb.2⟩,
          t3.developer.imp fun b hb => ⟨hb.1, (keep _ (by decide)).trans hb.2⟩⟩

/-- **C85.** Without a name, `submit` raises and nothing happens. -/
theorem C85_unnamed (H : Host) (c : Client) (a : SubmitArgs) (h : a.name = none) (clock : PyVal) (code : Code) :
    c.submit H a clock code = (.error .assertion, c) := by
  unfold Client.submit; rw [h]

/-- **C85.** If an unmetered `submit` raises, the disk and the pending writes are as before. -/
theorem C85_failed {H : Host} {c : Client} {a : SubmitArgs} {clock : PyVal} {code : Code} {e : PyErr} (hpr : c.production = false)
    (hm : a.metering.getD c.cfg.metering = false) (h : (c.submit H a clock code).1 = .error e) :
    (c.submit H a clock code).2.world.driver.disk = c.world.driver.disk ∧
    (c.submit H a clock code).2.world.driver.pendingWrites = c.world.driver.pendingWrites := by
  cases hname : a.name with
  | none => rw [C85_unnamed H c a hname]; exact ⟨rfl, rfl⟩
  | some name =>
    obtain ⟨h1, h2⟩ := submit_eq H c hpr a name hname clock code
    rw [h1] at h
    rw [h2]
    have hm' : (submitTxOf c a name clock code).metered c.cfg = false := hm
    cases hx : execute H c.cfg (submitTxOf c a name clock code) c.world with
    | mk r w' =>
      rw [hx] at h
      cases r with
      | error e' =>
        exfalso
        rw [execute_eq, if_neg (by simp [submitTxOf, startsWith, List.isPrefixOf])] at hx
        rw [if_neg (by rw [hm']; simp)] at hx
        cases hx
      | ok o =>
        have hs : o.status = 1 := by
          unfold Output.status
          cases hr : o.result with
          | error e => rfl
          | ok v => simp only [hr] at h; cases h
        obtain ⟨r1, r2, _⟩ := C27_failed rfl hx hs
        exact ⟨r1, r2 hm'⟩

namespace Demo

/-- The client's object for the submission contract. -/
def subClient : Client := { name := py! "submission", signer := bob, environment := [], cfg := { metering := false }, world := w1 }

/-- The code of the submission contract; submitted sources do nothing when run. -/
def subCode : Code := { top := .ret .none, fn := some (submitFn host tools fun _ _ _ => .ret .none) }

end Demo

open Demo in
/-- `client.submit('outer', name='con_b', owner='eve')` returns and records everything; the hypotheses of `C85_submitted` are met. Without
`con_` it raises. -/
example :
    let r := subClient.submit host { source := py! "outer", name := some (py! "con_b"), owner := some (py! "eve") } (.int 3) subCode
    r.1 = .ok () ∧ r.2.world.driver.find (codeKey (py! "con_b")) = .ok (.str (py! "outer")) ∧
    r.2.world.driver.find (ownerKey (py! "con_b")) = .ok (.str (py! "eve")) ∧
    r.2.world.driver.find (developerKey (py! "con_b")) = .ok (.str bob) ∧
    r.2.world.driver.find (timeKey (py! "con_b")) = .ok (.int 3) ∧
    (subClient.submit host { source := py! "outer", name := some (py! "b") } (.int 3) subCode).1 = .error .assertion := by
  decide +kernel

open Demo in
/-- The theorem applies to this call. -/
example :
    let a : SubmitArgs := { source := py! "outer", name := some (py! "con_b"), owner := some (py! "eve") }
    ∃ name text answer, a.name = some name ∧ name.length ≤ 64 ∧ host.strIsLower name = true ∧
      (py! "con_" <+: name ∨ a.signer.getD subClient.signer = py! "sys") ∧ tools.parse name a.source = .ok text ∧
      Recorded tools name text (optStr a.owner) (recordedTime tools answer (Spec.clientNow subClient.environment (.int 3)))
        (.str (a.signer.getD subClient.signer)) (subClient.submit host a (.int 3) subCode).2.world.driver :=
  C85_submitted (N := fun _ => True) rfl rfl ⟨rfl, rfl⟩ List.nodup_nil rfl (fun n h => by cases h; decide) (fun _ => trivial)
    (by decide +kernel)

end Verif
