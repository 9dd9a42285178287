import Verif.Proofs.Unmetered
import Verif.Props.Stamps
import Verif.Props.Context
import Verif.Proofs.Node4
/-!
# C106: metering changes nothing but the fee
-/
namespace Verif
open Verif.Lang

variable {m : Meter}

theorem setBase_quiet (tx : Tx) : Silent (setBase tx) := by
  refine ((owner_quiet tx.contract).bind (β := Except PyErr Unit) (g := fun r w => match r with
    | .error e => (.error e, w)
    | .ok owner =>
      let f : Frame := { signer := some tx.sender, caller := some tx.sender, this := some tx.contract,
                         entry := some (tx.contract, tx.function), owner := owner, submission := .none }
      (if ownerRefuses ({ w with base := f } : World).current.owner ({ w with base := f } : World).current.caller then .error .exception else .ok (),
        { w with base := f })) fun r => ?_).of_eq fun w => ?_
  · cases r with
    | error e => exact .pure _
    | ok owner => exact ⟨fun ⟨r, h⟩ => by subst h; exact ⟨rfl, rfl, r, rfl⟩⟩
  · unfold setBase
    rcases w.driver.getOwner tx.contract with ⟨_ | o, d⟩
    · rfl
    · simp only
      split <;> rfl

/-- The funds check leaves everything as it was, but for what is recorded as read. -/
theorem checkFunds_off {cfg : ExecCfg} {tx : Tx} {w w1 : World} {x : Except PyErr Unit} (h : checkFunds cfg tx w = (x, w1)) :
    w1.driver.disk = w.driver.disk ∧ Off w.meter w1 w := by
  have key : ∃ r, w1 = { w with driver := { w.driver with pendingReads := r } } := by
    unfold checkFunds at h
    simp only at h
    have hw : ∀ {d : Driver} {r : Except PyErr PyVal}, (match r with
        | .error e => (.error e, { w with driver := d })
        | .ok balance => match hasFunds balance tx.stampCost tx.stamps with
          | .error e => (.error e, { w with driver := d })
          | .ok false => (.error .assertion, { w with driver := d })
          | .ok true => (.ok (), { w with driver := d })) = (x, w1) → w1 = { w with driver := d } := by
      intro d r h
      cases r with
      | error e => cases h; rfl
      | ok b =>
        simp only at h
        generalize hasFunds b tx.stampCost tx.stamps = q at h
        rcases q with _ | _ | _ <;> · cases h; rfl
    have := hw h
    by_cases hb : cfg.bypassBalance = true
    · rw [if_pos hb] at this
      exact ⟨w.driver.pendingReads, this⟩
    · rw [if_neg hb, get_reads] at this
      exact ⟨_, this⟩
  obtain ⟨r, rfl⟩ := key
  exact ⟨rfl, w.driver.pendingReads, rfl⟩

theorem loadEntry_off (hm : m.started = false) {H : Host} {tx : Tx} (hn : tx.code.NoCatch) (ha : tx.code.All Action.NotGuarded) {w u w1 : World}
    {x : Bool} (hr : Spec.Readable w.driver.disk) (h : loadEntry H tx w = (.ok x, w1)) (hu : Off m w u) :
    w1.driver.disk = w.driver.disk ∧ ∃ u1, loadEntry H tx u = (.ok x, u1) ∧ Off m w1 u1 := by
  unfold loadEntry at h ⊢
  obtain ⟨d1, e1, o1⟩ := (lookup_quiet H tx.contract).run hu
  rcases h1 : lookup H w tx.contract with ⟨_ | f, wa⟩
  · rw [h1] at h; cases h
  · rw [h1] at h d1 e1 o1
    rw [show lookup H u tx.contract = (.ok f, (lookup H u tx.contract).2) from Prod.ext e1 rfl]
    cases f with
    | missing => cases h
    | host => cases h; exact ⟨d1, _, rfl, o1⟩
    | loaded => cases h; exact ⟨d1, _, rfl, o1⟩
    | contract =>
      simp only at h d1 o1 ⊢
      obtain ⟨d2, e2, o2⟩ := (fetchCompiled_quiet tx.contract).run o1
      rcases h2 : fetchCompiled wa tx.contract with ⟨_ | _, wb⟩
      · rw [h2] at h; cases h
      · rw [h2] at h d2 e2 o2
        rw [show fetchCompiled (lookup H u tx.contract).2 tx.contract = (.ok (), (fetchCompiled (lookup H u tx.contract).2 tx.contract).2) from Prod.ext e2 rfl]
        simp only at h d2 o2 ⊢
        rcases h3 : tx.code.top.run H wb with ⟨_ | v, wc⟩
        · rw [h3] at h; cases h
        · rw [h3] at h
          cases h
          obtain ⟨d3, u3, e3, r3, o3⟩ := Prog.off hm _ hn.1 ha.1 (by rw [d2, d1]; exact hr) h3 o2
          rw [e3]
          exact ⟨d3.trans (d2.trans d1), _, rfl, r3, by rw [o3]; rfl⟩

theorem invoke_off (hm : m.started = false) {H : Host} {tx : Tx} (hn : tx.code.NoCatch) (ha : tx.code.All Action.NotGuarded) {host : Bool}
    {w u w1 : World} {v : PyVal} (hr : Spec.Readable w.driver.disk) (h : invoke H tx true host w = (.ok v, w1)) (hu : Off m w u) :
    w1.driver.disk = w.driver.disk ∧ ∃ u1, invoke H tx false host u = (.ok v, u1) ∧ Off m w1 u1 := by
  have up : ∀ {w u : World}, Off m w u → Off m (setUp tx true w) (setUp tx false u) := by
    rintro w _ ⟨r, rfl⟩
    exact ⟨r, rfl⟩
  unfold invoke at h ⊢
  cases host with
  | true =>
    simp only [if_true] at h ⊢
    have e1 : H.hostCall tx.contract tx.function = .ok v := congrArg Prod.fst h
    have e2 := congrArg Prod.snd h
    simp only at e2
    subst e2
    obtain ⟨r, rfl⟩ := hu
    exact ⟨rfl, _, Prod.ext e1 rfl, r, rfl⟩
  | false =>
    simp only [Bool.false_eq_true, if_false] at h ⊢
    cases hf : tx.code.fn with
    | none => rw [hf] at h; cases h
    | some fn =>
      rw [hf] at h
      simp only at h ⊢
      cases hk : fixKwargs tx.kwargs with
      | error e => rw [hk] at h; cases h
      | ok kwargs =>
        rw [hk] at h
        simp only at h ⊢
        have hb : ∀ {w u w1 : World}, Spec.Readable w.driver.disk → callEntry H tx kwargs fn (setUp tx true w) = (.ok v, w1) → Off m w u →
            w1.driver.disk = w.driver.disk ∧ ∃ u1, callEntry H tx kwargs fn (setUp tx false u) = (.ok v, u1) ∧ Off m w1 u1 := by
          intro w u w1 hr h hu
          unfold callEntry at h ⊢
          cases hw : fn.1 with
          | true =>
            rw [hw, if_pos rfl] at h
            rw [if_pos rfl]
            refine Prog.off hm (Prog.call tx.contract (fn.2 kwargs) fun r => match r with | .ok v => .ret v | .error e => .raise e)
              ⟨hn.2 _ hf kwargs, fun _ => rfl, fun _ => trivial⟩ ⟨ha.2 _ hf kwargs, fun r => ?_⟩ (w := setUp tx true w) hr h (up hu)
            cases r <;> trivial
          | false =>
            rw [hw, if_neg (by simp)] at h
            rw [if_neg (by simp)]
            exact Prog.off hm _ (hn.2 _ hf kwargs) (ha.2 _ hf kwargs) (w := setUp tx true w) hr h (up hu)
        by_cases hs : tx.contract = py! "submission"
        · rw [if_pos hs] at h ⊢
          have hu' : ∀ {f : Frame}, Off m { w with base := f } { u with base := f } := by
            obtain ⟨r, rfl⟩ := hu
            exact ⟨r, rfl⟩
          have hbase : u.base = w.base := by obtain ⟨r, rfl⟩ := hu; rfl
          rw [hbase]
          refine hb (w := { w with base := { w.base with submission := (Dict.get? tx.kwargs (py! "name")).getD .none } }) hr h hu'
        · rw [if_neg hs] at h ⊢
          exact hb hr h hu

theorem attempt_off {H : Host} {cfg : ExecCfg} {tx : Tx} (hn : tx.code.NoCatch) (ha : tx.code.All Action.NotGuarded) {w w1 : World} {v : PyVal}
    (hm : w.meter.started = false) (hr : Spec.Readable w.driver.disk) (h : attempt H cfg tx true w = (.ok v, w1)) :
    w1.driver.disk = w.driver.disk ∧ ∃ u1, attempt H cfg tx false w = (.ok v, u1) ∧ Off w.meter w1 u1 := by
  unfold attempt at h ⊢
  rw [if_pos rfl] at h
  rw [if_neg (by simp)]
  rcases h1 : checkFunds cfg tx w with ⟨_ | _, wa⟩
  · rw [h1] at h; cases h
  · rw [h1] at h
    simp only at h ⊢
    obtain ⟨d1, r1, o1⟩ := checkFunds_off h1
    have o2 : Off w.meter { wa with env := Dict.update wa.env tx.environment } { w with env := Dict.update w.env tx.environment } :=
      ⟨r1, by rw [o1]⟩
    obtain ⟨d3, e3, o3⟩ := (setBase_quiet tx).run o2
    rcases h3 : setBase tx { wa with env := Dict.update wa.env tx.environment } with ⟨_ | _, wb⟩
    · rw [h3] at h; cases h
    · rw [h3] at h d3 e3 o3
      rw [show setBase tx { w with env := Dict.update w.env tx.environment } = (.ok (), (setBase tx { w with env := Dict.update w.env tx.environment }).2)
        from Prod.ext e3 rfl]
      simp only at h d3 o3 ⊢
      rcases h4 : loadEntry H tx wb with ⟨_ | host, wc⟩
      · rw [h4] at h; cases h
      · rw [h4] at h
        have hd : wb.driver.disk = w.driver.disk := d3.trans d1
        obtain ⟨d4, u4, e4, o4⟩ := loadEntry_off hm hn ha (by rw [hd]; exact hr) h4 o3
        rw [e4]
        obtain ⟨d5, u5, e5, o5⟩ := invoke_off hm hn ha (by rw [d4, hd]; exact hr) h o4
        exact ⟨by rw [d5, d4, hd], u5, e5, o5⟩

/-- **C106.** A metered transaction that succeeds, executed without metering instead: it succeeds as well, with the same
result and events, it reports the same writes, and the state it leaves behind is the same, except for the sender's balance.
And the balance the metered transaction leaves is that of the unmetered one minus the fee (not below zero). The code must
not swallow the exceptions of the meter (see `C106_refuted`). -/
theorem C106_unmetered {H : Host} {cfg : ExecCfg} {tx : Tx} {w w' : World} {o : Output} (hn : tx.code.NoCatch) (ha : tx.code.All Action.NotGuarded)
    (hread : Spec.Readable w.driver.disk) (hidle : w.meter.started = false) (hm : tx.metered cfg = true) (hauto : tx.autoCommit = false)
    (he : execute H cfg tx w = (.ok o, w')) (hst : o.status = 0) :
    ∃ o' w'', execute H cfg { tx with metering := some false } w = (.ok o', w'') ∧ Spec.SameButFee cfg tx o o' ∧
      w''.driver.disk = w'.driver.disk ∧ (∀ k, k ≠ balanceKey cfg tx.sender → w''.driver.find k = w'.driver.find k) ∧
      ∃ fee before after, cdOfStr (H.fdiv o.stampsUsed tx.stampCost).text = .ok fee ∧
        w''.driver.find (balanceKey cfg tx.sender) = .ok before ∧
        Dict.get? w'.driver.pendingWrites (balanceKey cfg tx.sender) = some after ∧
        Dict.get? o.writes (balanceKey cfg tx.sender) = some after ∧
        ∀ B, Spec.balanceVal before = some B → (∀ d, before = .dec d → IsCD d) → B ≤ 10 ^ 29 → B - fee.val ≤ 10 ^ 29 →
          Spec.balanceVal after = some (max 0 (B - fee.val)) := by
  obtain ⟨fee, before, after, f1, f2, f3, f4, f5⟩ := C29_balance hauto he hm
  obtain ⟨hpriv, writes, w2, hw, ho, hw'⟩ := execute_ok he
  obtain ⟨v, hr⟩ : ∃ v, (ranOutcome H cfg tx w).result = .ok v := by
    have := Output.status_zero.1 hst
    rw [ho] at this
    exact this
  obtain ⟨t1, t2⟩ := tryBlock_ok hauto (h := hr)
  rw [hm] at t1 t2
  obtain ⟨d1, u1, e1, r1, o1⟩ := attempt_off (H := H) (cfg := cfg) (w := startWorld w) hn ha hidle hread (Prod.ext t1 rfl)
  have hoff : ({ tx with metering := some false } : Tx).metered cfg = false := rfl
  have eT : tryBlock H cfg { tx with metering := some false } false w.driver.pendingWrites (startWorld w) =
      ({ result := .ok v, writes := u1.driver.txWrites, events := u1.driver.events }, { u1 with meter := u1.meter.stop, restricted := false }) := by
    show tryBlock H cfg tx false w.driver.pendingWrites (startWorld w) = _
    unfold tryBlock
    rw [e1]
    simp only [hauto, Bool.false_eq_true, if_false]
  rw [hm, if_pos rfl] at hw
  obtain ⟨_, _, b, r, _, _, _, hwr, hfin⟩ := chargeFee_ok hauto rfl hw
  have eO : ranOutcome H cfg tx w = { result := .ok v, writes := u1.driver.txWrites, events := u1.driver.events } := by
    unfold ranOutcome
    rw [hm, t2, o1]
  have eO' : ranOutcome H cfg { tx with metering := some false } w = ranOutcome H cfg tx w := by
    rw [eO]
    unfold ranOutcome
    rw [hoff, eT]
  have eW : ∃ r0, (ranWorld H cfg { tx with metering := some false } w).driver = { (ranWorld H cfg tx w).driver with pendingReads := r0 } := by
    refine ⟨r1, ?_⟩
    unfold ranWorld
    rw [hoff, hm, eT, t2, o1]
    rfl
  obtain ⟨r0, eW⟩ := eW
  refine ⟨_, _, Lang.execute_eq (tx := { tx with metering := some false }) hpriv, ?_, ?_, fun k hk => ?_, fee, before, after, f1, ?_, f3, f4, f5⟩
  · refine ⟨?_, ?_, fun k hk => ?_⟩
    · rw [eO', ho]
    · rw [eO', ho]
    · rw [eO', ho]
      simp only
      rw [hwr, Dict.get?_set_ne _ _ (Ne.symm hk)]
  · show (ranWorld H cfg { tx with metering := some false } w).driver.disk = _
    rw [eW, hw', hfin]
    rfl
  · show (ranWorld H cfg { tx with metering := some false } w).driver.find k = _
    rw [eW, hw', hfin]
    unfold Driver.find dget cleanUp
    simp only
    rw [Dict.get?_set_ne _ _ (Ne.symm hk)]
    rfl
  · show (ranWorld H cfg { tx with metering := some false } w).driver.find _ = _
    rw [eW]
    rw [(Driver.get_frame _ _).2] at f2
    exact f2

end Verif

namespace Verif.Lang
open Verif

/-! ### For contracts a node runs -/

theorem free_closed : Closed (fun p => p.NoCatch ∧ p.All Action.NotGuarded) (fun a => Action.NotGuarded a) where
  ret := fun _ => ⟨trivial, trivial⟩
  raise := fun _ => ⟨trivial, trivial⟩
  act := fun {a f} h hk => ⟨⟨fun _ => rfl, fun v => (hk v).1⟩, h, fun r => by
    cases r with
    | ok v => exact (hk v).2
    | error e => exact trivial⟩
  load := fun {n d body f} h hk => ⟨⟨h.1, fun _ => rfl, fun v => (hk v).1⟩, h.2, fun r => by
    cases r with
    | ok v => exact (hk v).2
    | error e => exact trivial⟩

theorem free_allows : Allows (fun _ => True) (fun _ => True) (fun _ => True) (fun a => Action.NotGuarded a) := by
  constructor <;> intros <;> try trivial
  · rename_i a x h
    exact ctxAction_free h
  · rename_i h
    exact randomCall_free h

theorem free_ready (C : Chain) :
    Ready (fun p => p.NoCatch ∧ p.All Action.NotGuarded) (fun _ => True) (fun _ => True) (fun _ => True) C (fun _ => True) where
  attrs := fun _ _ => trivial
  events := fun _ _ _ _ _ _ _ _ _ _ => trivial
  global := fun _ _ _ _ _ _ => trivial
  member := fun _ _ _ _ _ => trivial
  code := fun _ _ f _ _ _ => by
    have he : ∀ es : List Expr, exprsAll (fun _ => True) (fun _ => True) es := fun es => exprs_all es ⟨fun _ _ => trivial, fun _ _ _ => trivial⟩
    have hs : ∀ es : List Stmt, stmtsAll (fun _ => True) (fun _ => True) es := fun es => stmts_all es ⟨fun _ _ => trivial, fun _ _ _ => trivial⟩
    exact ⟨he _, hs _⟩
  plain := fun _ _ _ _ h => (h trivial).elim
  call := fun _ _ _ _ _ _ _ hb hk => ⟨⟨(hb trivial).1, fun _ => rfl, fun v => (hk v).1⟩, (hb trivial).2, fun r => by
    cases r with
    | ok v => exact (hk v).2
    | error e => exact trivial⟩

theorem free_submits (name : Str) : Submits (fun p => p.NoCatch ∧ p.All Action.NotGuarded) name (fun _ => True) where
  ret _ := ⟨trivial, trivial⟩
  raise _ := ⟨trivial, trivial⟩
  get h := ⟨perform_noCatch fun v => (h v).1, perform_all trivial fun v => (h v).2⟩
  caller h := ⟨perform_noCatch fun v => (h v).1, perform_all trivial fun v => (h v).2⟩
  signer h := ⟨perform_noCatch fun v => (h v).1, perform_all trivial fun v => (h v).2⟩
  env h := ⟨perform_noCatch fun v => (h v).1, perform_all trivial fun v => (h v).2⟩
  compiled _ h := ⟨perform_noCatch fun v => (h v).1, perform_all trivial fun v => (h v).2⟩
  record _ _ _ h := ⟨perform_noCatch fun v => (h v).1, perform_all trivial fun v => (h v).2⟩
  bind hp hf := ⟨bind_noCatch hp.1 (fun _ => rfl) fun v => (hf v).1,
    bind_all hp.2 fun r => by cases r with | ok v => exact (hf v).2 | error e => exact trivial⟩

/-- The code of a node's transactions lets exceptions through, those of the meter as well. -/
theorem nodeTx_free {N : Node} {H : Host} {d : Driver} {tx : Tx} (hg : GenuineState N d) (ht : NodeTx N H d tx) :
    tx.code.NoCatch ∧ tx.code.All Action.NotGuarded := by
  have key : (tx.code.top.NoCatch ∧ tx.code.top.All Action.NotGuarded) ∧
      ∀ fn kwargs, tx.code.fn = some fn → (fn.2 kwargs).NoCatch ∧ (fn.2 kwargs).All Action.NotGuarded := by
    obtain ⟨n, hcode⟩ := ht.code
    rw [hcode]
    by_cases hsub : tx.contract = py! "submission"
    · rw [hsub]
      refine ⟨by unfold Node.codeFor; rw [if_pos rfl]; exact ⟨trivial, trivial⟩, fun fn kwargs hf => ?_⟩
      obtain ⟨_, ⟨e, h⟩ | ⟨name, source, owner, args, h1, h2, _, h⟩ | ⟨contract, new, h1, h⟩⟩ := submission_cases hf kwargs
      · rw [h]; exact ⟨trivial, trivial⟩
      · rw [h]
        refine submitContract_P (free_submits name) fun t _ => ⟨fun _ _ => trivial, ?_⟩
        unfold Node.deploy
        split
        · exact ⟨trivial, trivial⟩
        · exact deploy_P free_closed free_allows (free_ready _) (fun _ => trivial) (free_submits name).bind (fun c i h => global_fn h) n args
      · rw [h]
        refine ⟨?_, changeDeveloper_all trivial trivial trivial⟩
        refine perform_noCatch fun d => perform_noCatch fun caller => ?_
        split
        · exact trivial
        · exact perform_noCatch fun _ => trivial
    · have hc : N.codeFor H n d tx.contract tx.function = (N.chain d).codeFor n tx.contract tx.function := by
        unfold Node.codeFor; rw [if_neg hsub]
      rw [hc]
      obtain ⟨src, hD, hs⟩ := chain_deployed hg
      refine ⟨Chain.top_P free_closed free_allows (fun _ _ _ _ _ _ _ _ _ _ => trivial) n tx.contract, fun fn kwargs hf => ?_⟩
      obtain ⟨m, hm, ⟨i, f, w, d', h1, h2, h3, rfl⟩ | rfl⟩ := entry_wrapped hD ht.pub hf
      · exact Chain.body_P free_closed free_allows (free_ready _) n tx.contract m f _ _ trivial hm (List.mem_of_getElem? h1)
          (fun _ _ => trivial) (fun _ _ => trivial)
      · exact ⟨trivial, trivial⟩
  exact ⟨⟨key.1.1, fun fn hf kw => (key.2 fn kw hf).1⟩, key.1.2, fun fn hf kw => (key.2 fn kw hf).2⟩

/-- **C106 for contracts a node runs**: the hypotheses on the code are met by every transaction of a node. -/
theorem C106_node {N : Node} {H : Host} {cfg : ExecCfg} {tx : Tx} {w w' : World} {o : Output} (hg : GenuineState N w.driver)
    (ht : NodeTx N H w.driver tx) (hread : Spec.Readable w.driver.disk) (hidle : w.meter.started = false) (hm : tx.metered cfg = true)
    (he : execute H cfg tx w = (.ok o, w')) (hst : o.status = 0) :
    ∃ o' w'', execute H cfg { tx with metering := some false } w = (.ok o', w'') ∧ Spec.SameButFee cfg tx o o' ∧
      w''.driver.disk = w'.driver.disk ∧ ∀ k, k ≠ balanceKey cfg tx.sender → w''.driver.find k = w'.driver.find k := by
  obtain ⟨o', w'', h1, h2, h3, h4, _⟩ := C106_unmetered (nodeTx_free hg ht).1 (nodeTx_free hg ht).2 hread hidle hm ht.auto he hst
  exact ⟨o', w'', h1, h2, h3, h4⟩

end Verif.Lang

namespace Verif
open Verif.Lang

/-- **C106 fails for library code that swallows exceptions** (`crypto.verify`, `Hash.all`, `Hash.clear`): once the line
limit strikes inside it, what it returns is not what it returns without metering. The program catches nothing. -/
theorem C106_refuted (H : Host) : ∃ p w, Prog.NoCatch p ∧ w.meter.started = false ∧
    (p.run H { w with meter := { w.meter with supplied := 1000 }.start }).1 = .ok (.bool false) ∧ (p.run H w).1 = .ok (.bool true) := by
  have err : ∀ (n : Nat) (m : Meter), m.started = true → m.calls ≤ 800000 → 800000 < m.calls + n → ∃ e, (libLines m n).1 = .error e := by
    intro n
    induction n with
    | zero => intro m _ h1 h2; omega
    | succ n ih =>
      intro m hs h1 h2
      unfold libLines Meter.line
      rw [if_pos hs]
      simp only [maxCallCount]
      by_cases hc : m.calls + 1 > 800000
      · rw [if_pos hc]
        exact ⟨_, rfl⟩
      · rw [if_neg hc]
        simp only [Bool.false_eq_true, if_false]
        exact ih { m with calls := m.calls + 1 } hs (show m.calls + 1 ≤ 800000 by omega) (show 800000 < m.calls + 1 + n by omega)
  refine ⟨api (.guarded 800001) .ret, { Demo.w0 with meter := {} }, ⟨fun _ => rfl, fun _ => trivial⟩, rfl, ?_, ?_⟩
  · obtain ⟨e, he⟩ := err 800001 ({ ({} : Meter) with supplied := 1000 }.start) rfl (by decide) (by decide)
    simp only [api, Prog.run, Action.run]
    rw [he]
    rfl
  · simp only [api, Prog.run, Action.run]
    rw [libLines_off rfl]
    rfl

theorem readable_of {disk : Disk} (h : ∀ p ∈ disk, (match p.2.value with | none => true | some t => (decode t).isOk) = true) : Spec.Readable disk := by
  intro l
  unfold Disk.get Disk.attrs
  cases hg : Dict.get? disk l with
  | none => exact ⟨_, rfl⟩
  | some a =>
    have := h _ (Dict.mem_of_get? hg)
    simp only [Option.getD_some]
    cases hv : a.value with
    | none => exact ⟨_, rfl⟩
    | some t =>
      simp only [hv] at this ⊢
      cases hd : decode t with
      | error e => rw [hd] at this; cases this
      | ok v => exact ⟨v, rfl⟩

namespace UnmeteredDemo
open NodeDemo (node w2 poke)

theorem readable : Spec.Readable w2.driver.disk := readable_of (by decide +kernel)

theorem genuine2 : GenuineState node w2.driver := by
  obtain ⟨o1, h1⟩ := NodeDemo.ran (cfg := {}) (t := NodeDemo.submission NodeDemo.w0 Verif.Demo.conA (py! "a")) (w := NodeDemo.w0) (by decide +kernel)
  obtain ⟨o2, h2⟩ := NodeDemo.ran (cfg := {}) (t := NodeDemo.submission NodeDemo.w1 Verif.Demo.conB (py! "b")) (w := NodeDemo.w1) (by decide +kernel)
  have h : NodeHistory node Verif.Demo.host (fun _ _ => True) (fun _ => True) NodeDemo.w0 w2 :=
    .tx (.tx (.start _) (NodeDemo.submission_tx NodeDemo.w0 (by decide) (by decide) (by decide +kernel)) NodeDemo.fees trivial h1)
      (NodeDemo.submission_tx NodeDemo.w1 (by decide) (by decide) (by decide +kernel)) NodeDemo.fees trivial h2
  exact (C96_genuine NodeDemo.faithful NodeDemo.disk0_genuine h).1

theorem done : (execute Verif.Demo.host {} (poke w2 7) w2).1.map Output.status = .ok 0 := by decide +kernel

/-- `C106_node`: `bob` calls `con_b.poke`, which calls `con_a.put`; metered (he pays) and unmetered. -/
example : ∃ o o' w' w'', execute Verif.Demo.host {} (poke w2 7) w2 = (.ok o, w') ∧
    execute Verif.Demo.host {} { poke w2 7 with metering := some false } w2 = (.ok o', w'') ∧ Spec.SameButFee {} (poke w2 7) o o' ∧
    w'.driver.find (makeKey Verif.Demo.conA (py! "x")) = w''.driver.find (makeKey Verif.Demo.conA (py! "x")) := by
  have hd := done
  cases he : execute Verif.Demo.host {} (poke w2 7) w2 with
  | mk r w' =>
    rw [he] at hd
    cases r with
    | error e => cases hd
    | ok o =>
      obtain ⟨o', w'', h1, h2, _, h4⟩ := C106_node genuine2 (NodeDemo.poke_tx w2 7) readable (by decide +kernel) rfl he (Except.ok.inj hd)
      exact ⟨o, o', w', w'', rfl, h1, h2, (h4 _ (by decide)).symm⟩

end UnmeteredDemo

end Verif
