import Verif.Proofs.Stamps
import Verif.Props.Finish
import Verif.Props.Executor
import Verif.Props.Node
import Verif.Spec.Stamps
/-!
# C104: the stamps reported are enough, and more of them change nothing
-/
namespace Verif.Lang
open Verif

theorem callEntry_sup {H : Host} {tx : Tx} {kwargs : Dict Str PyVal} {wr : Bool} {f : Dict Str PyVal → Prog}
    (h : ∀ kw, Lockstep (maxCallCount + 1) (f kw) (f kw)) {w w1 : World} {v : PyVal}
    (hr : callEntry H tx kwargs (wr, f) (setUp tx true w) = (.ok v, w1)) {s : Int}
    (hs : (w1.meter.cost : Int) ≤ s * 1000 ∨ tx.stamps ≤ s) :
    callEntry H { tx with stamps := s } kwargs (wr, f) (setUp { tx with stamps := s } true w) = (.ok v, w1.sup (s * 1000)) := by
  have h1 : (setUp tx true w).meter.started = true := rfl
  have h2 : (setUp tx true w).meter.calls = 0 := rfl
  have h3 : (setUp tx true w).meter.supplied = tx.stamps * 1000 := rfl
  have h4 : setUp { tx with stamps := s } true w = (setUp tx true w).sup (s * 1000) := rfl
  have hs' : (w1.meter.cost : Int) ≤ s * 1000 ∨ (setUp tx true w).meter.supplied ≤ s * 1000 := hs.imp_right fun x => by rw [h3]; omega
  rw [h4]
  unfold callEntry at hr ⊢
  cases wr with
  | false =>
    rw [if_neg (by simp)] at hr ⊢
    exact ((h kwargs).sup h1 (by rw [h2]; omega) (by rw [h2]; omega) hr).same _ hs'
  | true =>
    rw [if_pos rfl] at hr ⊢
    have hl : Lockstep (maxCallCount + 1) (Prog.call tx.contract (f kwargs) fun r => match r with | .ok v => .ret v | .error e => .raise e)
        (Prog.call tx.contract (f kwargs) fun r => match r with | .ok v => .ret v | .error e => .raise e) :=
      call_agree' (h kwargs) (fun _ => rfl) (fun _ => rfl) fun v => .ret v
    exact (hl.sup h1 (by rw [h2]; omega) (by rw [h2]; omega) hr).same _ hs'

theorem invoke_sup {H : Host} {tx : Tx} (ha : Alike tx.code tx.code) {host : Bool} {w w1 : World} {v : PyVal}
    (hr : invoke H tx true host w = (.ok v, w1)) {s : Int} (hs : (w1.meter.cost : Int) ≤ s * 1000 ∨ tx.stamps ≤ s) :
    invoke H { tx with stamps := s } true host w = (.ok v, w1.sup (s * 1000)) := by
  unfold invoke at hr ⊢
  cases host with
  | true =>
    simp only [if_true] at hr ⊢
    have e1 : H.hostCall tx.contract tx.function = .ok v := congrArg Prod.fst hr
    have e2 := congrArg Prod.snd hr
    simp only at e2
    subst e2
    exact Prod.ext e1 rfl
  | false =>
    simp only [Bool.false_eq_true, if_false] at hr ⊢
    rcases ha.fn with ⟨a, _⟩ | ⟨wr, f, f', a, b, hf⟩
    · rw [a] at hr; cases hr
    · rw [a] at hr b
      cases b
      have a' : ({ tx with stamps := s } : Tx).code.fn = some (wr, f) := a
      rw [a']
      simp only at hr ⊢
      cases hk : fixKwargs tx.kwargs with
      | error e => rw [hk] at hr; cases hr
      | ok kwargs =>
        rw [hk] at hr
        exact callEntry_sup hf hr hs

theorem attempt_sup {H : Host} {cfg : ExecCfg} {tx : Tx} (ha : Alike tx.code tx.code) {w w1 : World} {v : PyVal}
    (hr : attempt H cfg tx true w = (.ok v, w1)) {s : Int} (hs : (w1.meter.cost : Int) ≤ s * 1000 ∨ tx.stamps ≤ s)
    (hf : checkFunds cfg { tx with stamps := s } w = checkFunds cfg tx w) :
    attempt H cfg { tx with stamps := s } true w = (.ok v, w1.sup (s * 1000)) := by
  unfold attempt at hr ⊢
  rw [if_pos rfl] at hr ⊢
  rw [hf]
  cases hc : checkFunds cfg tx w with
  | mk r wa =>
    rw [hc] at hr
    cases r with
    | error e => cases hr
    | ok u =>
      simp only at hr ⊢
      show (match setBase tx _ with | (.error e, w) => _ | (.ok _, w) => _) = _
      cases hb : setBase tx { wa with env := Dict.update wa.env tx.environment } with
      | mk r wb =>
        rw [hb] at hr
        cases r with
        | error e => cases hr
        | ok u =>
          simp only at hr ⊢
          show (match loadEntry H tx wb with | (.error e, w) => _ | (.ok host, w) => _) = _
          cases hl : loadEntry H tx wb with
          | mk r wc =>
            rw [hl] at hr
            cases r with
            | error e => cases hr
            | ok host => exact invoke_sup ha hr hs

theorem callEntry_paid {H : Host} {tx : Tx} {kwargs : Dict Str PyVal} {wr : Bool} {f : Dict Str PyVal → Prog}
    (h : ∀ kw, Lockstep (maxCallCount + 1) (f kw) (f kw)) {w w1 : World} {v : PyVal}
    (hr : callEntry H tx kwargs (wr, f) (setUp tx true w) = (.ok v, w1)) (h0 : 0 ≤ tx.stamps) : (w1.meter.cost : Int) ≤ tx.stamps * 1000 := by
  have h1 : (setUp tx true w).meter.started = true := rfl
  have h2 : (setUp tx true w).meter.calls = 0 := rfl
  have h3 : (setUp tx true w).meter.supplied = tx.stamps * 1000 := rfl
  have h4 : ((setUp tx true w).meter.cost : Int) ≤ (setUp tx true w).meter.supplied := by
    rw [h3]
    show ((0 : Nat) : Int) ≤ _
    omega
  rw [← h3]
  unfold callEntry at hr
  cases wr with
  | false =>
    rw [if_neg (by simp)] at hr
    exact ((h kwargs).sup h1 (by rw [h2]; omega) (by rw [h2]; omega) hr).paid h4
  | true =>
    rw [if_pos rfl] at hr
    have hl : Lockstep (maxCallCount + 1) (Prog.call tx.contract (f kwargs) fun r => match r with | .ok v => .ret v | .error e => .raise e)
        (Prog.call tx.contract (f kwargs) fun r => match r with | .ok v => .ret v | .error e => .raise e) :=
      call_agree' (h kwargs) (fun _ => rfl) (fun _ => rfl) fun v => .ret v
    exact (hl.sup h1 (by rw [h2]; omega) (by rw [h2]; omega) hr).paid h4

theorem attempt_paid {H : Host} {cfg : ExecCfg} {tx : Tx} (ha : Alike tx.code tx.code) {w w1 : World} {v : PyVal}
    (hr : attempt H cfg tx true w = (.ok v, w1)) (h0 : 0 ≤ tx.stamps) : (w1.meter.cost : Int) ≤ tx.stamps * 1000 := by
  obtain ⟨w0, _, hcase⟩ := attempt_cases (H := H) (cfg := cfg) (tx := tx) (R := fun _ _ => True) (fun _ => trivial)
    (fun _ _ _ _ _ => trivial) (fun _ _ => trivial) (fun _ => trivial) (fun _ _ => trivial)
    (fun _ _ => trivial) (fun _ _ => trivial) (fun _ => trivial) true w
  rcases hcase with ⟨e, he⟩ | hhost | ⟨fn, kwargs, hf, _, hcall⟩
  · rw [hr] at he; cases he
  · rw [hr] at hhost
    rw [show w1 = setUp tx true w0 from congrArg Prod.snd hhost]
    show ((0 : Nat) : Int) ≤ _
    omega
  · rw [hr] at hcall
    rcases ha.fn with ⟨a, _⟩ | ⟨wr, f, f', a, b, hl⟩
    · rw [a] at hf; cases hf
    · rw [a] at hf b
      cases b
      cases hf
      exact callEntry_paid hl hcall.symm h0

theorem tryBlock_sup {H : Host} {cfg : ExecCfg} {tx : Tx} (ha : Alike tx.code tx.code) {snap : Dict Str PyVal} {w : World} {v : PyVal}
    (hr : (tryBlock H cfg tx true snap w).1.result = .ok v) {s : Int}
    (hs : ((tryBlock H cfg tx true snap w).2.meter.cost : Int) ≤ s * 1000 ∨ tx.stamps ≤ s)
    (hf : checkFunds cfg { tx with stamps := s } w = checkFunds cfg tx w) :
    tryBlock H cfg { tx with stamps := s } true snap w = ((tryBlock H cfg tx true snap w).1, (tryBlock H cfg tx true snap w).2.sup (s * 1000)) := by
  unfold tryBlock at hr hs ⊢
  cases hat : attempt H cfg tx true w with
  | mk r w1 =>
    rw [hat] at hr hs
    cases r with
    | error e => cases hr
    | ok u =>
      simp only at hr hs ⊢
      by_cases hauto : tx.autoCommit = true
      case neg =>
        rw [if_neg hauto] at hr hs ⊢
        rw [attempt_sup ha hat hs hf]
        simp only [hauto]
        rfl
      case pos =>
        rw [if_pos hauto] at hr hs ⊢
        cases hcm : w1.driver.commit with
        | mk r d =>
          rw [hcm] at hr hs
          cases r with
          | error e => cases hr
          | ok x =>
            rw [attempt_sup ha hat hs hf]
            simp only [hauto, if_true]
            rw [show (w1.sup (s * 1000)).driver = w1.driver from rfl, hcm]
            rfl

theorem off_set (m : Meter) (hm : m.started = false) (d : Driver) (k : Str) (v : PyVal) (txn : Bool) (s : Int) :
    d.set (m.sup s) k v txn = ((d.set m k v txn).1, (d.set m k v txn).2.1.sup s, (d.set m k v txn).2.2) := by
  unfold Driver.set
  cases encode v with
  | error e => rfl
  | ok t =>
    simp only
    have e1 : ∀ n, m.deductWrite n = (.ok (), m) := fun n => by unfold Meter.deductWrite; rw [if_neg (by simp [hm])]
    have e2 : ∀ n, (m.sup s).deductWrite n = (.ok (), m.sup s) := fun n => by
      unfold Meter.deductWrite; rw [if_neg (show ¬ (m.sup s).started = true by show ¬ m.started = true; simp [hm])]
    rw [e1, e2]
    simp only
    cases (if (dget d.pendingReads k).isNone = true then d.get k else (.ok .none, d)) with
    | mk r d1 =>
      cases r with
      | error e => rfl
      | ok u =>
        simp only
        cases normValue v <;> rfl

theorem chargeFee_sup {H : Host} {cfg : ExecCfg} {tx : Tx} {used : Int} {writes : Dict Str PyVal} {w : World} (hm : w.meter.started = false) (s t : Int) :
    chargeFee H cfg { tx with stamps := t } used writes (w.sup s) = ((chargeFee H cfg tx used writes w).1, (chargeFee H cfg tx used writes w).2.sup s) := by
  unfold chargeFee
  show (match feeOf H tx used with | .error e => _ | .ok fee => _) = _
  cases feeOf H tx used with
  | error e => rfl
  | ok fee =>
    simp only
    rw [show (w.sup s).driver = w.driver from rfl, show (w.sup s).meter = w.meter.sup s from rfl]
    cases w.driver.get (balanceKey cfg tx.sender) with
    | mk r d =>
      cases r with
      | error e => rfl
      | ok balance =>
        simp only
        cases afterFee balance fee with
        | error e => rfl
        | ok b =>
          simp only
          rw [off_set _ hm]
          cases d.set w.meter (balanceKey cfg tx.sender) b false with
          | mk r md =>
            obtain ⟨m', d'⟩ := md
            cases r with
            | error e => rfl
            | ok u =>
              simp only
              split
              · cases d'.commit with
                | mk r d => cases r <;> rfl
              · rfl

/-- `execute` after the `try` statement. -/
theorem execute_eq {H : Host} {cfg : ExecCfg} {tx : Tx} {w : World} (h : cfg.bypassPrivates = true ∨ startsWith tx.function (py! "__") = false) :
    execute H cfg tx w =
      match (if tx.metered cfg then chargeFee H cfg tx (stampsUsed tx (ranWorld H cfg tx w)) (ranOutcome H cfg tx w).writes (ranWorld H cfg tx w)
          else (.ok (ranOutcome H cfg tx w).writes, ranWorld H cfg tx w)) with
      | (.error e, w) => (.error e, w)
      | (.ok writes, w2) =>
        (.ok { result := (ranOutcome H cfg tx w).result, stampsUsed := stampsUsed tx (ranWorld H cfg tx w), writes := writes,
               reads := w2.driver.pendingReads, events := (ranOutcome H cfg tx w).events }, cleanUp w2) := by
  unfold execute
  simp only
  rw [if_neg (by rcases h with h | h <;> simp [h])]
  rfl

/-- What is left of two runs with different supplies before the fee is deducted. -/
theorem ran_sup {H : Host} {cfg : ExecCfg} {tx : Tx} (ha : Alike tx.code tx.code) (hm : tx.metered cfg = true) {w : World} {v : PyVal}
    (hr : (ranOutcome H cfg tx w).result = .ok v) {s : Int} (hs : ((ranWorld H cfg tx w).meter.cost : Int) ≤ s * 1000 ∨ tx.stamps ≤ s)
    (hf : checkFunds cfg { tx with stamps := s } (startWorld w) = checkFunds cfg tx (startWorld w)) :
    ranOutcome H cfg { tx with stamps := s } w = ranOutcome H cfg tx w ∧
    ranWorld H cfg { tx with stamps := s } w = (ranWorld H cfg tx w).sup (s * 1000) := by
  unfold ranOutcome ranWorld at *
  rw [show ({ tx with stamps := s } : Tx).metered cfg = tx.metered cfg from rfl]
  rw [hm] at hr hs ⊢
  rw [tryBlock_sup ha hr hs hf]
  exact ⟨rfl, rfl⟩

theorem hasFunds_mono {balance : PyVal} {cost s s' : Int} (h0 : 0 ≤ s') (hle : s' ≤ s) (h : hasFunds balance cost s = .ok true) :
    hasFunds balance cost s' = .ok true := by
  have hge : ∀ (d : Dec), cdGeInt d s = .ok true → cdGeInt d s' = .ok true := by
    intro d hd
    have fixPos : ∀ i : Int, 0 ≤ i → Spec.fix (i : ℚ) = some (min (i : ℚ) (10 ^ 29)) := by
      intro i hi
      have hi' : (0 : ℚ) ≤ i := by exact_mod_cast hi
      have hfl : Spec.floor30 (i : ℚ) = i := by
        have : (i : ℚ) = ((i * 10 ^ 30 : ℤ) : ℚ) / 10 ^ 30 := int_grid _
        rw [this]; exact floor30_mult _
      unfold Spec.fix
      by_cases hb : (10 : ℚ) ^ 29 < i
      · rw [if_pos hb, min_eq_right hb.le]
      · rw [if_neg hb, hfl, if_pos (by linarith [show (0 : ℚ) < 10 ^ 30 by positivity]), min_eq_left (not_lt.1 hb)]
    have h1 := C05_int d s
    have h2 := C05_int d s'
    rw [fixPos s (h0.trans hle)] at h1
    rw [fixPos s' h0] at h2
    obtain ⟨_, ⟨r, hr, hiff⟩, _⟩ := h1
    obtain ⟨_, ⟨r', hr', hiff'⟩, _⟩ := h2
    rw [hd] at hr
    cases hr
    rw [hr']
    have := hiff.1 rfl
    have hcast : (s' : ℚ) ≤ s := by exact_mod_cast hle
    exact congrArg _ (hiff'.2 (le_trans (min_le_min_right _ hcast) this))
  have viaDec : ∀ (x : Except PyErr Dec), (x.bind fun d => (cdOfInt cost).bind fun c => (cdMul d c).bind fun p => cdGeInt p s) = .ok true →
      (x.bind fun d => (cdOfInt cost).bind fun c => (cdMul d c).bind fun p => cdGeInt p s') = .ok true := by
    intro x hx
    cases x with
    | error e => cases hx
    | ok d =>
      simp only [Except.bind] at hx ⊢
      cases hc : cdOfInt cost with
      | error e => rw [hc] at hx; cases hx
      | ok c =>
        rw [hc] at hx
        simp only at hx ⊢
        cases hp : cdMul d c with
        | error e => rw [hp] at hx; cases hx
        | ok p => rw [hp] at hx; exact hge p hx
  have viaInt : ∀ (i : Int), (.ok (decide (i * cost ≥ s)) : Except PyErr Bool) = .ok true → (.ok (decide (i * cost ≥ s')) : Except PyErr Bool) = .ok true := by
    intro i hi
    have hi' : i * cost ≥ s := by simpa using hi
    have : i * cost ≥ s' := hle.trans hi'
    simp [this]
  cases balance with
  | none => exact viaInt 0 h
  | int i => exact viaInt i h
  | bool b => exact viaInt _ h
  | dec d => exact viaDec (.ok d) h
  | dict kvs => exact viaDec (cdOfVal _) h
  | _ => cases h

/-- A successful transaction passed the funds check. -/
theorem funds_passed {H : Host} {cfg : ExecCfg} {tx : Tx} (hm : tx.metered cfg = true) {w : World} {v : PyVal}
    (hr : (ranOutcome H cfg tx w).result = .ok v) : Spec.FundsFor cfg tx w tx.stamps := by
  unfold ranOutcome tryBlock attempt at hr
  rw [hm, if_pos rfl] at hr
  unfold Spec.FundsFor
  have hfind : (startWorld w).driver.find (balanceKey cfg tx.sender) = w.driver.find (balanceKey cfg tx.sender) := rfl
  have hc : (checkFunds cfg tx (startWorld w)).1 = .ok () := by
    cases hc : checkFunds cfg tx (startWorld w) with
    | mk r w1 =>
      rw [hc] at hr
      cases r with
      | error e => cases hr
      | ok u => rfl
  unfold checkFunds at hc
  simp only at hc
  by_cases hb : cfg.bypassBalance = true
  · simp only [hb, if_true] at hc ⊢
    refine ⟨_, rfl, ?_⟩
    split at hc
    · cases hc
    · cases hc
    · assumption
  · simp only [hb, Bool.false_eq_true, if_false] at hc ⊢
    have hg := ((startWorld w).driver.get_frame (balanceKey cfg tx.sender)).2
    rw [hfind] at hg
    cases hgr : (startWorld w).driver.get (balanceKey cfg tx.sender) with
    | mk r d =>
      rw [hgr] at hc hg
      cases r with
      | error e => cases hc
      | ok balance =>
        refine ⟨balance, hg.symm, ?_⟩
        simp only at hc
        split at hc
        · cases hc
        · cases hc
        · assumption

theorem checkFunds_same {cfg : ExecCfg} {tx : Tx} {w : World} {s : Int} (h1 : Spec.FundsFor cfg tx w tx.stamps) (h2 : Spec.FundsFor cfg tx w s) :
    checkFunds cfg { tx with stamps := s } (startWorld w) = checkFunds cfg tx (startWorld w) := by
  obtain ⟨b, hb, h1⟩ := h1
  obtain ⟨b', hb', h2⟩ := h2
  have hfind : (startWorld w).driver.find (balanceKey cfg tx.sender) = w.driver.find (balanceKey cfg tx.sender) := rfl
  unfold checkFunds
  by_cases hbp : cfg.bypassBalance = true
  · simp only [hbp, if_true] at hb hb' ⊢
    subst hb hb'
    rw [h1, h2]
  · simp only [hbp, Bool.false_eq_true, if_false] at hb hb' ⊢
    have hg := ((startWorld w).driver.get_frame (balanceKey cfg tx.sender)).2
    rw [hfind, hb] at hg
    rw [hb] at hb'
    cases hb'
    rw [hg]
    simp only
    rw [h1, h2]

/-- The code of a transaction, as the node reads it off its state. -/
theorem Node.codeFor_self (N : Node) (H : Host) (d : Driver) {n : Nat} (hn : maxCallCount + 1 < n) (c fname : Str) :
    Alike (N.codeFor H n d c fname) (N.codeFor H n d c fname) := by
  refine ⟨rfl, ?_⟩
  unfold Node.codeFor
  by_cases hc : c = py! "submission"
  · rw [if_pos hc]
    simp only
    split
    · refine .inr ⟨true, _, _, rfl, rfl, fun kw => bindParams_agree (fun kw => ?_) kw⟩
      split
      · exact submitContract_agree (nodeDeploy_agree N N.out hn hn _ _ _ _)
      · exact .raise _
    split
    · refine .inr ⟨true, _, _, rfl, rfl, fun kw => bindParams_agree (fun kw => ?_) kw⟩
      split
      · exact changeDeveloper_agree _ _ _
      · exact .raise _
    · exact .inl ⟨rfl, rfl⟩
  · rw [if_neg hc]
    exact (N.chain d).entry_agree N.out hn hn c fname

/-- **C104.** A metered transaction that succeeds reports how many stamps it used; fewer than it was given. Whatever number
of stamps it is given instead, if that is not less than the number reported (and, if it is more than before, the sender can
pay for it), `execute` does exactly the same: same result, same events, same writes, same fee, same state left behind. -/
theorem C104_enough {N : Node} {H : Host} {cfg : ExecCfg} {tx : Tx} {w w' : World} {o : Output} {n : Nat} (hn : maxCallCount + 1 < n)
    (hcode : tx.code = N.codeFor H n w.driver tx.contract tx.function) (hm : tx.metered cfg = true)
    (he : execute H cfg tx w = (.ok o, w')) (hst : o.status = 0) (hused : o.stampsUsed < tx.stamps)
    {s : Int} (hs : o.stampsUsed ≤ s) (hfund : s ≤ tx.stamps ∨ Spec.FundsFor cfg tx w s) :
    execute H cfg { tx with stamps := s } w = execute H cfg tx w := by
  have ha : Alike tx.code tx.code := by rw [hcode]; exact N.codeFor_self H w.driver hn _ _
  obtain ⟨hpriv, writes, w2, hw, ho, hw'⟩ := execute_ok he
  have hres : ∃ v, (ranOutcome H cfg tx w).result = .ok v := by
    cases hr : (ranOutcome H cfg tx w).result with
    | ok v => exact ⟨v, rfl⟩
    | error e =>
      rw [ho] at hst
      unfold Output.status at hst
      simp only [hr] at hst
      cases hst
  obtain ⟨v, hr⟩ := hres
  have hu : o.stampsUsed = ((ranWorld H cfg tx w).meter.cost / 1000 + 5 : Int) ∧ ((ranWorld H cfg tx w).meter.cost / 1000 + 5 : Int) ≤ tx.stamps := by
    have e : o.stampsUsed = stampsUsed tx (ranWorld H cfg tx w) := by rw [ho]
    unfold stampsUsed at e
    simp only at e
    split at e <;> omega
  have h0 : (0 : Int) ≤ s := by omega
  have hf1 := funds_passed hm hr
  have hf2 : Spec.FundsFor cfg tx w s := by
    rcases hfund with h | h
    · obtain ⟨b, hb, hb2⟩ := hf1
      exact ⟨b, hb, hasFunds_mono h0 h hb2⟩
    · exact h
  have hcost : ((ranWorld H cfg tx w).meter.cost : Int) ≤ s * 1000 := by omega
  obtain ⟨r1, r2⟩ := ran_sup ha hm hr (.inl hcost) (checkFunds_same hf1 hf2)
  have hsu : stampsUsed { tx with stamps := s } (ranWorld H cfg { tx with stamps := s } w) = stampsUsed tx (ranWorld H cfg tx w) := by
    rw [r2]
    unfold stampsUsed
    simp only
    rw [show ((ranWorld H cfg tx w).sup (s * 1000)).meter.cost = (ranWorld H cfg tx w).meter.cost from rfl]
    rw [if_neg (by omega), if_neg (by omega)]
  rw [execute_eq (tx := { tx with stamps := s }) hpriv, execute_eq hpriv, hsu, r1, r2]
  rw [show ({ tx with stamps := s } : Tx).metered cfg = tx.metered cfg from rfl, hm, if_pos rfl] at *
  rw [if_pos rfl, chargeFee_sup rfl, hw]
  rfl

theorem ran_paid {H : Host} {cfg : ExecCfg} {tx : Tx} (ha : Alike tx.code tx.code) (hm : tx.metered cfg = true) (h0 : 0 ≤ tx.stamps)
    (hauto : tx.autoCommit = false) {w : World} {v : PyVal}
    (hr : (ranOutcome H cfg tx w).result = .ok v) : ((ranWorld H cfg tx w).meter.cost : Int) ≤ tx.stamps * 1000 := by
  obtain ⟨h1, h2⟩ := tryBlock_ok hauto (h := hr)
  have e : (ranWorld H cfg tx w).meter.cost = (attempt H cfg tx (tx.metered cfg) (startWorld w)).2.meter.cost := by
    unfold ranWorld
    rw [h2]
    rfl
  rw [e]
  exact attempt_paid (w := startWorld w) ha (by rw [← hm]; exact Prod.ext h1 rfl) h0

/-- **C104**, where the transaction used up what it was given. With more stamps (which the sender can pay for) it succeeds
again with the same result and events. It is charged at most five stamps more, and nothing else differs: what it wrote and
what it left behind are the same, except for the sender's balance. -/
theorem C104_more {N : Node} {H : Host} {cfg : ExecCfg} {tx : Tx} {w w' w'' : World} {o o' : Output} {n : Nat} (hn : maxCallCount + 1 < n)
    (hcode : tx.code = N.codeFor H n w.driver tx.contract tx.function) (hm : tx.metered cfg = true) (hauto : tx.autoCommit = false)
    (he : execute H cfg tx w = (.ok o, w')) (hst : o.status = 0) (h0 : 0 ≤ tx.stamps)
    {s : Int} (hs : tx.stamps ≤ s) (hfund : Spec.FundsFor cfg tx w s)
    (he' : execute H cfg { tx with stamps := s } w = (.ok o', w'')) :
    Spec.SameButFee cfg tx o o' ∧ (o.stampsUsed ≤ o'.stampsUsed ∧ o'.stampsUsed ≤ o.stampsUsed + 5) ∧
    w''.driver.disk = w'.driver.disk ∧ ∀ k, k ≠ balanceKey cfg tx.sender → w''.driver.find k = w'.driver.find k := by
  have ha : Alike tx.code tx.code := by rw [hcode]; exact N.codeFor_self H w.driver hn _ _
  obtain ⟨hpriv, writes, w2, hw, ho, hw'⟩ := execute_ok he
  obtain ⟨_, writes', w2', hw2, ho', hw''⟩ := execute_ok he'
  obtain ⟨v, hr⟩ : ∃ v, (ranOutcome H cfg tx w).result = .ok v := by
    cases hr : (ranOutcome H cfg tx w).result with
    | ok v => exact ⟨v, rfl⟩
    | error e =>
      rw [ho] at hst
      unfold Output.status at hst
      simp only [hr] at hst
      cases hst
  obtain ⟨r1, r2⟩ := ran_sup ha hm hr (.inr hs) (checkFunds_same (funds_passed hm hr) hfund)
  rw [hm, if_pos rfl] at hw
  rw [show ({ tx with stamps := s } : Tx).metered cfg = tx.metered cfg from rfl, hm, if_pos rfl] at hw2
  obtain ⟨_, _, b, r, _, _, _, hwr, hfin⟩ := chargeFee_ok hauto rfl hw
  obtain ⟨_, _, b', r', _, _, _, hwr', hfin'⟩ := chargeFee_ok (tx := { tx with stamps := s }) hauto rfl hw2
  have hkey : balanceKey cfg ({ tx with stamps := s } : Tx).sender = balanceKey cfg tx.sender := rfl
  rw [r1, hkey] at hwr'
  rw [r2, hkey] at hfin'
  have hcost : ((ranWorld H cfg tx w).meter.cost : Int) ≤ tx.stamps * 1000 := ran_paid ha hm h0 hauto hr
  refine ⟨⟨by rw [ho, ho', r1], by rw [ho, ho', r1], fun k hk => ?_⟩, ?_, ?_, fun k hk => ?_⟩
  · rw [ho, ho']
    simp only
    rw [hwr, hwr', Dict.get?_set_ne _ _ (Ne.symm hk), Dict.get?_set_ne _ _ (Ne.symm hk)]
  · have e1 : o.stampsUsed = stampsUsed tx (ranWorld H cfg tx w) := by rw [ho]
    have e2 : o'.stampsUsed = stampsUsed { tx with stamps := s } (ranWorld H cfg tx w) := by rw [ho', r2]; rfl
    unfold stampsUsed at e1 e2
    simp only at e1 e2
    split at e1 <;> split at e2 <;> omega
  · rw [hw', hw'', hfin, hfin']
    rfl
  · rw [hw', hw'', hfin, hfin']
    show Driver.find { (ranWorld H cfg tx w).driver with pendingReads := r', pendingWrites := _ } k = Driver.find { (ranWorld H cfg tx w).driver with pendingReads := r, pendingWrites := _ } k
    unfold Driver.find dget
    simp only
    rw [Dict.get?_set_ne _ _ (Ne.symm hk), Dict.get?_set_ne _ _ (Ne.symm hk)]
    rfl

namespace StampsDemo
open NodeDemo (node w2)

/-- `bob` calls `con_b.poke`, which calls `con_a.put`, with so many stamps. -/
def poke (s : Int) : Tx :=
  { NodeDemo.poke w2 7 with stamps := s, code := node.codeFor Verif.Demo.host (maxCallCount + 2) w2.driver Verif.Demo.conB (py! "poke") }

/-- With 50 stamps it succeeds and reports 5; with none it fails; and 1000 are more than `bob` can pay for. -/
theorem runs : (execute Verif.Demo.host {} (poke 50) w2).1.map (fun o => (o.status, o.stampsUsed)) = .ok (0, 5) ∧
    (execute Verif.Demo.host {} (poke 0) w2).1.map (fun o => (o.status, o.stampsUsed)) = .ok (1, 0) ∧
    (execute Verif.Demo.host {} (poke 1000) w2).1.map (fun o => (o.status, o.stampsUsed)) = .ok (1, 5) := by decide +kernel

theorem ended {s : Int} {a : Nat} {b : Int} (h : (execute Verif.Demo.host {} (poke s) w2).1.map (fun o => (o.status, o.stampsUsed)) = .ok (a, b)) :
    ∃ o w', execute Verif.Demo.host {} (poke s) w2 = (.ok o, w') ∧ o.status = a ∧ o.stampsUsed = b := by
  cases he : execute Verif.Demo.host {} (poke s) w2 with
  | mk r w' =>
    rw [he] at h
    cases r with
    | error e => cases h
    | ok o => cases h; exact ⟨o, w', rfl, rfl, rfl⟩

/-- `C104_enough`: five stamps do. -/
example : execute Verif.Demo.host {} (poke 5) w2 = execute Verif.Demo.host {} (poke 50) w2 := by
  obtain ⟨o, w', h1, h2, h3⟩ := ended runs.1
  exact C104_enough (N := node) (tx := poke 50) (Nat.lt_succ_self _) rfl rfl h1 h2 (by rw [h3]; decide) (s := 5) (by rw [h3]) (.inl (by decide))

/-- `C104_more`: given one stamp it uses that up, given 60 it uses five. -/
theorem one : (execute Verif.Demo.host {} (poke 1) w2).1.map (fun o => (o.status, o.stampsUsed)) = .ok (0, 1) ∧
    (execute Verif.Demo.host {} (poke 60) w2).1.map (fun o => (o.status, o.stampsUsed)) = .ok (0, 5) := by decide +kernel

example : ∃ o o', (execute Verif.Demo.host {} (poke 1) w2).1 = .ok o ∧ (execute Verif.Demo.host {} (poke 60) w2).1 = .ok o' ∧
    Spec.SameButFee {} (poke 1) o o' := by
  obtain ⟨o, w', h1, h2, h3⟩ := ended one.1
  obtain ⟨o', w'', h1', h2', h3'⟩ := ended one.2
  have hf : w2.driver.find (balanceKey {} Verif.Demo.bob) = .ok (.int 100) := by decide +kernel
  refine ⟨o, o', by rw [h1], by rw [h1'], (C104_more (N := node) (tx := poke 1) (Nat.lt_succ_self _) rfl rfl rfl h1 h2 (by decide) (s := 60) (by decide) ?_ h1').1⟩
  exact ⟨.int 100, hf, by decide⟩

end StampsDemo

end Verif.Lang
