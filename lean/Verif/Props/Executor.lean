import Verif.Proofs.Executor
import Verif.Props.Decimal
import Verif.Props.Demo
import Verif.Proofs.Refine
/-!
# Properties C27 – C29, C33 – C35: what a transaction leaves behind
-/
namespace Verif

/-! ### C27: failed transactions -/

theorem Output.status_one {o : Output} : o.status = 1 ↔ ∃ e, o.result = .error e := by
  unfold Output.status
  cases h : o.result with
  | error e => simp [Except.isOk, Except.toBool]
  | ok v => simp [Except.isOk, Except.toBool]

theorem Output.status_zero {o : Output} : o.status = 0 ↔ ∃ v, o.result = .ok v := by
  unfold Output.status
  cases h : o.result with
  | error e => simp [Except.isOk, Except.toBool]
  | ok v => simp [Except.isOk, Except.toBool]

/-- **C27.** If `execute` (auto-commit off) reports failure, the disk is untouched; unmetered, the pending
writes are exactly those before the call; metered, they differ only in the sender's new balance, which is
the only write reported. Any program, any failure point, any prior state. -/
theorem C27_failed {H : Host} {cfg : ExecCfg} {tx : Tx} {w w' : World} {o : Output} (hc : tx.autoCommit = false)
    (h : execute H cfg tx w = (.ok o, w')) (hs : o.status = 1) :
    w'.driver.disk = w.driver.disk ∧
    (tx.metered cfg = false → w'.driver.pendingWrites = w.driver.pendingWrites) ∧
    (tx.metered cfg = true → ∃ b, o.writes = [(balanceKey cfg tx.sender, b)] ∧
      w'.driver.pendingWrites = Dict.set w.driver.pendingWrites (balanceKey cfg tx.sender) b) := by
  obtain ⟨_, writes, w2, hw, rfl, rfl⟩ := execute_ok h
  obtain ⟨e, he⟩ := Output.status_one.1 hs
  have ht := tryBlock_failed hc (h := he)
  have hd := attempt_sameDisk H cfg tx (tx.metered cfg) (startWorld w)
  have hr : ranWorld H cfg tx w = { (attempt H cfg tx (tx.metered cfg) (startWorld w)).2 with
      driver := { (attempt H cfg tx (tx.metered cfg) (startWorld w)).2.driver with
        pendingWrites := w.driver.pendingWrites, txWrites := [], events := [] },
      meter := (attempt H cfg tx (tx.metered cfg) (startWorld w)).2.meter.stop } := by
    unfold ranWorld; rw [ht.2]; rfl
  have hrd : (ranWorld H cfg tx w).driver.disk = w.driver.disk := by rw [hr]; exact hd.1
  have hrp : (ranWorld H cfg tx w).driver.pendingWrites = w.driver.pendingWrites := by rw [hr]
  have hro : (ranOutcome H cfg tx w).writes = [] := by unfold ranOutcome; rw [ht.2]
  cases hm : tx.metered cfg with
  | false =>
    rw [hm, if_neg (by simp)] at hw
    cases hw
    exact ⟨hrd, fun _ => hrp, fun h => absurd h (by simp)⟩
  | true =>
    rw [hm, if_pos rfl] at hw
    have hst : (ranWorld H cfg tx w).meter.started = false := rfl
    obtain ⟨fee, balance, b, r, _, _, _, hwr, hw2⟩ := chargeFee_ok hc hst hw
    rw [hro] at hwr
    refine ⟨?_, fun h => absurd h (by simp), fun _ => ⟨b, ?_, ?_⟩⟩
    · rw [hw2]; exact hrd
    · rw [hwr]; rfl
    · rw [hw2]; simp only [cleanUp]; rw [hrp]

/-- **C27, what can be read.** Every key other than the sender's balance (and the balance too, unmetered)
reads exactly as before a failed transaction, unless the program changed the list or dict stored under
that very key in place. -/
theorem C27_visible {H : Host} {cfg : ExecCfg} {tx : Tx} {w w' : World} {o : Output} {k : Str} (hc : tx.autoCommit = false)
    (hm : tx.code.All (Action.NoMutate k)) (h : execute H cfg tx w = (.ok o, w')) (hs : o.status = 1)
    (hk : tx.metered cfg = true → k ≠ balanceKey cfg tx.sender) :
    (w'.driver.get k).1 = (w.driver.get k).1 := by
  have h27 := C27_failed hc h hs
  have hcb : Dict.get? w'.driver.cache k = Dict.get? w.driver.cache k ∧ w'.driver.bypass = w.driver.bypass := by
    obtain ⟨_, writes, w2, hw, rfl, rfl⟩ := execute_ok h
    obtain ⟨e, he⟩ := Output.status_one.1 hs
    have ht := tryBlock_failed hc (h := he)
    have hr : Dict.get? (ranWorld H cfg tx w).driver.cache k = Dict.get? w.driver.cache k ∧ (ranWorld H cfg tx w).driver.bypass = w.driver.bypass := by
      unfold ranWorld
      rw [ht.2]
      exact ⟨attempt_cache hm _ (startWorld w), (attempt_sameDisk H cfg tx _ (startWorld w)).2.1⟩
    cases hmt : tx.metered cfg with
    | false => rw [hmt, if_neg (by simp)] at hw; cases hw; exact hr
    | true =>
      rw [hmt, if_pos rfl] at hw
      obtain ⟨_, _, b, r, _, _, _, _, hw2⟩ := chargeFee_ok hc rfl hw
      rw [hw2]; exact hr
  rw [(Driver.get_frame _ k).2, (Driver.get_frame _ k).2]
  have hg : Dict.get? w'.driver.pendingWrites k = Dict.get? w.driver.pendingWrites k := by
    cases hmt : tx.metered cfg with
    | false => rw [h27.2.1 hmt]
    | true =>
      obtain ⟨b, _, hb⟩ := h27.2.2 hmt
      rw [hb, Dict.get?_set_ne _ _ (Ne.symm (hk hmt))]
  unfold Driver.find Driver.fromDisk dget
  rw [hg, hcb.1, hcb.2, h27.1]

/-- The hypotheses of C27 are met: `con_a` sets a variable and then raises; only the fee remains. -/
example : ∃ o w', execute Demo.host {} (Demo.tx (Demo.step (.varSet Demo.x (.int 1)) (.raise .exception))) Demo.w0 = (.ok o, w') ∧
    o.status = 1 ∧ o.writes = [(Demo.bobKey, .dec ⟨false, 95, 0⟩)] ∧ (w'.driver.get Demo.x.key).1 = .ok .none ∧
    (Demo.tx (Demo.step (.varSet Demo.x (.int 1)) (.raise .exception))).code.All (Action.NoMutate Demo.x.key) := by
  refine ⟨_, _, rfl, rfl, rfl, rfl, trivial, ?_⟩
  rintro fn ⟨⟩ kwargs
  exact ⟨trivial, fun r => by cases r <;> trivial⟩

/-- **C27 does not extend to what can be read**: a list that an earlier block hard-applied sits in the
cache; `x.get().append(2)` followed by a failure leaves the appended element visible to everyone. -/
theorem C27_refuted :
    let w : World := { driver := ((Demo.world (Demo.stored Demo.conA ++
      [(Demo.bobKey, .int 100), (Demo.x.key, .list [.int 1])])).driver.hardApply 1).2 }
    let p := Demo.step (.varGet Demo.x) (Demo.step (.mutate Demo.x.key (.list [.int 1, .int 2]) true false) (.raise .exception))
    let r := execute Demo.host {} (Demo.tx p) w
    r.1.map Output.status = .ok 1 ∧ (w.driver.get Demo.x.key).1 = .ok (.list [.int 1]) ∧
    (r.2.driver.get Demo.x.key).1 = .ok (.list [.int 1, .int 2]) := by
  decide +kernel

/-! ### C28: what a failed transaction reports, and what the next one inherits -/

/-- **C28.** A failed transaction reports no events and at most the fee deduction as a write (with
auto-commit on or off). -/
theorem C28_failed {H : Host} {cfg : ExecCfg} {tx : Tx} {w w' : World} {o : Output}
    (h : execute H cfg tx w = (.ok o, w')) (hs : o.status = 1) :
    o.events = [] ∧ (tx.metered cfg = false → o.writes = []) ∧
    ∀ p ∈ o.writes, p.1 = balanceKey cfg tx.sender := by
  obtain ⟨_, writes, w2, hw, rfl, rfl⟩ := execute_ok h
  obtain ⟨e, he⟩ := Output.status_one.1 hs
  obtain ⟨h1, h2⟩ := tryBlock_error (h := he)
  refine ⟨h2, ?_⟩
  have h1' : (ranOutcome H cfg tx w).writes = [] := h1
  cases hm : tx.metered cfg with
  | false =>
    rw [hm, if_neg (by simp)] at hw
    cases hw
    rw [h1']
    exact ⟨fun _ => rfl, fun p hp => absurd hp (by simp)⟩
  | true =>
    rw [hm, if_pos rfl] at hw
    obtain ⟨b, hb⟩ := chargeFee_writes hw
    rw [h1'] at hb
    rw [hb]
    refine ⟨fun h => absurd h (by simp), fun p hp => ?_⟩
    simp only [Dict.set] at hp
    have : p = (balanceKey cfg tx.sender, b) := by simpa using hp
    rw [this]

/-- **C28.** After `execute` -- whether it returned or raised -- no event and no transaction write is left
in the driver. -/
theorem C28_clean (H : Host) (cfg : ExecCfg) (tx : Tx) (w : World) :
    (execute H cfg tx w).2.driver.events = [] ∧ (execute H cfg tx w).2.driver.txWrites = [] := by
  unfold execute
  simp only
  split
  · exact ⟨rfl, rfl⟩
  · split
    · rename_i e w2 heq
      split at heq
      · have := chargeFee_records H cfg tx (stampsUsed tx (ranWorld H cfg tx w)) (ranOutcome H cfg tx w).writes (ranWorld H cfg tx w)
        have hw2 : w2 = (chargeFee H cfg tx (stampsUsed tx (ranWorld H cfg tx w)) (ranOutcome H cfg tx w).writes (ranWorld H cfg tx w)).2 :=
          (congrArg Prod.snd heq).symm
        rw [hw2]
        exact this
      · cases heq
    · rename_i writes w2 heq
      split at heq
      · have := chargeFee_records H cfg tx (stampsUsed tx (ranWorld H cfg tx w)) (ranOutcome H cfg tx w).writes (ranWorld H cfg tx w)
        have hw2 : w2 = (chargeFee H cfg tx (stampsUsed tx (ranWorld H cfg tx w)) (ranOutcome H cfg tx w).writes (ranWorld H cfg tx w)).2 :=
          (congrArg Prod.snd heq).symm
        rw [hw2]
        exact this
      · cases heq; exact ⟨rfl, rfl⟩

/-- **C28.** A transaction does not depend on events or transaction writes left by anything before it. -/
theorem C28_independent (H : Host) (cfg : ExecCfg) (tx : Tx) (w : World) (writes : Dict Str PyVal) (events : List Event) :
    execute H cfg tx { w with driver := { w.driver with txWrites := writes, events := events } } = execute H cfg tx w := rfl

/-! ### C29: fees -/

/-- **C29.** The stamps charged never exceed the stamps offered, and are at least five (or everything
offered, if that is less). -/
theorem C29_stamps {H : Host} {cfg : ExecCfg} {tx : Tx} {w w' : World} {o : Output}
    (h : execute H cfg tx w = (.ok o, w')) : o.stampsUsed ≤ tx.stamps ∧ min 5 tx.stamps ≤ o.stampsUsed := by
  obtain ⟨_, writes, w2, hw, rfl, rfl⟩ := execute_ok h
  simp only [stampsUsed]
  have : (0 : Int) ≤ ((ranWorld H cfg tx w).meter.cost : Int) / 1000 := by positivity
  split <;> omega

theorem int_grid (i : ℤ) : (i : ℚ) = ((i * 10 ^ 30 : ℤ) : ℚ) / 10 ^ 30 := by
  rw [Int.cast_mul, mul_div_assoc]
  norm_num

/-- The deduction itself: the new balance is the old one minus the fee, but not below zero. -/
theorem afterFee_spec {balance b : PyVal} {fee : Dec} (hfee : IsCD fee) (hbal : ∀ d, balance = .dec d → IsCD d)
    (h : afterFee balance fee = .ok b) {B : ℚ} (hB : Spec.balanceVal balance = some B) (h1 : B ≤ 10 ^ 29)
    (h2 : B - fee.val ≤ 10 ^ 29) : Spec.balanceVal b = some (max 0 (B - fee.val)) := by
  have grid : ∀ {d : Dec}, IsCD d → ∃ n : ℤ, d.val = n / 10 ^ 30 := fun hd => hd.range.2.2
  have hfix0 : Spec.fix ((0 : ℤ) : ℚ) = some 0 := by
    unfold Spec.fix Spec.floor30; norm_num
  have viaDec : ∀ (c : Dec), IsCD c → c.val = B →
      ((cdSub c fee).bind fun r => (cdLtInt r 0).bind fun lt =>
        if lt = true then (.ok (.int 0) : Except PyErr PyVal) else .ok (.dec r)) = .ok b →
      Spec.balanceVal b = some (max 0 (B - fee.val)) := by
    intro c hc hcv hb
    cases hs : cdSub c fee with
    | error e => rw [hs] at hb; cases hb
    | ok r =>
      rw [hs] at hb
      have hgrid : ∃ n : ℤ, c.val - fee.val = n / 10 ^ 30 := by
        obtain ⟨n, hn⟩ := grid hc
        obtain ⟨m, hm⟩ := grid hfee
        exact ⟨n - m, by rw [hn, hm]; push_cast; ring⟩
      have hr : r.val = c.val - fee.val := exact_of_agrees (C01_sub hc hfee) hs (by rw [hcv]; exact h2) hgrid
      have hlt := C05_int r 0
      rw [hfix0] at hlt
      obtain ⟨⟨lt, hl, hiff⟩, _⟩ := hlt
      simp only [Except.bind] at hb
      rw [hl] at hb
      simp only at hb
      cases lt with
      | true =>
        cases hb
        have : r.val < 0 := hiff.1 rfl
        simp only [Spec.balanceVal]
        rw [max_eq_left (by rw [← hcv, ← hr]; exact this.le)]
        simp
      | false =>
        cases hb
        have : ¬ r.val < 0 := fun hlt => absurd (hiff.2 hlt) (by simp)
        simp only [Spec.balanceVal]
        rw [max_eq_right (by rw [← hcv, ← hr]; exact not_lt.1 this), hr, hcv]
  have viaInt : ∀ (i : ℤ), (i : ℚ) = B → ((cdOfInt i).bind fun c => (cdSub c fee).bind fun r => (cdLtInt r 0).bind fun lt =>
        if lt = true then (.ok (.int 0) : Except PyErr PyVal) else .ok (.dec r)) = .ok b →
      Spec.balanceVal b = some (max 0 (B - fee.val)) := by
    intro i hi hb
    cases hc : cdOfInt i with
    | error e => rw [hc] at hb; cases hb
    | ok c =>
      rw [hc] at hb
      refine viaDec c ⟨decOfInt i, hc⟩ ?_ hb
      rw [← hi]
      exact exact_of_agrees (C01_int_operand i) hc (by rw [hi]; exact h1) ⟨i * 10 ^ 30, int_grid _⟩
  cases balance with
  | none => exact viaInt 0 (by simpa [Spec.balanceVal] using hB) h
  | int i => exact viaInt i (by simpa [Spec.balanceVal] using hB) h
  | bool x => exact viaInt _ (by cases x <;> simpa [Spec.balanceVal] using hB) h
  | dec d => exact viaDec d (hbal d rfl) (by simpa [Spec.balanceVal] using hB) h
  | _ => cases hB

/-- **C29.** In a metered transaction that returns (auto-commit off) the sender's balance found after the
contract's own work, a number `B` within the decimal range, is replaced by `max 0 (B - fee)`, where `fee`
is the contract decimal of the float `stamps_used / stamp_cost`; the same value is reported. It never
becomes negative and never drops by more than the fee. -/
theorem C29_balance {H : Host} {cfg : ExecCfg} {tx : Tx} {w w' : World} {o : Output} (hc : tx.autoCommit = false)
    (h : execute H cfg tx w = (.ok o, w')) (hm : tx.metered cfg = true) :
    ∃ fee before after, cdOfStr (H.fdiv o.stampsUsed tx.stampCost).text = .ok fee ∧
      ((ranWorld H cfg tx w).driver.get (balanceKey cfg tx.sender)).1 = .ok before ∧
      Dict.get? w'.driver.pendingWrites (balanceKey cfg tx.sender) = some after ∧
      Dict.get? o.writes (balanceKey cfg tx.sender) = some after ∧
      ∀ B, Spec.balanceVal before = some B → (∀ d, before = .dec d → IsCD d) → B ≤ 10 ^ 29 → B - fee.val ≤ 10 ^ 29 →
        Spec.balanceVal after = some (max 0 (B - fee.val)) := by
  obtain ⟨_, writes, w2, hw, rfl, rfl⟩ := execute_ok h
  rw [hm, if_pos rfl] at hw
  obtain ⟨fee, balance, b, r, hf, hb, ha, hwr, hw2⟩ := chargeFee_ok hc rfl hw
  have hfee : cdOfStr (H.fdiv (stampsUsed tx (ranWorld H cfg tx w)) tx.stampCost).text = .ok fee := by
    unfold feeOf at hf
    split at hf
    · cases hf
    · exact hf
  refine ⟨fee, balance, b, hfee, by rw [(Driver.get_frame _ _).2]; exact hb, ?_, ?_, fun B hB hbal h1 h2 =>
    afterFee_spec (cdOfStr_isCD hfee) hbal ha hB h1 h2⟩
  · rw [hw2]; simp only [cleanUp]; exact Dict.get?_set_self _ _ _
  · simp only; rw [hwr]; exact Dict.get?_set_self _ _ _

/-- The hypotheses are met: 100 becomes 95; a sender with 3 offering 3 is left with 0; the result of a
transaction that empties its own balance stays 0. -/
example : (execute Demo.host {} (Demo.tx (.ret .none)) Demo.w0).1.map (fun o => (o.status, o.stampsUsed, o.writes)) =
      .ok (0, 5, [(Demo.bobKey, .dec ⟨false, 95, 0⟩)]) ∧
    (execute Demo.host {} { Demo.tx (.ret .none) with stamps := 3 }
        (Demo.world (Demo.stored Demo.conA ++ [(Demo.bobKey, .int 3)]))).1.map (fun o => (o.status, o.stampsUsed, o.writes)) =
      .ok (0, 3, [(Demo.bobKey, .dec ⟨true, 0, 0⟩)]) := by
  decide +kernel

/-- **Outside the stated range.** Negative stamps are not refused and *credit* the sender: offering -50
stamps adds 50 to the balance (executor.py:92, 160-168). -/
theorem C29_negative_stamps_credit :
    (execute Demo.host {} { Demo.tx (.ret .none) with stamps := -50 } Demo.w0).1.map (fun o => (o.status, o.stampsUsed, o.writes)) =
      .ok (0, -50, [(Demo.bobKey, .dec ⟨false, 15, 1⟩)]) := by
  decide +kernel

/-! ### C33: no funds, no execution -/

/-- The funds check refuses every balance `B` with `B * stamp_cost < stamps`. -/
theorem hasFunds_refuses {balance : PyVal} {cost stamps : Int} {B : ℚ} (hB : Spec.balanceVal balance = some B)
    (hbal : ∀ d, balance = .dec d → IsCD d) (hlow : B * cost < stamps) (hst : (stamps : ℚ) ≤ 10 ^ 29)
    (hcost : (cost : ℚ) ≤ 10 ^ 29) : hasFunds balance cost stamps ≠ .ok true := by
  have viaInt : ∀ (i : ℤ), (i : ℚ) = B → (.ok (decide (i * cost ≥ stamps)) : Except PyErr Bool) ≠ .ok true := by
    intro i hi h
    have h' : i * cost ≥ stamps := by simpa using h
    have : (stamps : ℚ) ≤ i * cost := by exact_mod_cast h'
    rw [hi] at this
    linarith
  cases balance with
  | none => exact viaInt 0 (by simpa [Spec.balanceVal] using hB)
  | int i => exact viaInt i (by simpa [Spec.balanceVal] using hB)
  | bool x => exact viaInt _ (by cases x <;> simpa [Spec.balanceVal] using hB)
  | dec d =>
    have hd := hbal d rfl
    have hBd : d.val = B := by simpa [Spec.balanceVal] using hB
    intro h
    change ((cdOfInt cost).bind fun c => (cdMul d c).bind fun p => cdGeInt p stamps) = .ok true at h
    cases hc : cdOfInt cost with
    | error e => rw [hc] at h; cases h
    | ok c =>
      rw [hc] at h
      simp only [Except.bind] at h
      have hcv : c.val = cost := exact_of_agrees (C01_int_operand cost) hc hcost
        ⟨cost * 10 ^ 30, int_grid _⟩
      cases hp : cdMul d c with
      | error e => rw [hp] at h; cases h
      | ok p =>
        rw [hp] at h
        simp only at h
        obtain ⟨n, hn⟩ := hd.range.2.2
        have hpv : p.val = d.val * c.val := exact_of_agrees (C01_mul hd ⟨decOfInt cost, hc⟩) hp
          (by rw [hBd, hcv]; linarith) ⟨n * cost, by rw [hn, hcv]; push_cast; ring⟩
        have hge := C05_int p stamps
        cases hf : Spec.fix (stamps : ℚ) with
        | none =>
          rw [hf] at hge
          obtain ⟨_, ⟨e, he⟩, _⟩ := hge
          rw [he] at h; cases h
        | some q =>
          rw [hf] at hge
          obtain ⟨_, ⟨r, hr, hiff⟩, _⟩ := hge
          rw [hr] at h
          have hrt : r = true := by simpa using h
          have hq : q = stamps := by
            unfold Spec.fix at hf
            rw [if_neg (not_lt.2 hst)] at hf
            have hfl : Spec.floor30 (stamps : ℚ) = stamps := by
              have : (stamps : ℚ) = ((stamps * 10 ^ 30 : ℤ) : ℚ) / 10 ^ 30 := int_grid _
              rw [this]; exact floor30_mult _
            rw [hfl] at hf
            split at hf
            · cases hf; rfl
            · cases hf
          have := hiff.1 hrt
          rw [hpv, hBd, hcv, hq] at this
          linarith
  | _ => cases hB

/-- **C33.** Metered, with a balance `B` such that `B * stamp_cost < stamps` (numbers within the decimal
range): the outcome does not depend on the contract's code at all -- none of it runs -- and if `execute`
returns, it reports failure (so C27 and C28 say what is left: the fee). -/
theorem C33_no_funds {H : Host} {cfg : ExecCfg} {tx : Tx} {w : World} (hm : tx.metered cfg = true)
    (hb : cfg.bypassBalance = false) {balance : PyVal} {B : ℚ}
    (hbal : (w.driver.get (balanceKey cfg tx.sender)).1 = .ok balance) (hB : Spec.balanceVal balance = some B)
    (hcd : ∀ d, balance = .dec d → IsCD d) (hlow : B * tx.stampCost < tx.stamps) (hst : (tx.stamps : ℚ) ≤ 10 ^ 29)
    (hcost : (tx.stampCost : ℚ) ≤ 10 ^ 29) :
    (∀ code, execute H cfg { tx with code := code } w = execute H cfg tx w) ∧
    ∀ o w', execute H cfg tx w = (.ok o, w') → o.status = 1 := by
  have hno := hasFunds_refuses hB hcd hlow hst hcost
  have hget : ((startWorld w).driver.get (balanceKey cfg tx.sender)).1 = .ok balance := by
    rw [← hbal, (Driver.get_frame _ _).2, (Driver.get_frame _ _).2]; rfl
  have hcheck : ∃ e w1, ∀ code, checkFunds cfg { tx with code := code } (startWorld w) = (.error e, w1) := by
    unfold checkFunds
    simp only [hb, Bool.false_eq_true, if_false]
    rw [hget]
    simp only
    cases hf : hasFunds balance tx.stampCost tx.stamps with
    | error e => exact ⟨e, _, fun _ => rfl⟩
    | ok b =>
      cases b with
      | true => exact absurd hf hno
      | false => exact ⟨_, _, fun _ => rfl⟩
  obtain ⟨e, w1, hcheck⟩ := hcheck
  have hatt : ∀ code, attempt H cfg { tx with code := code } true (startWorld w) = (.error e, w1) := by
    intro code
    unfold attempt
    rw [if_pos rfl, hcheck code]
  have htry : ∀ code, tryBlock H cfg { tx with code := code } true w.driver.pendingWrites (startWorld w) =
      onError tx w.driver.pendingWrites e w1 := by
    intro code
    unfold tryBlock
    rw [hatt code]
    rfl
  have hm' : tx.metering.getD cfg.metering = true := hm
  have hex : ∀ code, execute H cfg { tx with code := code } w = execute H cfg { tx with code := ⟨.ret .none, none⟩ } w := by
    intro code
    have e1 := htry code
    have e2 := htry ⟨.ret .none, none⟩
    unfold execute
    simp only [hm']
    unfold startWorld at e1 e2
    rw [e1, e2]
    rfl
  refine ⟨fun code => (hex code).trans (hex tx.code).symm, ?_⟩
  intro o w' h
  obtain ⟨_, writes, w2, _, rfl, _⟩ := execute_ok h
  refine Output.status_one.2 ⟨e, ?_⟩
  unfold ranOutcome
  rw [hm]
  exact congrArg (fun t => t.1.result) (htry tx.code)

/-- The hypotheses are met: 100 stamps-worth of balance, 101 stamps offered. -/
example : (Demo.w0.driver.get (balanceKey {} Demo.bob)).1 = .ok (.int 100) ∧
    (execute Demo.host {} { Demo.tx (.ret .none) with stamps := 101 } Demo.w0).1.map (fun o => (o.status, o.writes)) =
      .ok (1, [(Demo.bobKey, .dec ⟨false, 95, 0⟩)]) ∧
    (execute Demo.host {} { Demo.tx (.ret .none) with stamps := 100 } Demo.w0).1.map Output.status = .ok 0 := by
  decide +kernel

/-! ### C34: private functions -/

/-- **C34.** A function name beginning with `__` is refused before anything is read or run: an assertion
error, and the process is as before (the records of the previous transaction are cleared). -/
theorem C34_private {H : Host} {cfg : ExecCfg} {tx : Tx} {w : World} (hb : cfg.bypassPrivates = false) {rest : Str}
    (hp : tx.function = '_' :: '_' :: rest) :
    execute H cfg tx w = (.error .assertion, { w with driver := { w.driver with txWrites := [], events := [] } }) := by
  unfold execute
  have : startsWith tx.function (py! "__") = true := by rw [hp]; simp [startsWith, List.isPrefixOf]
  simp only [hb, this]
  rfl

/-- Names that do not begin with `__` are not refused this way, and with `bypass_privates` none is. -/
example : (execute Demo.host {} (Demo.tx (.ret .none)) Demo.w0).1.map Output.status = .ok 0 ∧
    (execute Demo.host {} { Demo.tx (.ret .none) with function := py! "__f" } Demo.w0).1.map Output.status = .error .assertion ∧
    (execute Demo.host { bypassPrivates := true } { Demo.tx (.ret .none) with function := py! "__f" } Demo.w0).1.map Output.status
      = .ok 0 := by
  decide +kernel

/-! ### C35: reported writes -/

/-- `d'` was reached from `d` by operations that record every write of `k`. -/
def Tracks (k : Str) (d d' : Driver) : Prop :=
  ((∀ v, Dict.get? d.txWrites k = some v → Dict.get? d.pendingWrites k = some v) →
    ∀ v, Dict.get? d'.txWrites k = some v → Dict.get? d'.pendingWrites k = some v) ∧
  (Dict.get? d'.txWrites k = none → Dict.get? d.txWrites k = none ∧ Dict.get? d'.pendingWrites k = Dict.get? d.pendingWrites k)

theorem Tracks.refl (k : Str) (d : Driver) : Tracks k d d := ⟨fun h => h, fun h => ⟨h, rfl⟩⟩

theorem Tracks.trans {k : Str} {a b c : Driver} (h : Tracks k a b) (h' : Tracks k b c) : Tracks k a c :=
  ⟨fun x => h'.1 (h.1 x), fun hk => ⟨(h.2 (h'.2 hk).1).1, (h'.2 hk).2.trans (h.2 (h'.2 hk).1).2⟩⟩

theorem attempt_tracks {H : Host} {cfg : ExecCfg} {tx : Tx} {k : Str} (hc : tx.code.All (Action.Tracked k)) (m : Bool) (w : World) :
    Tracks k w.driver (attempt H cfg tx m w).2.driver := by
  refine attempt_prims (P := Action.Tracked k) (S := Tracks k) (Tracks.refl k) (fun _ _ _ => Tracks.trans)
    (fun d r => Tracks.refl k d) ?_ hc m w
  intro a w s p ha hm
  cases p with
  | write k' v txn =>
    have htx : txn = true ∨ k' ≠ k := by
      cases a <;> first
        | exact .inl hm.1
        | exact absurd hm id
        | (right; rintro rfl; exact ha hm.2)
        | (right; rw [hm.2]; exact ha)
    simp only [Prim.run]
    cases hset : s.2.set s.1 k' v txn with
    | mk r md =>
      obtain ⟨m', d'⟩ := md
      cases r with
      | error e =>
        have := (Driver.set_error hset).1
        simp only
        rw [this]
        exact Tracks.refl k s.2
      | ok u =>
        obtain ⟨v', _, _, hd', _⟩ := Driver.set_ok hset
        simp only
        rw [hd']
        by_cases hkk : k' = k
        · subst hkk
          have htx' : txn = true := htx.resolve_right fun h => h rfl
          subst htx'
          refine ⟨fun hi v'' hk => ?_, fun hk => ?_⟩
          · simp only [if_true] at hk ⊢
            rw [Dict.get?_set_self] at hk ⊢; exact hk
          · simp only [if_true] at hk
            rw [Dict.get?_set_self] at hk; cases hk
        · have htw : Dict.get? (if txn = true then Dict.set s.2.txWrites k' v' else s.2.txWrites) k = Dict.get? s.2.txWrites k := by
            split
            · rw [Dict.get?_set_ne _ _ hkk]
            · rfl
          refine ⟨fun hi v'' hk => ?_, fun hk => ?_⟩
          · simp only at hk ⊢
            rw [htw] at hk
            rw [Dict.get?_set_ne _ _ hkk]
            exact hi v'' hk
          · simp only at hk ⊢
            rw [htw] at hk
            rw [Dict.get?_set_ne _ _ hkk]
            exact ⟨hk, rfl⟩
  | mutate k' v x y =>
    cases hm
    have hne : k' ≠ k := ha
    have hput : ∀ m : Dict Str PyVal, Dict.get? (if Dict.has m k' then Dict.set m k' v else m) k = Dict.get? m k := by
      intro m
      split
      · rw [Dict.get?_set_ne _ _ hne]
      · rfl
    have h1 : Dict.get? (s.2.mutate k' v x y).pendingWrites k = Dict.get? s.2.pendingWrites k := by
      unfold Driver.mutate
      simp only
      split
      · rfl
      · exact hput _
    have h2 : Dict.get? (s.2.mutate k' v x y).txWrites k = Dict.get? s.2.txWrites k := by
      unfold Driver.mutate
      simp only
      split <;> split <;> first | rfl | exact hput _
    exact ⟨fun hi v' => by simp only [Prim.run, h1, h2]; exact hi v', by simp only [Prim.run, h1, h2]; exact fun h => ⟨h, trivial⟩⟩
  | _ => exact Tracks.refl k s.2

/-- **C35.** Successful transaction, auto-commit off: if the pending value of a key changed, the key is reported with
its new value, and every reported write is the pending value, unless the code clears a Hash that has this key,
changes the object stored under this key in place, or is the submission contract writing this key. -/
theorem C35_writes {H : Host} {cfg : ExecCfg} {tx : Tx} {w w' : World} {o : Output} {k : Str} (hc : tx.autoCommit = false)
    (ht : tx.code.All (Action.Tracked k)) (h : execute H cfg tx w = (.ok o, w')) (hs : o.status = 0) :
    (Dict.get? w'.driver.pendingWrites k ≠ Dict.get? w.driver.pendingWrites k →
      ∃ v, Dict.get? o.writes k = some v ∧ Dict.get? w'.driver.pendingWrites k = some v) ∧
    ∀ v, Dict.get? o.writes k = some v → Dict.get? w'.driver.pendingWrites k = some v := by
  obtain ⟨_, writes, w2, hw, rfl, rfl⟩ := execute_ok h
  have hok : ∃ v, (tryBlock H cfg tx (tx.metered cfg) w.driver.pendingWrites (startWorld w)).1.result = .ok v :=
    Output.status_zero.1 hs
  obtain ⟨v, hv⟩ := hok
  have htb := tryBlock_ok hc (h := hv)
  have htr := attempt_tracks (H := H) (cfg := cfg) ht (tx.metered cfg) (startWorld w)
  have hp : (ranWorld H cfg tx w).driver.pendingWrites =
      (attempt H cfg tx (tx.metered cfg) (startWorld w)).2.driver.pendingWrites := by
    unfold ranWorld; rw [htb.2]; rfl
  have hwr : (ranOutcome H cfg tx w).writes = (attempt H cfg tx (tx.metered cfg) (startWorld w)).2.driver.txWrites := by
    unfold ranOutcome; rw [htb.2]
  generalize hd : (attempt H cfg tx (tx.metered cfg) (startWorld w)).2.driver = d at htr hp hwr
  have h1 : ∀ v, Dict.get? d.txWrites k = some v → Dict.get? d.pendingWrites k = some v :=
    htr.1 (by intro v hk; cases hk)
  have h2 : Dict.get? d.txWrites k = none → Dict.get? d.pendingWrites k = Dict.get? w.driver.pendingWrites k :=
    fun hk => (htr.2 hk).2
  have base : (Dict.get? d.pendingWrites k ≠ Dict.get? w.driver.pendingWrites k →
      ∃ v, Dict.get? d.txWrites k = some v ∧ Dict.get? d.pendingWrites k = some v) ∧
      ∀ v, Dict.get? d.txWrites k = some v → Dict.get? d.pendingWrites k = some v := by
    refine ⟨fun hne => ?_, h1⟩
    cases hg : Dict.get? d.txWrites k with
    | none => exact absurd (h2 hg) hne
    | some v => exact ⟨v, rfl, h1 v hg⟩
  cases hm : tx.metered cfg with
  | false =>
    rw [hm, if_neg (by simp)] at hw
    cases hw
    simp only [cleanUp]
    rw [hp, hwr]
    exact base
  | true =>
    rw [hm, if_pos rfl] at hw
    obtain ⟨_, _, b, r, _, _, _, hwr', hw2⟩ := chargeFee_ok hc rfl hw
    rw [hw2, hwr']
    simp only [cleanUp]
    rw [hp, hwr]
    by_cases hk : k = balanceKey cfg tx.sender
    · subst hk
      rw [Dict.get?_set_self, Dict.get?_set_self]
      exact ⟨fun _ => ⟨b, rfl, rfl⟩, fun v h => h⟩
    · rw [Dict.get?_set_ne _ _ (Ne.symm hk), Dict.get?_set_ne _ _ (Ne.symm hk)]
      exact base

/-- The hypotheses are met, with a write reported next to the fee. -/
example : (execute Demo.host {} (Demo.tx (Demo.step (.varSet Demo.x (.int 1)) (.ret .none))) Demo.w0).1.map
      (fun o => (o.status, o.writes)) = .ok (0, [(Demo.x.key, .int 1), (Demo.bobKey, .dec ⟨false, 95, 0⟩)]) ∧
    ∀ k, (Demo.tx (Demo.step (.varSet Demo.x (.int 1)) (.ret .none))).code.All (Action.Tracked k) := by
  refine ⟨by decide +kernel, fun k => ⟨trivial, ?_⟩⟩
  rintro fn ⟨⟩ kwargs
  exact ⟨trivial, fun r => by cases r <;> trivial⟩

/-- **C35 fails for `Hash.clear`**: the deleted entries are missing from the reported writes, although
they are gone from the state. -/
theorem C35_refuted :
    let h : HashVar := .make Demo.conA (py! "h")
    let key := h.entry (py! "a")
    let w := Demo.world (Demo.stored Demo.conA ++ [(Demo.bobKey, .int 100), (key, .int 7)])
    let r := execute Demo.host {} (Demo.tx (Demo.step (.hashClear h []) (.ret .none))) w
    r.1.map (fun o => (o.status, o.writes)) = .ok (0, [(Demo.bobKey, .dec ⟨false, 95, 0⟩)]) ∧
    (w.driver.get key).1 = .ok (.int 7) ∧ (r.2.driver.get key).1 = .ok .none := by
  decide +kernel

/-- **C35 fails for in-place changes** of an object that is already pending: `l = x.get(); l.append(2)`. -/
theorem C35_mutate_refuted :
    let w := Demo.world (Demo.stored Demo.conA ++ [(Demo.bobKey, .int 100), (Demo.x.key, .list [.int 1])])
    let r := execute Demo.host {} (Demo.tx (Demo.step (.varGet Demo.x)
      (Demo.step (.mutate Demo.x.key (.list [.int 1, .int 2]) true false) (.ret .none)))) w
    r.1.map (fun o => (o.status, o.writes)) = .ok (0, [(Demo.bobKey, .dec ⟨false, 95, 0⟩)]) ∧
    (r.2.driver.get Demo.x.key).1 = .ok (.list [.int 1, .int 2]) := by
  decide +kernel

/-- **C35 fails for the submission contract's own writes** (`Driver.set_contract`, driver.py:254-262): a deployed
contract's code and records are not among the reported writes. -/
theorem C35_submission_refuted :
    let key := makeKey (py! "con_new") (py! "__code__")
    let r := execute Demo.host {} (Demo.tx (Demo.step (.rawSet key (.str (py! "code"))) (.ret .none))) Demo.w0
    r.1.map (fun o => (o.status, o.writes)) = .ok (0, [(Demo.bobKey, .dec ⟨false, 95, 0⟩)]) ∧
    (r.2.driver.get key).1 = .ok (.str (py! "code")) := by
  decide +kernel

end Verif
