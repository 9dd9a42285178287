import Verif.Proofs.Submission2
/-! # Deployment: transactions and histories -/
namespace Verif
open Spec

theorem attempt_kept {H : Host} {T : Toolchain} {N : Str → Prop} {n : Str} (hn : ':' ∉ n) {cfg : ExecCfg} {tx : Tx}
    (hc : UserCode H T N tx.code) (m : Bool) (w : World) : Kept N n w.driver (attempt H cfg tx m w).2.driver := by
  refine attempt_rel (R := fun w w' => Kept N n w.driver w'.driver) (fun w => Kept.refl _ _ _) (fun _ _ _ => Kept.trans)
    (fun w r => Kept.reads _ _ _ r) (fun w => Kept.refl _ _ _) (fun w _ => Kept.refl _ _ _) (fun w _ => Kept.refl _ _ _)
    (fun w _ => Kept.refl _ _ _) (fun _ w => Kept.refl _ _ _) (fun w => hc.1.kept hn w) ?_ m w
  intro w kwargs fn hfn
  unfold callEntry
  split
  · refine UserProg.kept (T := T) hn (.call (hc.2 fn hfn kwargs) fun r => ?_) w
    cases r with
    | ok v => exact .ret v
    | error e => exact .raise e
  · exact (hc.2 fn hfn kwargs).kept hn w

theorem balance_user {N : Str → Prop} {cfg : ExecCfg} (hN : N cfg.currency) (hb : VarName cfg.balances) (s : Str) :
    UserKey N (balanceKey cfg s) :=
  ⟨cfg.currency, cfg.balances, ':' :: s, hN, hb, Or.inr ⟨s, rfl⟩, by simp [balanceKey, makeKey]⟩

/-- The fee is written by a sequence of steps that keep records, and possibly a commit. -/
theorem chargeFee_inv {H : Host} {N : Str → Prop} {n : Str} (hn : ':' ∉ n) {cfg : ExecCfg} (hN : N cfg.currency)
    (hb : VarName cfg.balances) {tx : Tx} {used : Int} {writes : Dict Str PyVal} {P : Driver → Prop}
    (hk : ∀ d d', Kept N n d d' → P d → P d') (hcommit : tx.autoCommit = true → ∀ d, P d → P d.commit.2) (w : World)
    (h : P w.driver) : P (chargeFee H cfg tx used writes w).2.driver := by
  unfold chargeFee
  cases feeOf H tx used with
  | error e => exact h
  | ok fee =>
    simp only
    have h1 : P (w.driver.get (balanceKey cfg tx.sender)).2 := by
      refine hk _ _ ?_ h
      rw [get_reads]; exact Kept.reads _ _ _ _
    revert h1
    rcases w.driver.get (balanceKey cfg tx.sender) with ⟨r, d⟩
    intro h1
    cases r with
    | error e => exact h1
    | ok balance =>
      simp only
      cases afterFee balance fee with
      | error e => exact h1
      | ok b =>
        simp only
        have h2 : P (d.set w.meter (balanceKey cfg tx.sender) b false).2.2 :=
          hk _ _ (Kept.write hn _ _ (balance_user hN hb _) _ _) h1
        revert h2
        rcases d.set w.meter (balanceKey cfg tx.sender) b false with ⟨r, m, d'⟩
        intro h2
        cases r with
        | error e => exact h2
        | ok u =>
          simp only
          split
          · rename_i ha
            have h3 := hcommit ha d' h2
            revert h3
            rcases d'.commit with ⟨r, d''⟩
            intro h3
            cases r <;> exact h3
          · exact h2

theorem execute_eq (H : Host) (cfg : ExecCfg) (tx : Tx) (w : World) :
    execute H cfg tx w =
      if !cfg.bypassPrivates && startsWith tx.function (py! "__") then (.error .assertion, startWorld w)
      else
        match (if tx.metered cfg then chargeFee H cfg tx (stampsUsed tx (ranWorld H cfg tx w))
            (ranOutcome H cfg tx w).writes (ranWorld H cfg tx w)
          else (.ok (ranOutcome H cfg tx w).writes, ranWorld H cfg tx w)) with
        | (.error e, w) => (.error e, w)
        | (.ok writes, w') =>
          (.ok { result := (ranOutcome H cfg tx w).result, stampsUsed := stampsUsed tx (ranWorld H cfg tx w), writes := writes,
                 reads := w'.driver.pendingReads, events := (ranOutcome H cfg tx w).events }, cleanUp w') := rfl

/-- A property of the driver that survives contract code, the roll-back of a failed transaction, clearing the
records and (with auto-commit) commits and flushes survives transactions. -/
theorem execute_inv {H : Host} {T : Toolchain} {N : Str → Prop} {n : Str} (hn : ':' ∉ n) {cfg : ExecCfg} (hN : N cfg.currency)
    (hb : VarName cfg.balances) {tx : Tx} (hc : UserCode H T N tx.code) {P : Driver → Prop}
    (hk : ∀ d d', Kept N n d d' → P d → P d') (hrec : ∀ d tx ev, P d → P { d with txWrites := tx, events := ev })
    (hcommit : tx.autoCommit = true → ∀ d, P d → P d.commit.2) (hflush : tx.autoCommit = true → ∀ d, P d → P d.flushCache)
    (w : World) (hback : ∀ d, P d → P { d with pendingWrites := w.driver.pendingWrites }) (h : P w.driver) :
    P (execute H cfg tx w).2.driver := by
  have h0 : P (startWorld w).driver := hrec w.driver [] [] h
  have honerr : ∀ e w1, P w1.driver → P (onError tx w.driver.pendingWrites e w1).2.driver := by
    intro e w1 h1
    unfold onError
    simp only
    split
    · rename_i ha
      exact hflush ha _ (hback _ h1)
    · exact hback _ h1
  have h1 : P (tryBlock H cfg tx (tx.metered cfg) w.driver.pendingWrites (startWorld w)).2.driver := by
    unfold tryBlock
    have ha := hk _ _ (attempt_kept (cfg := cfg) hn hc (tx.metered cfg) (startWorld w)) h0
    revert ha
    rcases attempt H cfg tx (tx.metered cfg) (startWorld w) with ⟨r, w1⟩
    intro ha
    cases r with
    | error e => exact honerr e w1 ha
    | ok v =>
      simp only
      split
      · rename_i hac
        have h2 := hcommit hac w1.driver ha
        revert h2
        rcases w1.driver.commit with ⟨r, d⟩
        intro h2
        cases r with
        | error e => exact honerr e _ h2
        | ok u => exact h2
      · exact ha
  rw [execute_eq]
  split
  · exact h0
  · have h2 : P (ranWorld H cfg tx w).driver :=
      hrec (tryBlock H cfg tx (tx.metered cfg) w.driver.pendingWrites (startWorld w)).2.driver [] [] h1
    have h3 : P (if tx.metered cfg then chargeFee H cfg tx (stampsUsed tx (ranWorld H cfg tx w))
        (ranOutcome H cfg tx w).writes (ranWorld H cfg tx w)
        else (.ok (ranOutcome H cfg tx w).writes, ranWorld H cfg tx w)).2.driver := by
      split
      · exact chargeFee_inv hn hN hb hk hcommit _ h2
      · exact h2
    revert h3
    generalize (if tx.metered cfg then chargeFee H cfg tx (stampsUsed tx (ranWorld H cfg tx w))
        (ranOutcome H cfg tx w).writes (ranWorld H cfg tx w)
        else (.ok (ranOutcome H cfg tx w).writes, ranWorld H cfg tx w)) = q
    intro h3
    rcases q with ⟨r, w3⟩
    cases r <;> exact h3

end Verif
