import Verif.Proofs.Node2
import Verif.Proofs.Submission3
/-! # Nodes: genuine code along a history -/
namespace Verif.Lang
open Verif Verif.Spec

/-- What holds all along. -/
structure CodeInv (N : Node) (d : Driver) : Prop where
  pend : PendGood N d
  cache : ∀ c, Spec.Plain c → c ≠ py! "submission" → dget d.cache (compiledKey c) ≠ .none →
    ∃ b, dget d.cache (compiledKey c) = .bytes b ∧ Genuine N c b
  disk : GenuineDisk N d.disk
  bypass : d.bypass = false
  deltas : d.pendingDeltas = []
  wf : Dict.WF d.pendingWrites

theorem CodeInv.state {N : Node} {d : Driver} (h : CodeInv N d) : GenuineState N d := by
  intro c v hc hs hf hv
  rw [Driver.find_through h.bypass] at hf
  split at hf
  · unfold through at hf
    split at hf
    · exact h.disk c v hc hs hf hv
    · have e : dget d.cache (compiledKey c) = v := by injection hf
      obtain ⟨b, h1, h2⟩ := h.cache c hc hs (by rw [e]; exact hv)
      exact ⟨b, e.symm.trans h1, h2⟩
  · have e : dget d.pendingWrites (compiledKey c) = v := by injection hf
    cases hg : Dict.get? d.pendingWrites (compiledKey c) with
    | none => unfold dget at e; rw [hg] at e; exact (hv e.symm).elim
    | some v' =>
      have e' : v' = v := by unfold dget at e; rw [hg] at e; exact e
      obtain ⟨b, h1, h2⟩ := h.pend c v' hc hs hg
      exact ⟨b, e'.symm.trans h1, h2⟩

theorem CodeInv.open {N : Node} {disk : Disk} (h : GenuineDisk N disk) : CodeInv N (.open disk) where
  pend := fun _ _ _ _ h => by cases h
  cache := fun _ _ _ h => (h rfl).elim
  disk := h
  bypass := rfl
  deltas := rfl
  wf := by simp [Driver.open, Dict.WF, Dict.keys]

theorem code_under (c : Str) : Under c (compiledKey c) := ⟨py! "__compiled__", by simp [compiledKey, makeKey]⟩

theorem CodeInv.tx {N : Node} (hN : RoundTrip N) {H : Host} {cfg : ExecCfg} {tx : Tx} {w w' : World} {o : Output} (ih : CodeInv N w.driver)
    (ht : NodeTx N H w.driver tx) (hfee : PlainFees cfg) (he : execute H cfg tx w = (.ok o, w')) : CodeInv N w'.driver := by
  have hg := ih.state
  have hnm : ∀ k, tx.code.All (Action.NoMutate k) := fun k =>
    ⟨(nodeTx_any hg ht k).1.2, fun fn hf kwargs => ((nodeTx_any hg ht k).2 fn kwargs hf).2⟩
  have hall := nodeTx_all hN hg ht
  obtain ⟨h1, h2, h3, h4, _⟩ := execute_around (c := []) (fun n => hnm _) ht.auto he
  refine ⟨?_, ?_, by rw [h1]; exact ih.disk, h2.trans ih.bypass, h3.trans ih.deltas, h4 ih.wf⟩
  · have hatt : PendGood N (attempt H cfg tx (tx.metered cfg) (startWorld w)).2.driver :=
      attempt_driver' (H := H) (cfg := cfg) (tx := tx) (P := NodeAct N) (S := fun d d' => PendGood N d → PendGood N d') (fun _ => id)
        (fun _ _ _ h h' => h' ∘ h) (fun _ _ => id) (fun a w ha h => pendGood_act ha w h) hall.1 hall.2 (tx.metered cfg) (startWorld w) ih.pend
    obtain ⟨_, writes, w2, hw, rfl, rfl⟩ := execute_ok he
    have hran : PendGood N (ranWorld H cfg tx w).driver := by
      unfold ranWorld
      cases hr : (ranOutcome H cfg tx w).result with
      | ok v =>
        obtain ⟨_, h2⟩ := tryBlock_ok ht.auto hr
        rw [h2]
        exact hatt
      | error e =>
        obtain ⟨_, h2⟩ := tryBlock_failed ht.auto (h := hr)
        rw [h2]
        exact ih.pend
    cases hm : tx.metered cfg with
    | false => rw [hm, if_neg (by simp)] at hw; cases hw; exact hran
    | true =>
      rw [hm, if_pos rfl] at hw
      obtain ⟨_, _, b, r, _, _, _, _, hw2⟩ := chargeFee_ok ht.auto rfl hw
      rw [hw2]
      intro c v hc hs hgt
      have hne : balanceKey cfg tx.sender ≠ compiledKey c :=
        userKey_ne (balance_user (N := NoColon) hfee.1.2.2.1 hfee.2 tx.sender) hc.2.2.1 (by decide)
      change Dict.get? (Dict.set (ranWorld H cfg tx w).driver.pendingWrites (balanceKey cfg tx.sender) b) (compiledKey c) = some v at hgt
      rw [Dict.get?_set_ne _ _ hne] at hgt
      exact hran c v hc hs hgt
  · intro c hc hs hg'
    obtain ⟨_, _, _, _, h5⟩ := execute_around (c := c) (fun n => hnm _) ht.auto he
    have e : dget w'.driver.cache (compiledKey c) = dget w.driver.cache (compiledKey c) := by
      unfold dget; rw [h5 _ (code_under c)]
    rw [e] at hg' ⊢
    exact ih.cache c hc hs hg'

theorem CodeInv.written {N : Node} {d : Driver} (ih : CodeInv N d) {disk' : Disk}
    (i2 : ∀ k, PlainKey k → Dict.get? d.pendingWrites k = none → disk'.get (locOf k) = d.disk.get (locOf k))
    (i3 : ∀ k v, Dict.get? d.pendingWrites k = some v → disk'.get (locOf k) = .ok v) : GenuineDisk N disk' := by
  intro c t hc hs hg ht
  cases hp : Dict.get? d.pendingWrites (compiledKey c) with
  | none =>
    rw [i2 _ (compiledKey_plain hc) hp] at hg
    exact ih.disk c t hc hs hg ht
  | some v =>
    rw [i3 _ _ hp] at hg
    cases hg
    exact ih.pend c _ hc hs hp

theorem CodeInv.apply {N : Node} {d : Driver} (ih : CodeInv N d) (nanos : Int) (hs : StablePending d) : CodeInv N (d.hardApply nanos).2 := by
  obtain ⟨disk', i1, i2, i3⟩ := applyWrites_gets nanos (dget d.pendingReads) d.pendingWrites d.disk hs ih.wf
  rw [hardApply_eq nanos ih.deltas i1]
  refine ⟨fun _ _ _ _ h => (by cases h), ?_, ih.written i2 i3, ih.bypass, rfl, by simp [Dict.WF, Dict.keys]⟩
  intro c hc hsub hg
  have e := get?_foldl_set d.pendingWrites ih.wf d.cache (compiledKey c)
  unfold dget at hg ⊢
  dsimp only at hg ⊢
  rw [e] at hg ⊢
  cases hp : Dict.get? d.pendingWrites (compiledKey c) with
  | none =>
    rw [hp] at hg
    exact ih.cache c hc hsub hg
  | some v => exact ih.pend c v hc hsub hp

theorem CodeInv.commit {N : Node} {d : Driver} (ih : CodeInv N d) (hs : StablePending d) : CodeInv N d.commit.2 := by
  obtain ⟨disk', i1, i2, i3⟩ := commitLoop_gets d.pendingWrites d.disk hs ih.wf
  have e : d.commit.2 = { d with disk := disk', cache := [], pendingWrites := [], pendingReads := [] } := by
    unfold Driver.commit; rw [i1]
  rw [e]
  exact ⟨fun _ _ _ _ h => (by cases h), fun _ _ _ h => (h rfl).elim, ih.written i2 i3, ih.bypass, ih.deltas, by simp [Dict.WF, Dict.keys]⟩

theorem CodeInv.rollback {N : Node} {d : Driver} (ih : CodeInv N d) : CodeInv N d.rollback :=
  ⟨fun _ _ _ _ h => (by cases h), fun _ _ _ h => (h rfl).elim, ih.disk, ih.bypass, rfl, by simp [Driver.rollback, Dict.WF, Dict.keys]⟩

theorem CodeInv.evict {N : Node} {d : Driver} (ih : CodeInv N d) (keep : Str → Bool) : CodeInv N (d.evict keep) := by
  refine ⟨ih.pend, fun c hc hs hg => ?_, ih.disk, ih.bypass, ih.deltas, ih.wf⟩
  have e := evict_dget d keep (compiledKey c) (by cases h : dget (d.evict keep).cache (compiledKey c) <;> first | rfl | exact (hg h).elim)
  rw [e] at hg ⊢
  exact ih.cache c hc hs hg

theorem history_inv {N : Node} (hN : RoundTrip N) {H : Host} {fees : ExecCfg → Tx → Prop} {settled : Driver → Prop} {disk : Disk}
    (hd : GenuineDisk N disk) {w : World} (h : NodeHistory N H fees settled { driver := .open disk } w) : CodeInv N w.driver := by
  induction h with
  | start => exact .open hd
  | tx _ h1 h2 _ h4 ih => exact ih.tx hN h1 h2 h4
  | apply nanos _ h _ ih => exact ih.apply nanos h
  | commit _ h _ ih => exact ih.commit h
  | rollback _ ih => exact ih.rollback
  | evict keep _ ih => exact ih.evict keep
  | restart _ _ ih => exact .open ih.disk

end Verif.Lang
