import Verif.Proofs.Context
import Verif.Spec.Transaction
/-!
# Invariants along the events of programs and transactions
-/
namespace Verif

/-- The event's own API call satisfies `P`. -/
def Spec.Ev.Is (P : Action → Prop) : Spec.Ev → Prop
  | .act a => P a
  | _ => True

/-- **Invariants.** A property of worlds preserved by every event holds in every world of a run, and at its end. -/
theorem events_inv {H : Host} {P : Action → Prop} {Inv : World → Prop}
    (hstep : ∀ w (e : Spec.Ev), e.Is P → Inv w → Inv (e.run H w).2) :
    ∀ (p : Prog), p.All P → ∀ w, Inv w → (∀ x ∈ Spec.events H p w, Inv x.1 ∧ x.2.Is P) ∧ Inv (p.run H w).2 := by
  have hact : ∀ w a, P a → Inv w → Inv (a.run H w).2 := fun w a ha hw => hstep w (.act a) ha hw
  have henter : ∀ w c, Inv w → Inv (enter c w).2 := fun w c hw => hstep w (.enter c) trivial hw
  have hpop : ∀ w : World, Inv w → Inv w.popState := fun w hw => hstep w .exit trivial hw
  have himp : ∀ w n d, Inv w → Inv (importStart H w n d).2 := fun w n d hw => hstep w (.importStart n d) trivial hw
  have hload : ∀ (w : World) n, Inv w → Inv (w.addLoaded n) := fun w n hw => hstep w (.loaded n) trivial hw
  intro p
  induction p with
  | ret v => intro _ w h; exact ⟨fun x hx => (by cases hx), h⟩
  | raise e => intro _ w h; exact ⟨fun x hx => (by cases hx), h⟩
  | act a k ih =>
    intro hp w h
    have h1 := hact w a hp.1 h
    obtain ⟨i1, i2⟩ := ih (a.run H w).1 (hp.2 _) (a.run H w).2 h1
    refine ⟨?_, i2⟩
    intro x hx
    simp only [Spec.events, List.mem_cons] at hx
    rcases hx with rfl | hx
    · exact ⟨h, hp.1⟩
    · exact i1 x hx
  | call c body k ihb ihk =>
    intro hp w h
    have h1 := henter w c h
    simp only [Spec.events, Prog.run, List.mem_cons]
    cases he : enter c w with
    | mk r w1 =>
      rw [he] at h1
      cases r with
      | error e =>
        obtain ⟨i1, i2⟩ := ihk (.error e) (hp.2 _) w1 h1
        refine ⟨?_, i2⟩
        rintro x (rfl | hx)
        · exact ⟨h, trivial⟩
        · exact i1 x hx
      | ok u =>
        obtain ⟨b1, b2⟩ := ihb hp.1 w1 h1
        obtain ⟨i1, i2⟩ := ihk (body.run H w1).1 (hp.2 _) _ (hpop _ b2)
        refine ⟨?_, i2⟩
        rintro x (rfl | hx)
        · exact ⟨h, trivial⟩
        · simp only [List.mem_append, List.mem_cons] at hx
          rcases hx with hx | rfl | hx
          · exact b1 x hx
          · exact ⟨b2, trivial⟩
          · exact i1 x hx
  | load name dyn body k ihb ihk =>
    intro hp w h
    have h1 := himp w name dyn h
    simp only [Spec.events, Prog.run, List.mem_cons]
    cases he : importStart H w name dyn with
    | mk r w1 =>
      rw [he] at h1
      have simple : ∀ r, (∀ x, x = (w, Spec.Ev.importStart name dyn) ∨ x ∈ Spec.events H (k r) w1 → Inv x.1 ∧ x.2.Is P) ∧
          Inv ((k r).run H w1).2 := by
        intro r
        obtain ⟨i1, i2⟩ := ihk r (hp.2 _) w1 h1
        refine ⟨?_, i2⟩
        rintro x (rfl | hx)
        · exact ⟨h, trivial⟩
        · exact i1 x hx
      cases r with
      | error e => exact simple _
      | ok f =>
        cases f with
        | missing => exact simple _
        | host => exact simple _
        | loaded => exact simple _
        | contract =>
          obtain ⟨b1, b2⟩ := ihb hp.1 w1 h1
          simp only
          cases hb : body.run H w1 with
          | mk rb w2 =>
            rw [hb] at b2
            cases rb with
            | error e =>
              obtain ⟨i1, i2⟩ := ihk (.error e) (hp.2 _) w2 b2
              refine ⟨?_, i2⟩
              rintro x (rfl | hx)
              · exact ⟨h, trivial⟩
              · simp only [List.mem_append] at hx
                rcases hx with hx | hx
                · exact b1 x hx
                · exact i1 x hx
            | ok v =>
              obtain ⟨i1, i2⟩ := ihk (.ok .none) (hp.2 _) (w2.addLoaded name) (hload _ _ b2)
              refine ⟨?_, i2⟩
              rintro x (rfl | hx)
              · exact ⟨h, trivial⟩
              · simp only [List.mem_append, List.mem_cons] at hx
                rcases hx with hx | rfl | hx
                · exact b1 x hx
                · exact ⟨b2, trivial⟩
                · exact i1 x hx

/-- What the preparation of a transaction changes. -/
theorem txPrepared_frame {cfg : ExecCfg} {tx : Tx} {w w1 : World} (h : Spec.txPrepared cfg tx w = some w1) :
    ∃ r owner, w1 = { w with driver := { w.driver.clearTxWrites.clearEvents with pendingReads := r },
                             env := Dict.update w.env tx.environment, base := Spec.entryFrame tx owner .none } := by
  unfold Spec.txPrepared at h
  have h1 : ∃ r, (if tx.metered cfg then checkFunds cfg tx (startWorld w) else (.ok (), startWorld w)).2 =
      { startWorld w with driver := { (startWorld w).driver with pendingReads := r } } := by
    cases tx.metered cfg
    · exact ⟨_, rfl⟩
    · exact checkFunds_frame cfg tx _
  cases hc : (if tx.metered cfg then checkFunds cfg tx (startWorld w) else (.ok (), startWorld w)) with
  | mk r v =>
    rw [hc] at h h1
    obtain ⟨rd, h1⟩ := h1
    simp only at h1
    cases r with
    | error e => cases h
    | ok u =>
      simp only at h
      cases hb : setBase tx { v with env := Dict.update v.env tx.environment } with
      | mk r v2 =>
        rw [hb] at h
        cases r with
        | error e => cases h
        | ok u =>
          simp only [Option.some.injEq] at h
          subst h
          unfold setBase at hb
          simp only at hb
          have ho := getOwner_reads v.driver tx.contract
          cases hg : v.driver.getOwner tx.contract with
          | mk ro d =>
            rw [hg] at ho hb
            cases ro with
            | error e => cases hb
            | ok owner =>
              simp only at hb ho
              split at hb
              · cases hb
              · cases hb
                refine ⟨d.pendingReads, owner, ?_⟩
                rw [h1] at ho ⊢
                rw [ho]
                rfl

theorem topWorld_frame {H : Host} {tx : Tx} {w w1 : World} (h : Spec.topWorld H tx w = some w1) :
    ∃ r, w1 = { w with driver := { w.driver with pendingReads := r } } := by
  unfold Spec.topWorld at h
  have hl := lookup_frame H w tx.contract
  cases hlk : lookup H w tx.contract with
  | mk r v =>
    rw [hlk] at h hl
    cases r with
    | error e => cases h
    | ok f =>
      cases f with
      | contract =>
        simp only at h hl
        have hf := fetchCompiled_frame v tx.contract
        cases hfc : fetchCompiled v tx.contract with
        | mk r v2 =>
          rw [hfc] at h hf
          cases r with
          | error e => cases h
          | ok u =>
            simp only [Option.some.injEq] at h
            subst h
            exact reads_reads hl hf
      | _ => cases h

/-- How the function comes to be called: the module was loaded before, or its top level has just run. -/
theorem fnWorld_cases {H : Host} {cfg : ExecCfg} {tx : Tx} {w w2 : World} {p : Prog}
    (h : Spec.fnWorld H cfg tx w = some (w2, p)) :
    ∃ fn kwargs w1 sub, tx.code.fn = some fn ∧ fixKwargs tx.kwargs = .ok kwargs ∧ p = Spec.entryProg tx fn kwargs ∧
      w2 = setUp tx (tx.metered cfg) { w1 with base := { w1.base with submission := sub } } ∧
      (tx.contract ≠ py! "submission" → sub = w1.base.submission) ∧
      ((∃ r, w1 = { w with driver := { w.driver with pendingReads := r } } ∧ Spec.topWorld H tx w = none) ∨
       (∃ wt v wv, Spec.topWorld H tx w = some wt ∧ tx.code.top.run H wt = (.ok v, wv) ∧ w1 = wv.addLoaded tx.contract)) := by
  unfold Spec.fnWorld at h
  cases hl : loadEntry H tx w with
  | mk r w1 =>
    rw [hl] at h
    cases r with
    | error e => cases h
    | ok host =>
      cases host with
      | true => cases h
      | false =>
        simp only at h
        cases hfn : tx.code.fn with
        | none => rw [hfn] at h; cases h
        | some fn =>
          cases hk : fixKwargs tx.kwargs with
          | error e => rw [hfn, hk] at h; cases h
          | ok kwargs =>
            rw [hfn, hk] at h
            simp only [Option.some.injEq, Prod.mk.injEq] at h
            obtain ⟨h1, h2⟩ := h
            refine ⟨fn, kwargs, w1, if tx.contract = py! "submission" then (Dict.get? tx.kwargs (py! "name")).getD .none
              else w1.base.submission, rfl, rfl, h2.symm, ?_, ?_, ?_⟩
            · rw [← h1]
              split <;> rfl
            · intro hn; rw [if_neg hn]
            · unfold loadEntry at hl
              unfold Spec.topWorld
              have hlf := lookup_frame H w tx.contract
              cases hlk : lookup H w tx.contract with
              | mk r v =>
                rw [hlk] at hl hlf
                simp only at hl hlf ⊢
                cases r with
                | error e => cases hl
                | ok f =>
                  cases f with
                  | missing => cases hl
                  | host => cases hl
                  | loaded =>
                    cases hl
                    obtain ⟨r, hlf⟩ := hlf
                    exact .inl ⟨r, hlf, rfl⟩
                  | contract =>
                    simp only at hl ⊢
                    cases hfc : fetchCompiled v tx.contract with
                    | mk r v2 =>
                      rw [hfc] at hl
                      cases r with
                      | error e => cases hl
                      | ok u =>
                        simp only at hl ⊢
                        cases ht : tx.code.top.run H v2 with
                        | mk r v3 =>
                          rw [ht] at hl
                          cases r with
                          | error e => cases hl
                          | ok v => cases hl; exact .inr ⟨v2, v, v3, rfl, ht, rfl⟩

theorem entryProg_all {P : Action → Prop} {tx : Tx} {fn : Bool × (Dict Str PyVal → Prog)} {kwargs : Dict Str PyVal}
    (h : (fn.2 kwargs).All P) : (Spec.entryProg tx fn kwargs).All P := by
  unfold Spec.entryProg
  split
  · exact ⟨h, fun r => by cases r <;> trivial⟩
  · exact h

/-- **Invariants of a transaction.** -/
theorem txEvents_inv {H : Host} {cfg : ExecCfg} {tx : Tx} {w : World} {P : Action → Prop} {Inv : World → Prop}
    (hc : tx.code.All P)
    (hprep : ∀ r owner, Inv { w with
                                         driver := { w.driver.clearTxWrites.clearEvents with pendingReads := r }
                                         env := Dict.update w.env tx.environment
                                         base := Spec.entryFrame tx owner .none })
    (hreads : ∀ w r, Inv w → Inv { w with driver := { w.driver with pendingReads := r } })
    (hsub : ∀ (w : World) sub, Inv w → Inv { w with base := { w.base with submission := sub } })
    (hset : ∀ w, Inv w → Inv (setUp tx (tx.metered cfg) w))
    (hstep : ∀ w (e : Spec.Ev), e.Is P → Inv w → Inv (e.run H w).2) :
    ∀ x ∈ Spec.txEvents H cfg tx w, Inv x.1 ∧ x.2.Is P := by
  intro x hx
  unfold Spec.txEvents Spec.txRuns at hx
  split at hx
  · simp at hx
  · rename_i w0 hw0
    split at hw0
    · cases hw0
    · obtain ⟨r, owner, h0⟩ := txPrepared_frame hw0
      have hi0 : Inv w0 := by rw [h0]; exact hprep r owner
      simp only [List.flatMap_append, List.mem_append] at hx
      have htop : ∀ wt, Spec.topWorld H tx w0 = some wt → Inv wt := by
        intro wt ht
        obtain ⟨r, rfl⟩ := topWorld_frame ht
        exact hreads _ _ hi0
      rcases hx with hx | hx
      · cases ht : Spec.topWorld H tx w0 with
        | none => rw [ht] at hx; simp at hx
        | some wt =>
          rw [ht] at hx
          simp only [Option.map_some, Option.toList_some, List.flatMap_cons, List.flatMap_nil, List.append_nil] at hx
          exact (events_inv hstep tx.code.top hc.1 wt (htop wt ht)).1 x hx
      · cases hf : Spec.fnWorld H cfg tx w0 with
        | none => rw [hf] at hx; simp at hx
        | some y =>
          obtain ⟨w2, p⟩ := y
          rw [hf] at hx
          simp only [Option.toList_some, List.flatMap_cons, List.flatMap_nil, List.append_nil] at hx
          obtain ⟨fn, kwargs, w1, sub, hfn, _, rfl, rfl, _, hw1⟩ := fnWorld_cases hf
          have hi1 : Inv w1 := by
            rcases hw1 with ⟨r, rfl, _⟩ | ⟨wt, v, wv, ht, hrun, rfl⟩
            · exact hreads _ _ hi0
            · have := (events_inv hstep tx.code.top hc.1 wt (htop wt ht)).2
              rw [hrun] at this
              exact hstep wv (.loaded tx.contract) trivial this
          exact (events_inv hstep _ (entryProg_all (hc.2 fn hfn kwargs)) _ (hset _ (hsub _ _ hi1))).1 x hx

/-- A transaction whose own work succeeds: it called a function of a host module, or its contract function. -/
theorem lookup_host {H : Host} {w w' : World} {name : Str} (h : lookup H w name = (.ok .host, w')) :
    H.imported name = true ∨ H.importable name = true := by
  unfold lookup at h
  split at h
  · cases h
  · split at h
    · exact .inl ‹_›
    · split at h
      · simp only [Prod.mk.injEq, Except.ok.injEq] at h
        by_cases hi : H.importable name = true
        · exact .inr hi
        · rw [if_neg hi] at h; exact absurd h.1 (by simp)
      · split at h
        · cases h
        · simp only at h
          split at h
          · simp only [Prod.mk.injEq, Except.ok.injEq] at h
            by_cases hi : H.importable name = true
            · exact .inr hi
            · rw [if_neg hi] at h; exact absurd h.1 (by simp)
          · cases h

theorem attempt_ok {H : Host} {cfg : ExecCfg} {tx : Tx} {w w' : World} {v : PyVal}
    (h : attempt H cfg tx (tx.metered cfg) (startWorld w) = (.ok v, w')) :
    ((H.imported tx.contract = true ∨ H.importable tx.contract = true) ∧ (tx.contract, tx.function) ∈ w'.hostCalls ∧
      ∃ r, w'.driver = { w.driver.clearTxWrites.clearEvents with pendingReads := r }) ∨
    ∃ w0 w1 p, Spec.txPrepared cfg tx w = some w0 ∧ Spec.fnWorld H cfg tx w0 = some (w1, p) ∧ p.run H w1 = (.ok v, w') := by
  unfold attempt at h
  unfold Spec.txPrepared
  cases hc : (if tx.metered cfg then checkFunds cfg tx (startWorld w) else (.ok (), startWorld w)) with
  | mk r v1 =>
    rw [hc] at h
    cases r with
    | error e => cases h
    | ok u =>
      simp only at h ⊢
      cases hb : setBase tx { v1 with env := Dict.update v1.env tx.environment } with
      | mk r v2 =>
        rw [hb] at h
        cases r with
        | error e => cases h
        | ok u =>
          simp only at h ⊢
          unfold Spec.fnWorld
          cases hl : loadEntry H tx v2 with
          | mk r v3 =>
            rw [hl] at h
            cases r with
            | error e => cases h
            | ok host =>
              simp only at h
              unfold invoke at h
              cases host with
              | true =>
                rw [if_pos rfl] at h
                simp only [Prod.mk.injEq] at h
                obtain ⟨h1, rfl⟩ := h
                have hfound : H.imported tx.contract = true ∨ H.importable tx.contract = true := by
                  unfold loadEntry at hl
                  cases hlk : lookup H v2 tx.contract with
                  | mk r v4 =>
                    rw [hlk] at hl
                    cases r with
                    | error e => cases hl
                    | ok f =>
                      cases f with
                      | missing => cases hl
                      | loaded => cases hl
                      | host => exact lookup_host hlk
                      | contract =>
                        simp only at hl
                        split at hl
                        · cases hl
                        · split at hl <;> cases hl
                refine .inl ⟨hfound, by simp [setUp], ?_⟩
                have hc1 : ∃ r, (if tx.metered cfg then checkFunds cfg tx (startWorld w) else (.ok (), startWorld w)).2 =
                    { startWorld w with driver := { (startWorld w).driver with pendingReads := r } } := by
                  cases tx.metered cfg
                  · exact ⟨_, rfl⟩
                  · exact checkFunds_frame cfg tx _
                rw [hc] at hc1
                obtain ⟨rd, hc1⟩ := hc1
                obtain ⟨rb, b, hbf⟩ := setBase_frame tx { v1 with env := Dict.update v1.env tx.environment }
                rw [hb] at hbf
                have hl3 : ∃ r, v3 = { v2 with driver := { v2.driver with pendingReads := r } } := by
                  unfold loadEntry at hl
                  have hlf := lookup_frame H v2 tx.contract
                  cases hlk : lookup H v2 tx.contract with
                  | mk r v4 =>
                    rw [hlk] at hl hlf
                    cases r with
                    | error e => cases hl
                    | ok f =>
                      cases f with
                      | missing => cases hl
                      | loaded => cases hl
                      | host => cases hl; exact hlf
                      | contract =>
                        simp only at hl
                        split at hl
                        · cases hl
                        · split at hl <;> cases hl
                obtain ⟨r3, hl3⟩ := hl3
                refine ⟨r3, ?_⟩
                simp only at hc1 hbf
                rw [hl3, hbf, hc1]
                rfl
              | false =>
                rw [if_neg (by simp)] at h
                cases hfn : tx.code.fn with
                | none => rw [hfn] at h; cases h
                | some fn =>
                  rw [hfn] at h
                  cases hk : fixKwargs tx.kwargs with
                  | error e => rw [hk] at h; cases h
                  | ok kwargs =>
                    rw [hk] at h
                    simp only at h
                    refine .inr ⟨v2, _, _, rfl, by rw [hl], ?_⟩
                    rw [← h]
                    unfold Spec.entryProg callEntry
                    split <;> rfl

/-- A transaction that reports success: its own work succeeded, and its result and events are reported. -/
theorem execute_success {H : Host} {cfg : ExecCfg} {tx : Tx} {w : World} {o : Output} {w' : World}
    (h : execute H cfg tx w = (.ok o, w')) (hs : o.status = 0) :
    ∃ v w1, attempt H cfg tx (tx.metered cfg) (startWorld w) = (.ok v, w1) ∧ o.result = .ok v ∧ o.events = w1.driver.events := by
  obtain ⟨_, _, w2, _, rfl, _⟩ := execute_ok h
  simp only [Output.status] at hs
  unfold ranOutcome at hs ⊢
  simp only
  unfold tryBlock at hs ⊢
  cases ha : attempt H cfg tx (tx.metered cfg) (startWorld w) with
  | mk r w1 =>
    rw [ha] at hs
    cases r with
    | error e => exact absurd hs (by simp [onError, Except.isOk, Except.toBool])
    | ok v =>
      refine ⟨v, w1, rfl, ?_⟩
      simp only at hs ⊢
      split
      · rename_i hc
        rw [if_pos hc] at hs
        split
        · rename_i hcm
          rw [hcm] at hs
          exact absurd hs (by simp [onError, Except.isOk, Except.toBool])
        · exact ⟨rfl, rfl⟩
      · exact ⟨rfl, rfl⟩

end Verif
