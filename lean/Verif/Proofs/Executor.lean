import Verif.Proofs.Runtime
/-! # Lemmas about `execute` -/
namespace Verif

/-- Only the read record of the driver changed. -/
def OnlyReads (w w' : World) : Prop := ∃ r, w' = { w with driver := { w.driver with pendingReads := r } }

theorem OnlyReads.refl (w : World) : OnlyReads w w := ⟨w.driver.pendingReads, rfl⟩

theorem checkFunds_frame (cfg : ExecCfg) (tx : Tx) (w : World) : OnlyReads w (checkFunds cfg tx w).2 := by
  have hg := get_reads w.driver (balanceKey cfg tx.sender)
  have key : ∀ (r : Except PyErr PyVal × Driver), r.2 = { w.driver with pendingReads := r.2.pendingReads } →
      OnlyReads w (match r.1 with
        | .error e => ((.error e, { w with driver := r.2 }) : Except PyErr Unit × World)
        | .ok balance =>
          match hasFunds balance tx.stampCost tx.stamps with
          | .error e => (.error e, { w with driver := r.2 })
          | .ok false => (.error .assertion, { w with driver := r.2 })
          | .ok true => (.ok (), { w with driver := r.2 })).2 := by
    intro r hr
    refine ⟨r.2.pendingReads, ?_⟩
    rw [← hr]
    cases r.1 with
    | error e => rfl
    | ok b => simp only; split <;> rfl
  unfold checkFunds
  split
  · exact key (.ok (.int 9999999), w.driver) rfl
  · exact key _ hg

theorem setBase_frame (tx : Tx) (w : World) :
    ∃ r b, (setBase tx w).2 = { w with driver := { w.driver with pendingReads := r }, base := b } := by
  have ho := getOwner_reads w.driver tx.contract
  unfold setBase
  cases hg : w.driver.getOwner tx.contract with
  | mk r d =>
    rw [hg] at ho
    cases r with
    | error e => exact ⟨d.pendingReads, w.base, by simp only; rw [← ho]⟩
    | ok owner =>
      refine ⟨d.pendingReads, { signer := some tx.sender, caller := some tx.sender, this := some tx.contract, entry := some (tx.contract, tx.function), owner := owner, submission := .none }, ?_⟩
      simp only
      rw [← ho]
      split <;> rfl

/-- The parts of the driver that the whole transaction attempt leaves alone. -/
def SameDisk (w w' : World) : Prop :=
  w'.driver.disk = w.driver.disk ∧ w'.driver.bypass = w.driver.bypass ∧ w'.driver.pendingDeltas = w.driver.pendingDeltas

theorem SameDisk.refl (w : World) : SameDisk w w := ⟨rfl, rfl, rfl⟩
theorem SameDisk.trans {a b c : World} (h : SameDisk a b) (h' : SameDisk b c) : SameDisk a c :=
  ⟨h'.1.trans h.1, h'.2.1.trans h.2.1, h'.2.2.trans h.2.2⟩
theorem SameOutside.sameDisk {a b : World} (h : SameOutside a b) : SameDisk a b := ⟨h.1, h.2.1, h.2.2.1⟩
theorem OnlyReads.sameDisk {a b : World} (h : OnlyReads a b) : SameDisk a b := by
  obtain ⟨r, rfl⟩ := h; exact SameDisk.refl a

/-- The three ways an attempt ends: an exception before `set_up`, the answer of a host module's function, or
the entry function called in the state made by `set_up`. `R` relates the initial state to the state
before `set_up`. -/
theorem attempt_cases {H : Host} {cfg : ExecCfg} {tx : Tx} {R : World → World → Prop} (hrefl : ∀ w, R w w)
    (htrans : ∀ a b c, R a b → R b c → R a c) (hreads : ∀ w r, R w { w with driver := { w.driver with pendingReads := r } })
    (henv : ∀ w : World, R w { w with env := Dict.update w.env tx.environment })
    (hbase : ∀ w b, R w { w with base := b }) (hloaded : ∀ w : World, ∀ name, R w (w.addLoaded name))
    (hhost : ∀ w : World, ∀ l, R w { w with hostCalls := l })
    (htop : ∀ w, R w (tx.code.top.run H w).2) (m : Bool) (w : World) :
    ∃ w1, R w w1 ∧
      ((∃ e, attempt H cfg tx m w = (.error e, w1)) ∨
       (attempt H cfg tx m w = (H.hostCall tx.contract tx.function, setUp tx m w1)) ∨
       (∃ fn kwargs, tx.code.fn = some fn ∧ fixKwargs tx.kwargs = .ok kwargs ∧
         attempt H cfg tx m w = callEntry H tx kwargs fn (setUp tx m w1))) := by
  have honly : ∀ w w', OnlyReads w w' → R w w' := by rintro w _ ⟨r, rfl⟩; exact hreads w r
  unfold attempt
  have h1 : R w (if m then checkFunds cfg tx w else (.ok (), w)).2 := by
    cases m
    · exact hrefl w
    · exact honly _ _ (checkFunds_frame cfg tx w)
  cases hc : (if m then checkFunds cfg tx w else (.ok (), w)) with
  | mk r w1 =>
    rw [hc] at h1
    cases r with
    | error e => exact ⟨w1, h1, Or.inl ⟨e, rfl⟩⟩
    | ok u =>
      simp only
      have h2 : R w1 (setBase tx { w1 with env := Dict.update w1.env tx.environment }).2 := by
        obtain ⟨r, b, hb⟩ := setBase_frame tx { w1 with env := Dict.update w1.env tx.environment }
        rw [hb]
        exact htrans _ _ _ (henv w1) (htrans _ _ _ (hreads _ r) (hbase _ b))
      cases hb : setBase tx { w1 with env := Dict.update w1.env tx.environment } with
      | mk r w2 =>
        rw [hb] at h2
        cases r with
        | error e => exact ⟨w2, htrans _ _ _ h1 h2, Or.inl ⟨e, rfl⟩⟩
        | ok u =>
          simp only
          have h3 : R w2 (loadEntry H tx w2).2 := by
            unfold loadEntry
            have hl := honly _ _ (lookup_frame H w2 tx.contract)
            cases hlk : lookup H w2 tx.contract with
            | mk r w3 =>
              rw [hlk] at hl
              cases r with
              | error e => exact hl
              | ok f =>
                cases f with
                | contract =>
                  simp only
                  have hf := honly _ _ (fetchCompiled_frame w3 tx.contract)
                  cases hfc : fetchCompiled w3 tx.contract with
                  | mk r w4 =>
                    rw [hfc] at hf
                    cases r with
                    | error e => exact htrans _ _ _ hl hf
                    | ok u =>
                      simp only
                      have ht := htop w4
                      cases htr : tx.code.top.run H w4 with
                      | mk r w5 =>
                        rw [htr] at ht
                        cases r with
                        | error e => exact htrans _ _ _ hl (htrans _ _ _ hf ht)
                        | ok v => exact htrans _ _ _ hl (htrans _ _ _ hf (htrans _ _ _ ht (hloaded _ _)))
                | _ => exact hl
          cases hl : loadEntry H tx w2 with
          | mk r w3 =>
            rw [hl] at h3
            cases r with
            | error e => exact ⟨w3, htrans _ _ _ h1 (htrans _ _ _ h2 h3), Or.inl ⟨e, rfl⟩⟩
            | ok host =>
              simp only
              have h4 : R w w3 := htrans _ _ _ h1 (htrans _ _ _ h2 h3)
              unfold invoke
              split
              · exact ⟨_, htrans _ _ _ h4 (hhost w3 _), Or.inr (Or.inl rfl)⟩
              · split
                · exact ⟨w3, h4, Or.inl ⟨_, rfl⟩⟩
                · rename_i fn hfn'
                  have hsub : R w3 (if tx.contract = py! "submission" then
                      { w3 with base := { w3.base with submission := (Dict.get? tx.kwargs (py! "name")).getD .none } } else w3) := by
                    split
                    · exact hbase _ _
                    · exact hrefl _
                  simp only
                  split
                  · rename_i e _
                    exact ⟨_, htrans _ _ _ h4 hsub, Or.inl ⟨e, rfl⟩⟩
                  · rename_i kwargs hk
                    exact ⟨_, htrans _ _ _ h4 hsub, Or.inr (Or.inr ⟨fn, kwargs, hfn', hk, rfl⟩)⟩

/-- Any relation on worlds that everything in an attempt preserves. -/
theorem attempt_rel {H : Host} {cfg : ExecCfg} {tx : Tx} {R : World → World → Prop} (hrefl : ∀ w, R w w)
    (htrans : ∀ a b c, R a b → R b c → R a c) (hreads : ∀ w r, R w { w with driver := { w.driver with pendingReads := r } })
    (henv : ∀ w : World, R w { w with env := Dict.update w.env tx.environment })
    (hbase : ∀ w b, R w { w with base := b }) (hloaded : ∀ w : World, ∀ name, R w (w.addLoaded name))
    (hhost : ∀ w : World, ∀ l, R w { w with hostCalls := l }) (hsetup : ∀ m w, R w (setUp tx m w))
    (htop : ∀ w, R w (tx.code.top.run H w).2)
    (hfn : ∀ w kwargs fn, tx.code.fn = some fn → R w (callEntry H tx kwargs fn w).2) (m : Bool) (w : World) :
    R w (attempt H cfg tx m w).2 := by
  obtain ⟨w1, h1, h⟩ := attempt_cases (H := H) (cfg := cfg) hrefl htrans hreads henv hbase hloaded hhost htop m w
  rcases h with ⟨e, h⟩ | h | ⟨fn, kwargs, hf, _, h⟩
  · rw [h]; exact h1
  · rw [h]; exact htrans _ _ _ h1 (hsetup m w1)
  · rw [h]; exact htrans _ _ _ h1 (htrans _ _ _ (hsetup m w1) (hfn _ kwargs fn hf))

/-- Calling the entry function: as a program. -/
theorem callEntry_rel {H : Host} {tx : Tx} {R : World → World → Prop} (hrun : ∀ p : Prog, ∀ w, R w (p.run H w).2)
    (w : World) (kwargs : Dict Str PyVal) (fn : Bool × (Dict Str PyVal → Prog)) : R w (callEntry H tx kwargs fn w).2 := by
  unfold callEntry
  split <;> exact hrun _ _

/-- A relation on driver states preserved by every permitted API call holds across an attempt. -/
theorem attempt_driver {H : Host} {cfg : ExecCfg} {tx : Tx} {P : Action → Prop} {S : Driver → Driver → Prop}
    (hrefl : ∀ d, S d d) (htrans : ∀ a b c, S a b → S b c → S a c)
    (hreads : ∀ d r, S d { d with pendingReads := r }) (hact : ∀ a w, P a → S w.driver (a.run H w).2.driver)
    (hc : tx.code.All P) (m : Bool) (w : World) : S w.driver (attempt H cfg tx m w).2.driver := by
  have hrun : ∀ p : Prog, p.All P → ∀ w, S w.driver (p.run H w).2.driver := by
    refine Prog.run_rel (H := H) (P := P) (R := fun w w' => S w.driver w'.driver) (fun w => hrefl _) (fun _ _ _ => htrans _ _ _)
      hact ?_ ?_ ?_ (fun w name => hrefl _)
    · intro c w
      obtain ⟨r, s, h⟩ := enter_frame c w
      rw [h]; exact hreads _ r
    · intro w
      obtain ⟨s, h⟩ := popState_frame w
      rw [h]; exact hrefl _
    · intro w name dyn
      obtain ⟨r, h⟩ := importStart_frame H w name dyn
      rw [h]; exact hreads _ r
  refine attempt_rel (R := fun w w' => S w.driver w'.driver) (fun w => hrefl _) (fun _ _ _ => htrans _ _ _)
    (fun w r => hreads _ r) (fun w => hrefl _) (fun w _ => hrefl _) (fun w _ => hrefl _) (fun w _ => hrefl _)
    (fun _ w => hrefl _) (fun w => hrun _ hc.1 w) ?_ m w
  intro w kwargs fn hfn
  unfold callEntry
  split
  · refine hrun _ ?_ w
    exact ⟨hc.2 fn hfn kwargs, fun r => by cases r <;> trivial⟩
  · exact hrun _ (hc.2 fn hfn kwargs) w

/-- The same, for relations preserved by primitive effects. -/
theorem attempt_prims {H : Host} {cfg : ExecCfg} {tx : Tx} {P : Action → Prop} {S : Driver → Driver → Prop}
    (hrefl : ∀ d, S d d) (htrans : ∀ a b c, S a b → S b c → S a c)
    (hreads : ∀ d r, S d { d with pendingReads := r })
    (hp : ∀ a w s p, P a → Action.may H w a p → S s.2 (Prim.run s p).2.2)
    (hc : tx.code.All P) (m : Bool) (w : World) : S w.driver (attempt H cfg tx m w).2.driver := by
  refine attempt_driver (P := P) hrefl htrans hreads (fun a w ha => ?_) hc m w
  by_cases hg : ∃ n, a = .guarded n
  · obtain ⟨n, rfl⟩ := hg
    exact hrefl _
  · exact Steps.rel (R := fun s s' => S s.2 s'.2) (fun _ => hrefl _) (fun _ _ _ => htrans _ _ _)
      (fun s p hpp => hp a w s p ha hpp) (Action.run_steps H w a fun n h => hg ⟨n, h⟩)

/-- Without in-place changes of the object stored under `k` its cache entry stays as it is. -/
theorem attempt_cache {H : Host} {cfg : ExecCfg} {tx : Tx} {k : Str} (hc : tx.code.All (Action.NoMutate k)) (m : Bool) (w : World) :
    Dict.get? (attempt H cfg tx m w).2.driver.cache k = Dict.get? w.driver.cache k := by
  refine attempt_prims (P := Action.NoMutate k) (S := fun d d' => Dict.get? d'.cache k = Dict.get? d.cache k) (fun _ => rfl)
    (fun _ _ _ h h' => h'.trans h) (fun _ _ => rfl) ?_ hc m w
  intro a w s p ha hm
  cases p with
  | write k' v txn => exact congrArg (Dict.get? · k) (Driver.set_frame s.1 s.2 k' v txn).2.1
  | mutate k' v x y =>
    cases hm
    have hne : k' ≠ k := ha
    simp only [Prim.run, Driver.mutate]
    split
    · simp only
      split
      · rw [Dict.get?_set_ne _ _ hne]
      · rfl
    · rfl
  | _ => rfl

theorem attempt_sameDisk (H : Host) (cfg : ExecCfg) (tx : Tx) (m : Bool) (w : World) :
    SameDisk w (attempt H cfg tx m w).2 :=
  attempt_rel (R := SameDisk) SameDisk.refl (fun _ _ _ => SameDisk.trans) (fun w _ => SameDisk.refl w)
    (fun w => SameDisk.refl w) (fun w _ => SameDisk.refl w) (fun w _ => SameDisk.refl w) (fun w _ => SameDisk.refl w)
    (fun _ w => SameDisk.refl w) (fun w => (Prog.run_outside H _ w).sameDisk)
    (fun w kwargs fn _ => callEntry_rel (fun p w => (Prog.run_outside H p w).sameDisk) w kwargs fn) m w

/-- Result, writes and events reported by the `try` statement. -/
def ranOutcome (H : Host) (cfg : ExecCfg) (tx : Tx) (w : World) : Outcome :=
  (tryBlock H cfg tx (tx.metered cfg) w.driver.pendingWrites (startWorld w)).1

/-- A normal return of `execute`. -/
theorem execute_ok {H : Host} {cfg : ExecCfg} {tx : Tx} {w w' : World} {o : Output}
    (h : execute H cfg tx w = (.ok o, w')) :
    (cfg.bypassPrivates = true ∨ startsWith tx.function (py! "__") = false) ∧
    ∃ writes w2,
      (if tx.metered cfg then chargeFee H cfg tx (stampsUsed tx (ranWorld H cfg tx w)) (ranOutcome H cfg tx w).writes
          (ranWorld H cfg tx w)
        else (.ok (ranOutcome H cfg tx w).writes, ranWorld H cfg tx w)) = (.ok writes, w2) ∧
      o = { result := (ranOutcome H cfg tx w).result, stampsUsed := stampsUsed tx (ranWorld H cfg tx w),
            writes := writes, reads := w2.driver.pendingReads, events := (ranOutcome H cfg tx w).events } ∧
      w' = cleanUp w2 := by
  unfold execute at h
  simp only at h
  split at h
  · cases h
  · rename_i hpriv
    refine ⟨?_, ?_⟩
    · cases hb : cfg.bypassPrivates
      · right; rw [hb] at hpriv; simpa using hpriv
      · exact Or.inl rfl
    · split at h
      · cases h
      · rename_i writes w2 heq
        cases h
        exact ⟨writes, w2, heq, rfl, rfl⟩

/-- What an accepted fee deduction did (auto-commit off). -/
theorem chargeFee_ok {H : Host} {cfg : ExecCfg} {tx : Tx} {used : Int} {writes writes' : Dict Str PyVal} {w w' : World}
    (hc : tx.autoCommit = false) (hs : w.meter.started = false)
    (h : chargeFee H cfg tx used writes w = (.ok writes', w')) :
    ∃ fee balance b r, feeOf H tx used = .ok fee ∧ w.driver.find (balanceKey cfg tx.sender) = .ok balance ∧
      afterFee balance fee = .ok b ∧ writes' = Dict.set writes (balanceKey cfg tx.sender) b ∧
      w' = { w with driver := { w.driver with
        pendingReads := r, pendingWrites := Dict.set w.driver.pendingWrites (balanceKey cfg tx.sender) b } } := by
  unfold chargeFee at h
  cases hf : feeOf H tx used with
  | error e => rw [hf] at h; cases h
  | ok fee =>
    rw [hf] at h
    simp only [hc] at h
    have hgf := w.driver.get_frame (balanceKey cfg tx.sender)
    cases hg : w.driver.get (balanceKey cfg tx.sender) with
    | mk r d =>
      rw [hg] at h hgf
      obtain ⟨hd, hv⟩ := hgf
      simp only at hd hv
      cases r with
      | error e => cases h
      | ok balance =>
        simp only at h
        cases ha : afterFee balance fee with
        | error e => rw [ha] at h; cases h
        | ok b =>
          rw [ha] at h
          simp only at h
          cases hset : d.set w.meter (balanceKey cfg tx.sender) b false with
          | mk r md =>
            obtain ⟨m', d'⟩ := md
            rw [hset] at h
            cases r with
            | error e => cases h
            | ok u =>
              simp only [Bool.false_eq_true, if_false] at h
              cases h
              obtain ⟨wv, hn, ⟨t, _, hm⟩, hd', _⟩ := Driver.set_ok hset
              have hwv : wv = b := by
                have hb : ∀ t, b ≠ .flt t := by
                  rintro t rfl
                  unfold afterFee at ha
                  have viaDec : ∀ (x : Except PyErr Dec), (x.bind fun c => (cdSub c fee).bind fun r =>
                      (cdLtInt r 0).bind fun lt => if lt = true then (.ok (.int 0) : Except PyErr PyVal) else .ok (.dec r)) ≠ .ok (.flt t) := by
                    intro x hx
                    cases x with
                    | error e => cases hx
                    | ok c =>
                      simp only [Except.bind] at hx
                      cases hs : cdSub c fee with
                      | error e => rw [hs] at hx; cases hx
                      | ok r =>
                        rw [hs] at hx
                        simp only at hx
                        cases hl : cdLtInt r 0 with
                        | error e => rw [hl] at hx; cases hx
                        | ok lt => rw [hl] at hx; cases lt <;> cases hx
                  cases balance with
                  | none => exact viaDec (cdOfInt 0) ha
                  | int i => exact viaDec (cdOfInt i) ha
                  | bool x => exact viaDec (cdOfInt (if x then 1 else 0)) ha
                  | dec d => exact viaDec (.ok d) ha
                  | _ => cases ha
                cases b with
                | flt t => exact absurd rfl (hb t)
                | _ => cases hn; rfl
              subst hwv
              have hm' : m' = w.meter := by
                unfold Meter.deductWrite at hm
                rw [if_neg (by simp [hs])] at hm
                cases hm; rfl
              refine ⟨fee, balance, wv, d'.pendingReads, rfl, hv.symm, ha, rfl, ?_⟩
              rw [hm', hd']
              simp only [Bool.false_eq_true, if_false]
              rw [hd]

/-- The `try` statement of a failed transaction (auto-commit off). -/
theorem tryBlock_failed {H : Host} {cfg : ExecCfg} {tx : Tx} {m : Bool} {snap : Dict Str PyVal} {w : World}
    (hc : tx.autoCommit = false) {e : PyErr} (h : (tryBlock H cfg tx m snap w).1.result = .error e) :
    (attempt H cfg tx m w).1 = .error e ∧
    tryBlock H cfg tx m snap w = ({ result := .error e, writes := [], events := [] },
      { (attempt H cfg tx m w).2 with driver := { (attempt H cfg tx m w).2.driver with pendingWrites := snap } }) := by
  unfold tryBlock at h ⊢
  cases ha : attempt H cfg tx m w with
  | mk r w1 =>
    rw [ha] at h
    cases r with
    | error e' =>
      simp only [onError] at h
      cases h
      simp [onError, hc]
    | ok v => simp only [hc] at h; cases h

/-- The `try` statement of a successful transaction (auto-commit off). -/
theorem tryBlock_ok {H : Host} {cfg : ExecCfg} {tx : Tx} {m : Bool} {snap : Dict Str PyVal} {w : World}
    (hc : tx.autoCommit = false) {v : PyVal} (h : (tryBlock H cfg tx m snap w).1.result = .ok v) :
    (attempt H cfg tx m w).1 = .ok v ∧
    tryBlock H cfg tx m snap w =
      ({ result := .ok v, writes := (attempt H cfg tx m w).2.driver.txWrites,
         events := (attempt H cfg tx m w).2.driver.events },
       { (attempt H cfg tx m w).2 with meter := (attempt H cfg tx m w).2.meter.stop, restricted := false }) := by
  unfold tryBlock at h ⊢
  cases ha : attempt H cfg tx m w with
  | mk r w1 =>
    rw [ha] at h
    cases r with
    | error e' => simp only [onError] at h; cases h
    | ok v' => simp only [hc] at h; cases h; simp [hc]

/-- Failure reports nothing (auto-commit on or off). -/
theorem tryBlock_error {H : Host} {cfg : ExecCfg} {tx : Tx} {m : Bool} {snap : Dict Str PyVal} {w : World} {e : PyErr}
    (h : (tryBlock H cfg tx m snap w).1.result = .error e) :
    (tryBlock H cfg tx m snap w).1.writes = [] ∧ (tryBlock H cfg tx m snap w).1.events = [] := by
  unfold tryBlock at h ⊢
  cases ha : attempt H cfg tx m w with
  | mk r w1 =>
    rw [ha] at h
    cases r with
    | error e' => exact ⟨rfl, rfl⟩
    | ok v =>
      simp only at h ⊢
      split at h
      · rename_i hc
        rw [if_pos hc]
        cases hcm : (World.driver { w1 with meter := w1.meter.stop, restricted := false }).commit with
        | mk r d =>
          rw [hcm] at h
          cases r with
          | error e => exact ⟨rfl, rfl⟩
          | ok u => cases h
      · cases h

/-- The fee deduction neither records events nor transaction writes (any outcome). -/
theorem chargeFee_records (H : Host) (cfg : ExecCfg) (tx : Tx) (used : Int) (writes : Dict Str PyVal) (w : World) :
    (chargeFee H cfg tx used writes w).2.driver.events = w.driver.events ∧
    (chargeFee H cfg tx used writes w).2.driver.txWrites = w.driver.txWrites := by
  have hcommit : ∀ d : Driver, d.commit.2.events = d.events ∧ d.commit.2.txWrites = d.txWrites := by
    intro d
    unfold Driver.commit
    split <;> exact ⟨rfl, rfl⟩
  unfold chargeFee
  split
  · exact ⟨rfl, rfl⟩
  · rename_i fee _
    have hgf := (w.driver.get_frame (balanceKey cfg tx.sender)).1
    simp only
    cases hg : w.driver.get (balanceKey cfg tx.sender) with
    | mk r d =>
      rw [hg] at hgf
      simp only at hgf
      have hd : d.events = w.driver.events ∧ d.txWrites = w.driver.txWrites := by rw [hgf]; exact ⟨rfl, rfl⟩
      cases r with
      | error e => exact hd
      | ok balance =>
        simp only
        cases ha : afterFee balance fee with
        | error e => exact hd
        | ok b =>
          simp only
          have h1 := (Driver.set_frame w.meter d (balanceKey cfg tx.sender) b false).2.2.2.2.1
          have h2 : (d.set w.meter (balanceKey cfg tx.sender) b false).2.2.txWrites = d.txWrites := by
            cases hset : d.set w.meter (balanceKey cfg tx.sender) b false with
            | mk r md =>
              obtain ⟨m', d'⟩ := md
              cases r with
              | error e => have := (Driver.set_error hset).1; rw [this]
              | ok u => obtain ⟨_, _, _, hd', _⟩ := Driver.set_ok hset; rw [hd']; rfl
          cases hset : d.set w.meter (balanceKey cfg tx.sender) b false with
          | mk r md =>
            obtain ⟨m', d'⟩ := md
            rw [hset] at h1 h2
            simp only at h1 h2
            have h3 : d'.events = w.driver.events ∧ d'.txWrites = w.driver.txWrites := ⟨h1.trans hd.1, h2.trans hd.2⟩
            cases r with
            | error e => exact h3
            | ok u =>
              simp only
              split
              · have hcm := hcommit d'
                cases hcd : d'.commit with
                | mk r d'' =>
                  rw [hcd] at hcm
                  cases r with
                  | error e => exact ⟨hcm.1.trans h3.1, hcm.2.trans h3.2⟩
                  | ok u => exact ⟨hcm.1.trans h3.1, hcm.2.trans h3.2⟩
              · exact h3

/-- The reported writes after the fee. -/
theorem chargeFee_writes {H : Host} {cfg : ExecCfg} {tx : Tx} {used : Int} {writes writes' : Dict Str PyVal} {w w' : World}
    (h : chargeFee H cfg tx used writes w = (.ok writes', w')) :
    ∃ b, writes' = Dict.set writes (balanceKey cfg tx.sender) b := by
  unfold chargeFee at h
  split at h
  · cases h
  · simp only at h
    split at h
    · cases h
    · split at h
      · cases h
      · split at h
        · cases h
        · split at h
          · split at h
            · cases h
            · cases h; exact ⟨_, rfl⟩
          · cases h; exact ⟨_, rfl⟩

theorem Meter.stop_started (m : Meter) : m.stop.started = false := rfl

end Verif
