import Verif.Spec.Guard
import Verif.Proofs.Transaction
import Verif.Props.Executor
import Verif.Props.Keys
import Verif.Proofs.Replica2
import Verif.Props.Replica
/-!
# Property C91: a contract's state changes only by its own functions

`stateOf`, `Spares`, `Outside`, `KeepsState`, `TxOutside` are in `Verif/Spec/Guard.lean`.
-/
namespace Verif
open Spec

theorem stateOf_eq (c : Str) (d : Driver) : stateOf c d = fun n => d.find (c ++ '.' :: n) := by
  funext n; exact (Driver.get_frame d _).2

theorem Driver.find_congr_at {d d' : Driver} {k : Str} (h1 : Dict.get? d.pendingWrites k = Dict.get? d'.pendingWrites k)
    (h2 : Dict.get? d.cache k = Dict.get? d'.cache k) (h3 : d.disk = d'.disk) (h4 : d.bypass = d'.bypass) : d.find k = d'.find k := by
  unfold Driver.find Driver.fromDisk dget
  rw [h1, h2, h3, h4]

theorem under_name (c n : Str) : Under c (c ++ '.' :: n) := ⟨n, by simp⟩

/-- A call that spares `c` leaves every read under `c` as it was. -/
theorem spares_find {H : Host} {c : Str} {a : Action} (h : Spares c a) (w : World) {k : Str} (hk : Under c k) :
    (a.run H w).2.driver.find k = w.driver.find k := by
  by_cases hg : ∃ n, a = .guarded n
  · obtain ⟨n, rfl⟩ := hg; rfl
  · have hs := Action.run_steps H w a (fun n h => hg ⟨n, h⟩)
    refine Steps.rel (R := fun s s' => s'.2.find k = s.2.find k) (fun _ => rfl) (fun _ _ _ h h' => h'.trans h) ?_ hs
    intro s p hp
    cases p with
    | read r => rfl
    | line c op mem => rfl
    | charge n => rfl
    | event e => rfl
    | write k' v txn =>
      have hne : k ≠ k' := by
        rintro rfl
        cases a <;> simp only [Action.may] at hp
        · exact h (hp.2 ▸ hk)
        · obtain ⟨_, s, rfl⟩ := hp; exact h s hk
        · obtain ⟨_, t, rfl⟩ := hp; exact h t (by simpa using hk)
        · exact h (hp.2 ▸ hk)
      obtain ⟨h1, h2, h3, _, _, h4⟩ := Driver.set_frame s.1 s.2 k' v txn
      show Driver.find (s.2.set s.1 k' v txn).2.2 k = _
      unfold Driver.find Driver.fromDisk dget
      rw [h1, h2, h3, (h4 k hne).1]
    | mutate k' v x y =>
      cases hp
      have hne : k' ≠ k := by rintro rfl; exact h hk
      have hput : ∀ m : Dict Str PyVal, Dict.get? (if Dict.has m k' then Dict.set m k' v else m) k = Dict.get? m k := by
        intro m; split
        · rw [Dict.get?_set_ne _ _ hne]
        · rfl
      show (s.2.mutate k' v x y).find k = s.2.find k
      unfold Driver.mutate
      split
      · exact Driver.find_congr_at rfl (hput _) rfl rfl
      · exact Driver.find_congr_at (hput _) rfl rfl rfl

theorem spares_stateOf {H : Host} {c : Str} {a : Action} (h : Spares c a) (w : World) :
    stateOf c (a.run H w).2.driver = stateOf c w.driver := by
  rw [stateOf_eq, stateOf_eq]
  funext n
  exact spares_find h w (under_name c n)

theorem stateOf_reads (c : Str) (d : Driver) (r : Dict Str PyVal) : stateOf c { d with pendingReads := r } = stateOf c d := by
  rw [stateOf_eq, stateOf_eq]; rfl

theorem Spec.SignersIn.of_frame {A : Str → Prop} {w w' : World} (h : SignersIn A w) (h1 : w'.base = w.base) (h2 : w'.stack = w.stack) :
    SignersIn A w' := by
  unfold SignersIn; rw [h1, h2]; exact h

theorem Spec.SignersIn.current {A : Str → Prop} {w : World} (h : SignersIn A w) : ∀ s, w.current.signer = some s → A s := by
  unfold World.current
  cases hs : w.stack with
  | nil => exact h.1
  | cons p s => exact h.2 p (by rw [hs]; simp)

theorem Spec.SignersIn.enter {A : Str → Prop} {w : World} (h : SignersIn A w) (c : Str) : SignersIn A (enter c w).2 := by
  have hcur := h.current
  unfold Verif.enter
  split
  · cases hg : w.driver.getOwner c with
    | mk r d =>
      cases r with
      | error e => exact h.of_frame rfl rfl
      | ok owner =>
        simp only
        have : ∀ f : Frame, f.signer = w.current.signer → SignersIn A (World.addState { w with driver := d } f) := by
          intro f hf
          unfold World.addState
          split
          · refine ⟨h.1, fun p hp => ?_⟩
            rcases List.mem_cons.1 hp with rfl | hp
            · intro s hs; exact hcur s (by rw [← hf]; exact hs)
            · exact h.2 p hp
          · exact h.of_frame rfl rfl
        split <;> exact this _ rfl
  · unfold World.insState
    cases hs : w.stack with
    | nil => exact h
    | cons p s =>
      obtain ⟨f, n⟩ := p
      refine ⟨h.1, fun q hq => ?_⟩
      rcases List.mem_cons.1 hq with rfl | hq
      · exact h.2 (f, n) (by rw [hs]; simp)
      · exact h.2 q (by rw [hs]; simp [hq])

theorem Spec.SignersIn.pop {A : Str → Prop} {w : World} (h : SignersIn A w) : SignersIn A w.popState := by
  unfold World.popState
  cases hs : w.stack with
  | nil => exact h
  | cons p s =>
    obtain ⟨f, n⟩ := p
    simp only
    split
    · exact ⟨h.1, fun q hq => h.2 q (by rw [hs]; simp [hq])⟩
    · refine ⟨h.1, fun q hq => ?_⟩
      rcases List.mem_cons.1 hq with rfl | hq
      · exact h.2 (f, n) (by rw [hs]; simp)
      · exact h.2 q (by rw [hs]; simp [hq])

theorem Spec.SignersIn.act {A : Str → Prop} {H : Host} {w : World} (h : SignersIn A w) (a : Action) : SignersIn A (a.run H w).2 :=
  h.of_frame (Action.run_world H w a).1 (Action.run_world H w a).2.1

theorem Spec.SignersIn.load {A : Str → Prop} {H : Host} {w : World} (h : SignersIn A w) (name : Str) (dyn : Bool) :
    SignersIn A (importStart H w name dyn).2 := by
  obtain ⟨r, he⟩ := importStart_frame H w name dyn
  rw [he]; exact h.of_frame rfl rfl

theorem Spec.SignersIn.run {A : Str → Prop} {H : Host} (p : Prog) {w : World} (h : SignersIn A w) : SignersIn A (p.run H w).2 :=
  Prog.run_rel (H := H) (P := fun _ => True) (R := fun w w' => SignersIn A w → SignersIn A w') (fun _ => id)
    (fun _ _ _ f g => g ∘ f) (fun a _ _ h => h.act a) (fun c _ h => h.enter c) (fun _ h => h.pop) (fun _ n d h => h.load n d)
    (fun _ _ h => h.of_frame rfl rfl) p (Prog.all_true p) w h

/-- The general form: functions of `c` keep `R` when called for signers from `A`. -/
theorem outside_keeps {A : Str → Prop} {H : Host} {c : Str} {F : Prog → Prop}
    {R : (Str → Except PyErr PyVal) → (Str → Except PyErr PyVal) → Prop}
    (hrefl : ∀ s, R s s) (htrans : ∀ s t u, R s t → R t u → R s u) (hF : ∀ body, F body → KeepsFor A H c R body) :
    ∀ (p : Prog), Outside c F p → p.NoCatch → KeepsFor A H c R p := by
  intro p
  induction p with
  | ret v => intro _ _ w v w' _ h; cases h; exact hrefl _
  | raise e => intro _ _ w v w' _ h; cases h
  | act a k ih =>
    intro ho hn w v w' hA h
    simp only [Prog.run] at h
    have hs := spares_stateOf (H := H) ho.1 w
    cases hr : a.run H w with
    | mk r w1 =>
      rw [hr] at h hs
      cases r with
      | error e => rw [hn.1 e] at h; cases h
      | ok u =>
        have hA1 : SignersIn A w1 := by have := hA.act (H := H) a; rw [hr] at this; exact this
        have := ih _ (ho.2 _) (hn.2 u) _ _ _ hA1 h
        simp only at hs
        rw [hs] at this
        exact this
  | call c' body k ihb ihk =>
    intro ho hn w v w' hA h
    simp only [Prog.run] at h
    obtain ⟨r, s, he⟩ := enter_frame c' w
    have hA1 := hA.enter c'
    cases hen : enter c' w with
    | mk r1 w1 =>
      rw [hen] at hA1
      rw [hen] at h he
      simp only at he
      cases r1 with
      | error e => simp only at h; rw [hn.2.1 e] at h; cases h
      | ok u =>
        simp only at h
        cases hb : body.run H w1 with
        | mk r2 w2 =>
          rw [hb] at h
          cases r2 with
          | error e => simp only at h; rw [hn.2.1 e] at h; cases h
          | ok v2 =>
            have h1 : stateOf c w1.driver = stateOf c w.driver := by rw [he]; exact stateOf_reads _ _ _
            have h2 : R (stateOf c w1.driver) (stateOf c w2.driver) := by
              by_cases hc : c' = c
              · exact hF body (ho.1 hc) _ _ _ hA1 hb
              · rcases ho.2.1 hc with hf | hf
                · exact hF body hf _ _ _ hA1 hb
                · exact ihb hf hn.1 _ _ _ hA1 hb
            have hA2 : SignersIn A w2 := by have := hA1.run (H := H) body; rw [hb] at this; exact this
            obtain ⟨s2, hp⟩ := popState_frame w2
            have h3 := ihk _ (ho.2.2 _) (hn.2.2 v2) _ _ _ hA2.pop h
            rw [hp] at h3
            rw [h1] at h2
            exact htrans _ _ _ h2 h3
  | load name dyn body k ihb ihk =>
    intro ho hn w v w' hA h
    simp only [Prog.run] at h
    obtain ⟨r, he⟩ := importStart_frame H w name dyn
    have hk : ∀ w1 u, SignersIn A w1 → stateOf c w1.driver = stateOf c w.driver → (k (.ok u)).run H w1 = (.ok v, w') →
        R (stateOf c w.driver) (stateOf c w'.driver) := by
      intro w1 u hA1 h1 h2
      rw [← h1]
      exact ihk _ (ho.2 _) (hn.2.2 u) _ _ _ hA1 h2
    have hA1 := hA.load (H := H) name dyn
    cases hen : importStart H w name dyn with
    | mk r1 w1 =>
      rw [hen] at hA1
      rw [hen] at h he
      simp only at he
      have h1 : stateOf c w1.driver = stateOf c w.driver := by rw [he]; exact stateOf_reads _ _ _
      cases r1 with
      | error e => simp only at h; rw [hn.2.1 e] at h; cases h
      | ok f =>
        cases f with
        | missing => simp only at h; rw [hn.2.1] at h; cases h
        | host => exact hk w1 _ hA1 h1 h
        | loaded => exact hk w1 _ hA1 h1 h
        | contract =>
          simp only at h
          cases hb : body.run H w1 with
          | mk r2 w2 =>
            rw [hb] at h
            cases r2 with
            | error e => simp only at h; rw [hn.2.1 e] at h; cases h
            | ok v2 =>
              have hA2 : SignersIn A w2 := by have := hA1.run (H := H) body; rw [hb] at this; exact this
              have h2 := ihb ho.1 hn.1 _ _ _ hA1 hb
              have h3 := ihk _ (ho.2 _) (hn.2.2 .none) (w2.addLoaded name) _ _ (hA2.of_frame rfl rfl) h
              rw [h1] at h2
              exact htrans _ _ _ h2 h3

/-- **C91, programs.** If every exported function of `c`, whenever it returns, leaves the state of `c` in relation
`R` (reflexive, transitive) to what it was, then so does every program outside of `c` that returns: whatever other
contracts do, whichever functions of `c` they call, how often and how deep. -/
theorem C91_program {H : Host} {c : Str} {F : Prog → Prop}
    {R : (Str → Except PyErr PyVal) → (Str → Except PyErr PyVal) → Prop}
    (hrefl : ∀ s, R s s) (htrans : ∀ s t u, R s t → R t u → R s u) (hF : ∀ body, F body → KeepsState H c R body) :
    ∀ (p : Prog), Outside c F p → p.NoCatch → KeepsState H c R p :=
  fun p ho hn w v w' h => outside_keeps (A := fun _ => True) hrefl htrans (fun b hb w v w' _ h => hF b hb w v w' h) p ho hn w v w'
    ⟨fun _ _ => trivial, fun _ _ _ _ => trivial⟩ h

theorem entryProg_noCatch {tx : Tx} {fn : Bool × (Dict Str PyVal → Prog)} {kwargs : Dict Str PyVal}
    (h : (fn.2 kwargs).NoCatch) : (entryProg tx fn kwargs).NoCatch := by
  unfold entryProg
  split
  · exact ⟨h, fun _ => rfl, fun _ => trivial⟩
  · exact h

theorem attempt_outside {A : Str → Prop} {H : Host} {cfg : ExecCfg} {tx : Tx} {c : Str} {F : Prog → Prop}
    {R : (Str → Except PyErr PyVal) → (Str → Except PyErr PyVal) → Prop}
    (hrefl : ∀ s, R s s) (htrans : ∀ s t u, R s t → R t u → R s u) (hF : ∀ body, F body → KeepsFor A H c R body)
    (ht : TxOutside c F tx) {w w' : World} {v : PyVal} (hs : A tx.sender) (hst : ∀ f ∈ w.stack, ∀ s, f.1.signer = some s → A s)
    (h : attempt H cfg tx (tx.metered cfg) (startWorld w) = (.ok v, w')) :
    R (stateOf c w.driver) (stateOf c w'.driver) := by
  rcases attempt_ok h with ⟨_, _, r, hd⟩ | ⟨w0, w1, p, h0, h1, hr⟩
  · rw [hd]
    have : stateOf c { w.driver.clearTxWrites.clearEvents with pendingReads := r } = stateOf c w.driver := by
      rw [stateOf_eq, stateOf_eq]; rfl
    rw [this]; exact hrefl _
  · obtain ⟨r0, owner, hw0⟩ := txPrepared_frame h0
    have e0 : stateOf c w0.driver = stateOf c w.driver := by rw [hw0, stateOf_eq, stateOf_eq]; rfl
    obtain ⟨fn, kwargs, w2, sub, hfn, hkw, rfl, hw1, _, hcases⟩ := fnWorld_cases h1
    have e1 : stateOf c w1.driver = stateOf c w2.driver := by rw [hw1]; rfl
    have hA0 : SignersIn A w0 := ⟨fun s h => by rw [hw0] at h; cases h; exact hs, fun f hf => by rw [hw0] at hf; exact hst f hf⟩
    have hA2 : SignersIn A w2 → SignersIn A w1 := fun h => ⟨fun s hs => h.1 s (by rw [hw1] at hs; exact hs), fun f hf => by rw [hw1] at hf; cases hf⟩
    have hrun := fun h => outside_keeps hrefl htrans hF _ (ht.fn fn kwargs hfn hkw) (entryProg_noCatch (ht.fnNoCatch fn hfn kwargs)) _ _ _ (hA2 h) hr
    rw [e1] at hrun
    rcases hcases with ⟨r, rfl, _⟩ | ⟨wt, v, wv, htw, htop, rfl⟩
    · have : stateOf c (World.driver { w0 with driver := { w0.driver with pendingReads := r } }) = stateOf c w0.driver := stateOf_reads _ _ _
      rw [this, e0] at hrun
      exact hrun (hA0.of_frame rfl rfl)
    · obtain ⟨rt, hwt⟩ := topWorld_frame htw
      have e2 : stateOf c wt.driver = stateOf c w.driver := by
        rw [← e0, hwt]; exact stateOf_reads _ _ _
      have hAt : SignersIn A wt := by rw [hwt]; exact hA0.of_frame rfl rfl
      have hAv : SignersIn A wv := by have := hAt.run (H := H) tx.code.top; rw [htop] at this; exact this
      have h2 := outside_keeps hrefl htrans hF _ ht.top ht.topNoCatch _ _ _ hAt htop
      rw [e2] at h2
      exact htrans _ _ _ h2 (hrun (hAv.of_frame rfl rfl))

theorem transaction_outside {A : Str → Prop} {H : Host} {cfg : ExecCfg} {tx : Tx} {c : Str} {F : Prog → Prop}
    {R : (Str → Except PyErr PyVal) → (Str → Except PyErr PyVal) → Prop}
    (hrefl : ∀ s, R s s) (htrans : ∀ s t u, R s t → R t u → R s u) (hF : ∀ body, F body → KeepsFor A H c R body)
    (ht : TxOutside c F tx) (hc : tx.autoCommit = false) {w w' : World} {o : Output} (hs : A tx.sender)
    (hst : ∀ f ∈ w.stack, ∀ s, f.1.signer = some s → A s)
    (h : execute H cfg tx w = (.ok o, w')) :
    let s := stateOf c (ranWorld H cfg tx w).driver
    (o.status = 0 → R (stateOf c w.driver) s) ∧ (o.status = 1 → s = stateOf c w.driver) ∧
    (∀ n, (tx.metered cfg = true → c ++ '.' :: n ≠ balanceKey cfg tx.sender) → stateOf c w'.driver n = s n) := by
  intro s
  obtain ⟨_, writes, w2, hw, rfl, rfl⟩ := execute_ok h
  refine ⟨fun hst0 => ?_, fun hst1 => ?_, fun n hn => ?_⟩
  · obtain ⟨v, hv⟩ : ∃ v, (ranOutcome H cfg tx w).result = .ok v := by
      unfold Output.status at hst0
      simp only at hst0
      cases hr : (ranOutcome H cfg tx w).result with
      | ok v => exact ⟨v, rfl⟩
      | error e => rw [hr] at hst0; cases hst0
    obtain ⟨h1, h2⟩ := tryBlock_ok hc hv
    have := attempt_outside (w := w) (w' := (attempt H cfg tx (tx.metered cfg) (startWorld w)).2) (v := v) (cfg := cfg) hrefl htrans hF ht hs hst
      (by rw [← h1])
    have e : s = stateOf c (attempt H cfg tx (tx.metered cfg) (startWorld w)).2.driver := by
      simp only [s, ranWorld]
      rw [h2, stateOf_eq, stateOf_eq]; rfl
    rw [e]; exact this
  · obtain ⟨e, he⟩ := Output.status_one.1 hst1
    obtain ⟨_, h2⟩ := tryBlock_failed hc (h := he)
    have hd := attempt_sameDisk H cfg tx (tx.metered cfg) (startWorld w)
    simp only [s, ranWorld]
    rw [h2, stateOf_eq, stateOf_eq]
    funext n
    have hca := attempt_cache (cfg := cfg) (H := H) (ht.noMutate n) (tx.metered cfg) (startWorld w)
    show Driver.find { (attempt H cfg tx (tx.metered cfg) (startWorld w)).2.driver with
      pendingWrites := w.driver.pendingWrites, txWrites := [], events := [] } _ = _
    unfold Driver.find Driver.fromDisk dget
    simp only
    rw [hca, hd.1, hd.2.1]
    rfl
  · show stateOf c w2.driver n = s n
    simp only [s]
    rw [stateOf_eq, stateOf_eq]
    cases hm : tx.metered cfg with
    | false => rw [hm, if_neg (by simp)] at hw; cases hw; rfl
    | true =>
      rw [hm, if_pos rfl] at hw
      obtain ⟨_, _, b, r, _, _, _, _, hw2⟩ := chargeFee_ok hc rfl hw
      rw [hw2]
      unfold Driver.find Driver.fromDisk dget
      simp only
      rw [Dict.get?_set_ne _ _ (Ne.symm (hn hm))]

/-- **C91, transactions.** A transaction outside of `c` (auto-commit off) that returns, successful or failed, takes the
state of `c` to a state `s` and then deducts the fee: if it succeeded, `s` is in relation `R` to the state before; if
it failed -- for whatever reason, in the middle of whatever function -- `s` is the state before. The fee changes
nothing but the sender's balance. -/
theorem C91_transaction {H : Host} {cfg : ExecCfg} {tx : Tx} {c : Str} {F : Prog → Prop}
    {R : (Str → Except PyErr PyVal) → (Str → Except PyErr PyVal) → Prop}
    (hrefl : ∀ s, R s s) (htrans : ∀ s t u, R s t → R t u → R s u) (hF : ∀ body, F body → KeepsState H c R body)
    (ht : TxOutside c F tx) (hc : tx.autoCommit = false) {w w' : World} {o : Output}
    (h : execute H cfg tx w = (.ok o, w')) :
    let s := stateOf c (ranWorld H cfg tx w).driver
    (o.status = 0 → R (stateOf c w.driver) s) ∧ (o.status = 1 → s = stateOf c w.driver) ∧
    (∀ n, (tx.metered cfg = true → c ++ '.' :: n ≠ balanceKey cfg tx.sender) → stateOf c w'.driver n = s n) :=
  transaction_outside (A := fun _ => True) hrefl htrans (fun b hb w v w' _ h => hF b hb w v w' h) ht hc trivial (fun _ _ _ _ => trivial) h

/-! ### Histories -/

theorem commitLoop_gets : ∀ (ps : List (Str × PyVal)) (disk : Disk), (∀ p ∈ ps, PlainKey p.1 ∧ Stable p.2) → Dict.WF ps →
    ∃ disk', Driver.commitLoop disk ps = (.ok (), disk') ∧
      (∀ k, PlainKey k → Dict.get? ps k = none → disk'.get (locOf k) = disk.get (locOf k)) ∧
      (∀ k v, Dict.get? ps k = some v → disk'.get (locOf k) = .ok v)
  | [], disk, _, _ => ⟨disk, rfl, fun _ _ _ => rfl, fun _ _ h => by cases h⟩
  | (k, v) :: ps, disk, hp, hwf => by
    obtain ⟨hk, hv⟩ := hp (k, v) (by simp)
    obtain ⟨ops, h1, h2⟩ : ∃ ops, Driver.commitKeyOps disk k v = .ok ops ∧ (disk.applyAll ops).get (locOf k) = .ok v := by
      by_cases hn : v = .none
      · subst hn
        refine ⟨_, rfl, ?_⟩
        unfold Disk.get; rw [Disk.attrs_deleteOps]
      · obtain ⟨ops, h1, h2⟩ := stable_setValueOps hv disk (locOf k) none
        refine ⟨ops, ?_, h2⟩
        cases v <;> first | exact absurd rfl hn | exact h1
    simp only [Dict.WF, Dict.keys, List.map_cons, List.nodup_cons] at hwf
    obtain ⟨disk', i1, i2, i3⟩ := commitLoop_gets ps (disk.applyAll ops) (fun p hp' => hp p (by simp [hp'])) hwf.2
    have hnone : Dict.get? ps k = none := Dict.get?_eq_none_iff.2 hwf.1
    refine ⟨disk', by simp only [Driver.commitLoop, h1, i1], fun k' hk' hg => ?_, fun k' v' hg => ?_⟩
    · rw [Dict.get?_cons] at hg
      by_cases he : k = k'
      · rw [if_pos he] at hg; cases hg
      · rw [if_neg he] at hg
        rw [i2 k' hk' hg]
        refine Disk.get_congr (Disk.attrs_applyAll_ne _ _ fun op hop => ?_)
        rw [Driver.commitKeyOps_loc h1 op hop]
        exact fun hx => he (locOf_inj hk hk' hx)
    · rw [Dict.get?_cons] at hg
      by_cases he : k = k'
      · rw [if_pos he] at hg; cases hg; subst he
        rw [i2 k hk hnone, h2]
      · rw [if_neg he] at hg
        exact i3 k' v' hg

theorem applyWrites_gets (nanos : Int) (f : Str → PyVal) : ∀ (ps : List (Str × PyVal)) (disk : Disk),
    (∀ p ∈ ps, PlainKey p.1 ∧ Stable p.2) → Dict.WF ps →
    ∃ disk', Driver.applyWrites disk nanos (ps.map fun kv => (kv.1, f kv.1, kv.2)) = (.ok (), disk') ∧
      (∀ k, PlainKey k → Dict.get? ps k = none → disk'.get (locOf k) = disk.get (locOf k)) ∧
      (∀ k v, Dict.get? ps k = some v → disk'.get (locOf k) = .ok v)
  | [], disk, _, _ => ⟨disk, rfl, fun _ _ _ => rfl, fun _ _ h => by cases h⟩
  | (k, v) :: ps, disk, hp, hwf => by
    obtain ⟨hk, hv⟩ := hp (k, v) (by simp)
    obtain ⟨ops, h1, h2⟩ := stable_setValueOps hv disk (locOf k) (some nanos)
    simp only [Dict.WF, Dict.keys, List.map_cons, List.nodup_cons] at hwf
    obtain ⟨disk', i1, i2, i3⟩ := applyWrites_gets nanos f ps (disk.applyAll ops) (fun p hp' => hp p (by simp [hp'])) hwf.2
    have hnone : Dict.get? ps k = none := Dict.get?_eq_none_iff.2 hwf.1
    refine ⟨disk', by simp only [List.map_cons, Driver.applyWrites, h1, i1], fun k' hk' hg => ?_, fun k' v' hg => ?_⟩
    · rw [Dict.get?_cons] at hg
      by_cases he : k = k'
      · rw [if_pos he] at hg; cases hg
      · rw [if_neg he] at hg
        rw [i2 k' hk' hg]
        refine Disk.get_congr (Disk.attrs_applyAll_ne _ _ fun op hop => ?_)
        rw [Disk.setValueOps_loc h1 op hop]
        exact fun hx => he (locOf_inj hk hk' hx)
    · rw [Dict.get?_cons] at hg
      by_cases he : k = k'
      · rw [if_pos he] at hg; cases hg; subst he
        rw [i2 k hk hnone, h2]
      · rw [if_neg he] at hg
        exact i3 k' v' hg

/-- Everything the cache holds under `c` is what the disk gives. -/
def CohOn (c : Str) (d : Driver) : Prop :=
  ∀ k, Under c k → PlainKey k → (dget d.cache k).isNone = false → d.disk.get (locOf k) = .ok (dget d.cache k)

/-- What is on disk under `c`. -/
def diskStateOf (c : Str) (d : Driver) (n : Str) : Except PyErr PyVal := d.disk.get (locOf (c ++ '.' :: n))

/-- What holds of the driver all along a history around `c`. -/
structure NodeInv (c : Str) (d : Driver) : Prop where
  bypass : d.bypass = false
  deltas : d.pendingDeltas = []
  wf : Dict.WF d.pendingWrites
  coh : CohOn c d

theorem CohOn.find {c : Str} {d : Driver} (h : CohOn c d) (hb : d.bypass = false) {k : Str} (hu : Under c k) (hk : PlainKey k) :
    d.find k = if (dget d.pendingWrites k).isNone then d.disk.get (locOf k) else .ok (dget d.pendingWrites k) := by
  rw [Driver.find_through hb]
  have : through d.cache d.disk k = d.disk.get (locOf k) := by
    unfold through
    by_cases hn : (dget d.cache k).isNone = true
    · rw [if_pos hn]
    · rw [if_neg hn, h k hu hk (by simpa using hn)]
  rw [this]

theorem CohOn.stateOf {c : Str} {d : Driver} (h : CohOn c d) (hb : d.bypass = false) (hp : d.pendingWrites = []) {n : Str}
    (hn : PlainKey (c ++ '.' :: n)) : stateOf c d n = diskStateOf c d n := by
  rw [stateOf_eq]
  show d.find _ = _
  rw [h.find hb (under_name c n) hn, hp]
  rfl

theorem settled_gets {c : Str} {d d' : Driver} (hb : d.bypass = false) (hco : CohOn c d) (hs : Settled c d)
    (h1 : ∀ k, PlainKey k → Dict.get? d.pendingWrites k = none → d'.disk.get (locOf k) = d.disk.get (locOf k))
    (h2 : ∀ k v, Dict.get? d.pendingWrites k = some v → d'.disk.get (locOf k) = .ok v) {n : Str}
    (hn : PlainKey (c ++ '.' :: n)) : diskStateOf c d' n = stateOf c d n := by
  rw [stateOf_eq]
  show d'.disk.get _ = d.find _
  rw [hco.find hb (under_name c n) hn]
  cases hg : Dict.get? d.pendingWrites (c ++ '.' :: n) with
  | none =>
    rw [h1 _ hn hg]
    have : dget d.pendingWrites (c ++ '.' :: n) = .none := by unfold dget; rw [hg]; rfl
    rw [this]; rfl
  | some v =>
    rw [h2 _ _ hg]
    have : dget d.pendingWrites (c ++ '.' :: n) = v := by unfold dget; rw [hg]; rfl
    rw [this]
    have hv := (hs (c ++ '.' :: n, v) (Dict.mem_of_get? hg)).2.2 (under_name c n)
    have : ¬ v.isNone = true := by cases v <;> first | exact absurd rfl hv | (intro h; cases h)
    rw [if_neg this]

theorem Driver.set_wf (m : Meter) (d : Driver) (k : Str) (v : PyVal) (txn : Bool) (h : Dict.WF d.pendingWrites) :
    Dict.WF (d.set m k v txn).2.2.pendingWrites := by
  rcases hs : d.set m k v txn with ⟨r, m', d'⟩
  cases r with
  | error e => rw [(Driver.set_error hs).1]; exact h
  | ok u =>
    obtain ⟨v', _, _, h3, _⟩ := Driver.set_ok hs
    rw [h3]; exact h.set _ _

theorem evict_dget (d : Driver) (keep : Str → Bool) (k : Str) (h : (dget (d.evict keep).cache k).isNone = false) :
    dget (d.evict keep).cache k = dget d.cache k := by
  unfold dget at h ⊢
  cases hg : Dict.get? (d.evict keep).cache k with
  | none => rw [hg] at h; cases h
  | some v => rw [get?_filter_key d.cache keep k hg]

theorem attempt_wf {H : Host} {cfg : ExecCfg} {tx : Tx} (m : Bool) (w : World) (h : Dict.WF w.driver.pendingWrites) :
    Dict.WF (attempt H cfg tx m w).2.driver.pendingWrites := by
  refine attempt_prims (P := fun _ => True) (S := fun d d' => Dict.WF d.pendingWrites → Dict.WF d'.pendingWrites) (fun _ => id)
    (fun _ _ _ h h' => h' ∘ h) (fun _ _ => id) ?_ (tx := tx) ?_ m w h
  · intro a w s p _ _
    cases p with
    | write k v txn => exact fun h => (Driver.set_wf s.1 s.2 k v txn h)
    | mutate k v x y =>
      intro h
      show Dict.WF (s.2.mutate k v x y).pendingWrites
      unfold Driver.mutate
      split
      · exact h
      · simp only
        split
        · exact h.set _ _
        · exact h
    | read r => exact id
    | line c op mem => exact id
    | charge n => exact id
    | event e => exact id
  · exact ⟨Prog.all_true _, fun fn _ kwargs => Prog.all_true _⟩

/-- A transaction leaves the disk and, under `c`, the cache alone. -/
theorem execute_around {H : Host} {cfg : ExecCfg} {tx : Tx} {c : Str} (hnm : ∀ n, tx.code.All (Action.NoMutate (c ++ '.' :: n)))
    (hc : tx.autoCommit = false) {w w' : World} {o : Output} (h : execute H cfg tx w = (.ok o, w')) :
    w'.driver.disk = w.driver.disk ∧ w'.driver.bypass = w.driver.bypass ∧ w'.driver.pendingDeltas = w.driver.pendingDeltas ∧
    (Dict.WF w.driver.pendingWrites → Dict.WF w'.driver.pendingWrites) ∧
    ∀ k, Under c k → Dict.get? w'.driver.cache k = Dict.get? w.driver.cache k := by
  obtain ⟨_, writes, w2, hw, rfl, rfl⟩ := execute_ok h
  have hd := attempt_sameDisk H cfg tx (tx.metered cfg) (startWorld w)
  have hca : ∀ k, Under c k → Dict.get? (attempt H cfg tx (tx.metered cfg) (startWorld w)).2.driver.cache k =
      Dict.get? w.driver.cache k := by
    rintro k ⟨n, rfl⟩
    have := attempt_cache (cfg := cfg) (H := H) (hnm n) (tx.metered cfg) (startWorld w)
    rw [List.append_assoc]; exact this
  have hran : (ranWorld H cfg tx w).driver.disk = w.driver.disk ∧ (ranWorld H cfg tx w).driver.bypass = w.driver.bypass ∧
      (ranWorld H cfg tx w).driver.pendingDeltas = w.driver.pendingDeltas ∧
      (Dict.WF w.driver.pendingWrites → Dict.WF (ranWorld H cfg tx w).driver.pendingWrites) ∧
      ∀ k, Under c k → Dict.get? (ranWorld H cfg tx w).driver.cache k = Dict.get? w.driver.cache k := by
    unfold ranWorld
    cases hr : (ranOutcome H cfg tx w).result with
    | ok v =>
      obtain ⟨_, h2⟩ := tryBlock_ok hc hr
      rw [h2]
      exact ⟨hd.1, hd.2.1, hd.2.2, fun h => attempt_wf _ (startWorld w) h, hca⟩
    | error e =>
      obtain ⟨_, h2⟩ := tryBlock_failed hc (h := hr)
      rw [h2]
      exact ⟨hd.1, hd.2.1, hd.2.2, id, hca⟩
  cases hm : tx.metered cfg with
  | false => rw [hm, if_neg (by simp)] at hw; cases hw; exact hran
  | true =>
    rw [hm, if_pos rfl] at hw
    obtain ⟨_, _, b, r, _, _, _, _, hw2⟩ := chargeFee_ok hc rfl hw
    rw [hw2]
    exact ⟨hran.1, hran.2.1, hran.2.2.1, fun h => (hran.2.2.2.1 h).set _ _, hran.2.2.2.2⟩

theorem nodeInv_open (c : Str) (disk : Disk) : NodeInv c (.open disk) ∧
    ∀ n, PlainKey (c ++ '.' :: n) → stateOf c (.open disk) n = diskStateOf c (.open disk) n := by
  have hco : CohOn c (.open disk) := fun k _ _ h => by cases h
  exact ⟨⟨rfl, rfl, by simp [Driver.open, Dict.WF, Dict.keys], hco⟩, fun n hn => hco.stateOf rfl rfl hn⟩

theorem NodeInv.tx {H : Host} {cfg : ExecCfg} {tx : Tx} {c : Str} {F : Prog → Prop} {w w' : World} {o : Output}
    (ih : NodeInv c w.driver) (ht : TxOutside c F tx) (hc : tx.autoCommit = false) (he : execute H cfg tx w = (.ok o, w')) :
    NodeInv c w'.driver ∧ diskStateOf c w'.driver = diskStateOf c w.driver := by
  obtain ⟨h1, h2, h3, h4, h5⟩ := execute_around ht.noMutate hc he
  refine ⟨⟨h2.trans ih.bypass, h3.trans ih.deltas, h4 ih.wf, ?_⟩, ?_⟩
  · intro k hu hk hn
    have e : dget w'.driver.cache k = dget w.driver.cache k := by unfold dget; rw [h5 k hu]
    rw [e] at hn ⊢
    rw [h1]
    exact ih.coh k hu hk hn
  · unfold diskStateOf; rw [h1]

theorem NodeInv.apply {c : Str} {d : Driver} (ih : NodeInv c d) (nanos : Int) (hs : Settled c d) :
    NodeInv c (d.hardApply nanos).2 ∧ ∀ n, PlainKey (c ++ '.' :: n) →
      stateOf c (d.hardApply nanos).2 n = stateOf c d n ∧ diskStateOf c (d.hardApply nanos).2 n = stateOf c d n := by
  obtain ⟨disk', i1, i2, i3⟩ := applyWrites_gets nanos (dget d.pendingReads) d.pendingWrites d.disk
    (fun p hp => ⟨(hs p hp).1, (hs p hp).2.1⟩) ih.wf
  rw [hardApply_eq nanos ih.deltas i1]
  set d' : Driver := { d with
    disk := disk', cache := d.pendingWrites.foldl (fun c kv => Dict.set c kv.1 kv.2) d.cache,
    pendingReads := [], pendingWrites := [], pendingDeltas := [] } with hd'
  have hco : CohOn c d' := by
    intro k hu hk hn
    have e : Dict.get? d'.cache k = _ := get?_foldl_set d.pendingWrites ih.wf d.cache k
    cases hg : Dict.get? d.pendingWrites k with
    | some v =>
      rw [hg] at e
      have e' : dget d'.cache k = v := by unfold dget; rw [e]; rfl
      rw [e']; exact i3 k v hg
    | none =>
      rw [hg] at e
      have e' : dget d'.cache k = dget d.cache k := by unfold dget; rw [e]
      rw [e'] at hn ⊢
      rw [show d'.disk = disk' from rfl, i2 k hk hg]
      exact ih.coh k hu hk hn
  have hg := fun n hn => settled_gets (d' := d') (n := n) ih.bypass ih.coh hs i2 i3 hn
  exact ⟨⟨ih.bypass, rfl, by simp [hd', Dict.WF, Dict.keys], hco⟩, fun n hn =>
    ⟨(hco.stateOf ih.bypass rfl hn).trans (hg n hn), hg n hn⟩⟩

theorem NodeInv.commit {c : Str} {d : Driver} (ih : NodeInv c d) (hs : Settled c d) :
    NodeInv c d.commit.2 ∧ ∀ n, PlainKey (c ++ '.' :: n) →
      stateOf c d.commit.2 n = stateOf c d n ∧ diskStateOf c d.commit.2 n = stateOf c d n := by
  obtain ⟨disk', i1, i2, i3⟩ := commitLoop_gets d.pendingWrites d.disk (fun p hp => ⟨(hs p hp).1, (hs p hp).2.1⟩) ih.wf
  have e : d.commit.2 = { d with disk := disk', cache := [], pendingWrites := [], pendingReads := [] } := by
    unfold Driver.commit; rw [i1]
  rw [e]
  set d' : Driver := { d with disk := disk', cache := [], pendingWrites := [], pendingReads := [] } with hd'
  have hco : CohOn c d' := fun k _ _ h => by cases h
  have hg := fun n hn => settled_gets (d' := d') (n := n) ih.bypass ih.coh hs i2 i3 hn
  exact ⟨⟨ih.bypass, ih.deltas, by simp [hd', Dict.WF, Dict.keys], hco⟩, fun n hn =>
    ⟨(hco.stateOf ih.bypass rfl hn).trans (hg n hn), hg n hn⟩⟩

theorem NodeInv.rollback {c : Str} {d : Driver} (ih : NodeInv c d) :
    NodeInv c d.rollback ∧ (∀ n, PlainKey (c ++ '.' :: n) → stateOf c d.rollback n = diskStateOf c d n) ∧
      diskStateOf c d.rollback = diskStateOf c d := by
  have hco : CohOn c d.rollback := fun k _ _ h => by cases h
  exact ⟨⟨ih.bypass, rfl, by simp [Driver.rollback, Dict.WF, Dict.keys], hco⟩, fun n hn => hco.stateOf ih.bypass rfl hn, rfl⟩

theorem NodeInv.evict {c : Str} {d : Driver} (ih : NodeInv c d) (keep : Str → Bool) :
    NodeInv c (d.evict keep) ∧ (∀ n, PlainKey (c ++ '.' :: n) → stateOf c (d.evict keep) n = stateOf c d n) ∧
      diskStateOf c (d.evict keep) = diskStateOf c d := by
  have hco : CohOn c (d.evict keep) := by
    intro k hu hk hn
    have e := evict_dget d keep k hn
    rw [e] at hn ⊢
    exact ih.coh k hu hk hn
  refine ⟨⟨ih.bypass, ih.deltas, ih.wf, hco⟩, fun n hn => ?_, rfl⟩
  rw [stateOf_eq, stateOf_eq]
  show (d.evict keep).find _ = d.find _
  rw [ih.coh.find ih.bypass (under_name c n) hn, hco.find ih.bypass (under_name c n) hn]
  rfl

/-- **C91, histories.** Take any history of a node around `c` that starts with nothing pending: transactions of
arbitrary other code calling `c`'s functions in any order and depth, successful or failed; blocks, commits,
rollbacks, expiring caches, restarts. Then the state of `c` is in relation `R` to the state it started from, provided
`R` is reflexive, transitive, about entries with plain names only, and kept by every one of `c`'s functions when it
returns. -/
theorem C91_history {H : Host} {c : Str} {F : Prog → Prop}
    {R : (Str → Except PyErr PyVal) → (Str → Except PyErr PyVal) → Prop}
    (hrefl : ∀ s, R s s) (htrans : ∀ s t u, R s t → R t u → R s u) (hF : ∀ body, F body → KeepsState H c R body)
    (hplain : ∀ s t t', (∀ n, PlainKey (c ++ '.' :: n) → t n = t' n) → R s t → R s t')
    {disk : Disk} {w : World} (h : Around H c F { driver := .open disk } w) :
    R (stateOf c (.open disk)) (stateOf c w.driver) := by
  suffices hb : NodeInv c w.driver ∧ R (stateOf c (.open disk)) (stateOf c w.driver) ∧
      R (stateOf c (.open disk)) (diskStateOf c w.driver) from hb.2.1
  induction h with
  | start =>
    obtain ⟨h1, h2⟩ := nodeInv_open c disk
    exact ⟨h1, hrefl _, hplain _ _ _ h2 (hrefl _)⟩
  | tx hr hc ht hfee he ih =>
    rename_i w w' cfg tx o
    obtain ⟨h1, h2⟩ := ih.1.tx ht hc he
    have hst := C91_transaction hrefl htrans hF ht hc he
    refine ⟨h1, ?_, by rw [h2]; exact ih.2.2⟩
    have e : stateOf c w'.driver = stateOf c (ranWorld H cfg tx w).driver := by
      funext n
      exact hst.2.2 n fun hm e => hfee hm (e ▸ under_name c n)
    rw [e]
    rcases (show o.status = 0 ∨ o.status = 1 by unfold Output.status; split <;> simp) with hs | hs
    · exact htrans _ _ _ ih.2.1 (hst.1 hs)
    · rw [hst.2.1 hs]; exact ih.2.1
  | apply nanos _ hs ih =>
    obtain ⟨h1, h2⟩ := ih.1.apply nanos hs
    exact ⟨h1, hplain _ _ _ (fun n hn => (h2 n hn).1.symm) ih.2.1, hplain _ _ _ (fun n hn => (h2 n hn).2.symm) ih.2.1⟩
  | commit _ hs ih =>
    obtain ⟨h1, h2⟩ := ih.1.commit hs
    exact ⟨h1, hplain _ _ _ (fun n hn => (h2 n hn).1.symm) ih.2.1, hplain _ _ _ (fun n hn => (h2 n hn).2.symm) ih.2.1⟩
  | rollback _ ih =>
    obtain ⟨h1, h2, h3⟩ := ih.1.rollback
    exact ⟨h1, hplain _ _ _ (fun n hn => (h2 n hn).symm) ih.2.2, by rw [h3]; exact ih.2.2⟩
  | evict keep _ ih =>
    obtain ⟨h1, h2, h3⟩ := ih.1.evict keep
    exact ⟨h1, hplain _ _ _ (fun n hn => (h2 n hn).symm) ih.2.1, by rw [h3]; exact ih.2.2⟩
  | restart _ hp ih =>
    rename_i w _
    obtain ⟨h1, h2⟩ := nodeInv_open c w.driver.disk
    exact ⟨h1, hplain _ _ _ (fun n hn => (h2 n hn).symm) ih.2.2, ih.2.2⟩

/-- **C91, a contract nobody calls.** A history in which no function of `c` is called leaves every entry of `c` as it
was. -/
theorem C91_uncalled {H : Host} {c : Str} {disk : Disk} {w : World}
    (h : Around H c (fun _ => False) { driver := .open disk } w) {n : Str} (hn : PlainKey (c ++ '.' :: n)) :
    stateOf c w.driver n = stateOf c (.open disk) n :=
  C91_history (R := fun s t => ∀ n, PlainKey (c ++ '.' :: n) → t n = s n) (fun _ _ _ => rfl)
    (fun _ _ _ h h' n hn => (h' n hn).trans (h n hn)) (fun _ h => h.elim)
    (fun _ _ _ h h' n hn => (h n hn).symm.trans (h' n hn)) h n hn

/-- **C91, other contracts' objects.** Variables and hashes declared by another contract spare `c`, whatever they are
asked to do, unless the name of one of the two contracts continues the name of the other after a dot. -/
theorem C91_own_storage {c c' : Str} (hne : c ≠ c') (h1 : ¬ Under c c') (h2 : ¬ Under c' c) (n : Str) (t : Option PyType)
    (dv v : PyVal) (ix : Index) (args : List Comp) :
    Spares c (.varSet (.make c' n t dv) v) ∧ Spares c (.hashSet (.make c' n dv) ix v) ∧ Spares c (.hashClear (.make c' n dv) args) := by
  have hd : ∀ k, Under c' k → ¬ Under c k := fun k hk hk' => by
    rcases (C15_disjoint hne).1 ⟨k, hk', hk⟩ with h | h
    · exact h1 h
    · exact h2 h
  refine ⟨hd _ (under_makeKey c' n), fun s => hd _ ?_, fun s => hd _ ?_⟩
  · exact under_entry c' n dv s
  · exact under_entry c' n dv s

namespace Demo

def conB : Str := py! "con_b"

/-- An exported function of `con_a` that sets `x` unless it is already set:
`if x.get() is None: x.set(v)`. -/
def once (v : PyVal) : Prog :=
  .act (.varGet x) fun
    | .ok .none => step (.varSet x v) (.ret .none)
    | .ok u => .ret u
    | .error e => .raise e

/-- `con_b` calls the function of `con_a` twice and keeps a note in a variable of its own. -/
def caller : Prog :=
  .call conA (once (.int 1)) (andThen (.call conA (once (.int 2)) (andThen
    (step (.varSet (.make conB (py! "y")) (.int 7)) (.ret .none)))))

/-- A transaction of `bob` calling a function of `con_b`. -/
def txB (p : Prog) : Tx := { tx p with contract := conB }

/-- `con_b` is deployed, `bob` has 100. -/
def diskB : Disk := (world (stored conB ++ [(bobKey, .int 100)])).driver.commit.2.disk

end Demo

/-- Once set, `x` stays. -/
def SetOnce (s t : Str → Except PyErr PyVal) : Prop := ∀ v, v ≠ .none → s (py! "x") = .ok v → t (py! "x") = .ok v

theorem Demo.once_keeps (v : PyVal) : KeepsState Demo.host Demo.conA SetOnce (Demo.once v) := by
  intro w r w' h u hu hs
  have hg : (Demo.x.get w.driver) = (.ok u, (w.driver.get Demo.x.key).2) := by
    unfold Variable.get
    have : w.driver.get Demo.x.key = (.ok u, (w.driver.get Demo.x.key).2) := Prod.ext hs rfl
    rw [this]
    have : ¬ u.isNone = true := by cases u <;> first | exact absurd rfl hu | (intro h; cases h)
    show (Except.ok (if u.isNone = true then Demo.x.default else u), _) = _
    rw [if_neg this]
  have hr : Demo.once v = .act (.varGet Demo.x) fun r => match r with
    | .ok .none => Demo.step (.varSet Demo.x v) (.ret .none) | .ok u => .ret u | .error e => .raise e := rfl
  have h' : (Prog.ret u).run Demo.host { w with driver := (w.driver.get Demo.x.key).2 } = (.ok r, w') := by
    rw [← h, hr]
    simp only [Prog.run, Action.run, hg, World.rd]
  cases h'
  show stateOf Demo.conA (w.driver.get Demo.x.key).2 _ = _
  rw [(Driver.get_frame w.driver Demo.x.key).1, stateOf_reads]
  exact hs

theorem Demo.caller_outside : Outside Demo.conA (fun b => ∃ v, b = Demo.once v) Demo.caller := by
  have hc : ∀ {p : Prog}, Outside Demo.conA (fun b => ∃ v, b = Demo.once v) p → ∀ r, Outside Demo.conA (fun b => ∃ v, b = Demo.once v) (Demo.andThen p r) :=
    fun h r => by cases r <;> first | exact h | exact trivial
  refine ⟨fun _ => ⟨_, rfl⟩, fun h => absurd rfl h, hc ⟨fun _ => ⟨_, rfl⟩, fun h => absurd rfl h, hc ⟨?_, hc trivial⟩⟩⟩
  exact (C91_own_storage (by decide) (by unfold Under; decide) (by unfold Under; decide) _ _ _ _ (.one (.int 0)) []).1

theorem Demo.andThen_noCatch {p : Prog} : ∀ e, Demo.andThen p (.error e) = .raise e := fun _ => rfl

theorem Demo.caller_noCatch : Demo.caller.NoCatch := by
  have ho : ∀ v, (Demo.once v).NoCatch := fun v => ⟨fun _ => rfl, fun u => by
    cases u <;> first | exact ⟨fun _ => rfl, fun _ => trivial⟩ | exact trivial⟩
  exact ⟨ho _, fun _ => rfl, fun _ => ⟨ho _, fun _ => rfl, fun _ => ⟨fun _ => rfl, fun _ => trivial⟩⟩⟩

theorem Demo.caller_all {P : Action → Prop} (h1 : P (.varGet Demo.x)) (h2 : ∀ v, P (.varSet Demo.x v))
    (h3 : P (.varSet (.make Demo.conB (py! "y")) (.int 7))) : Demo.caller.All P := by
  have hc : ∀ {p : Prog}, p.All P → ∀ r, (Demo.andThen p r).All P := fun h r => by cases r <;> first | exact h | exact trivial
  have ho : ∀ v, (Demo.once v).All P := fun v => ⟨h1, fun r => by
    rcases r with e | u
    · exact trivial
    · cases u <;> first | exact ⟨h2 _, hc trivial⟩ | exact trivial⟩
  exact ⟨ho _, hc ⟨ho _, hc ⟨h3, hc trivial⟩⟩⟩

theorem Demo.caller_tx : TxOutside Demo.conA (fun b => ∃ v, b = Demo.once v) (Demo.txB Demo.caller) where
  top := trivial
  fn fn kwargs hf _ := by
    cases hf
    exact ⟨fun h => absurd h (by decide), fun _ => .inr Demo.caller_outside, fun r => by cases r <;> exact trivial⟩
  topNoCatch := trivial
  fnNoCatch fn hf kwargs := by cases hf; exact Demo.caller_noCatch
  noMutate n := ⟨trivial, fun fn hf kwargs => by cases hf; exact Demo.caller_all trivial (fun _ => trivial) trivial⟩

theorem pair_of_fst {α β : Type} {p : α × β} {a : α} (h : p.1 = a) : p = (a, p.2) := by cases p; cases h; rfl

theorem Demo.caller_runs :
    (execute Demo.host {} (Demo.txB Demo.caller) { driver := .open Demo.diskB }).1.isOk = true ∧
    (execute Demo.host {} (Demo.txB Demo.caller) { driver := .open Demo.diskB }).2.driver.pendingWrites =
      [(Spec.stateKey Demo.conA (py! "x") [], .int 1), (Spec.stateKey Demo.conB (py! "y") [], .int 7),
       (Spec.stateKey (py! "currency") (py! "balances") [py! "bob"], .dec ⟨false, 95, 0⟩)] := by decide +kernel

/-- The hypotheses are met: `con_b` calls the function of `con_a` twice in a metered transaction, the block is applied,
the node restarts; the first value is there. -/
example : ∃ w, Around Demo.host Demo.conA (fun b => ∃ v, b = Demo.once v) { driver := .open Demo.diskB } w ∧
    stateOf Demo.conA w.driver (py! "x") = .ok (.int 1) ∧ stateOf Demo.conB w.driver (py! "y") = .ok (.int 7) := by
  obtain ⟨o, ho⟩ := ok_of_isOk Demo.caller_runs.1
  have h1 := Around.tx (.start _) rfl Demo.caller_tx (fun _ => by show ¬ _ <+: _; decide) (pair_of_fst ho)
  refine ⟨_, (h1.apply 5 ?_).restart (by decide +kernel), by decide +kernel, by decide +kernel⟩
  unfold Settled
  rw [Demo.caller_runs.2]
  intro p hp
  simp only [List.mem_cons, List.not_mem_nil, or_false] at hp
  rcases hp with rfl | rfl | rfl
  · exact ⟨⟨_, _, _, by decide, by decide, by decide, rfl⟩, stable_of (by decide +kernel), fun _ h => by cases h⟩
  · exact ⟨⟨_, _, _, by decide, by decide, by decide, rfl⟩, stable_of (by decide +kernel), fun _ h => by cases h⟩
  · exact ⟨⟨_, _, _, by decide, by decide, by decide, rfl⟩, stable_of (by decide +kernel), fun _ h => by cases h⟩

/-- So in every such history, whoever calls, `x` stays what it was first set to. -/
example {disk : Disk} {w : World} (h : Around Demo.host Demo.conA (fun b => ∃ v, b = Demo.once v) { driver := .open disk } w)
    {v : PyVal} (hv : v ≠ .none) (hs : stateOf Demo.conA (.open disk) (py! "x") = .ok v) :
    stateOf Demo.conA w.driver (py! "x") = .ok v :=
  C91_history (R := SetOnce) (fun _ _ _ h => h) (fun _ _ _ h h' v hv hs => h' v hv (h v hv hs))
    (fun _ ⟨v, hb⟩ => hb ▸ Demo.once_keeps v)
    (fun _ _ _ h h' v hv hs => (h _ ⟨Demo.conA, py! "x", [], by decide, by decide, by decide, rfl⟩) ▸ h' v hv hs) h v hv hs

/-- **C91 is false if a function hands out a stored object**: `con_a` returns the list it stores, the caller appends to
it, and from then on the contract reads the longer list, although none of its functions wrote anything. -/
theorem C91_refuted_mutate :
    let w : World := { driver := { pendingWrites := Demo.stored Demo.conB ++ [(Demo.x.key, .list []), (Demo.bobKey, .int 100)] } }
    let getter : Prog := .act (.varGet Demo.x) fun | .ok v => .ret v | .error e => .raise e
    let tx := Demo.txB (.call Demo.conA getter (Demo.andThen (Demo.step (.mutate Demo.x.key (.list [.int 1]) true false) (.ret .none))))
    stateOf Demo.conA w.driver (py! "x") = .ok (.list []) ∧
    (execute Demo.host {} tx w).1.map Output.status = .ok 0 ∧
    stateOf Demo.conA (execute Demo.host {} tx w).2.driver (py! "x") = .ok (.list [.int 1]) := by
  decide +kernel

end Verif
