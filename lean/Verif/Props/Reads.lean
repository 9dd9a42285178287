import Verif.Proofs.Reads
import Verif.Spec.Reads
import Verif.Props.Isolation
import Verif.Props.Replica
/-!
# C105: a transaction depends on what it reports as read, and on nothing else
-/
namespace Verif

variable {S : Prop} {K : Str → Prop} {d0 e0 : Driver}

theorem callEntry_both {H : Host} {tx : Tx} {kwargs : Dict Str PyVal} {fn : Bool × (Dict Str PyVal → Prog)} {w w' : World}
    (hp : (fn.2 kwargs).All (Blindly S)) (h : Beside S K d0 e0 w w') :
    Both S K d0 e0 w (callEntry H tx kwargs fn w) (callEntry H tx kwargs fn w') := by
  unfold callEntry
  split
  · exact Prog.both _ ⟨hp, fun r => by cases r <;> exact trivial⟩ h
  · exact Prog.both _ hp h

theorem loadEntry_both {H : Host} {tx : Tx} {w w' : World} (hp : tx.code.top.All (Blindly S)) (h : Beside S K d0 e0 w w') :
    Both S K d0 e0 w (loadEntry H tx w) (loadEntry H tx w') := by
  unfold loadEntry
  have hl := lookup_both (H := H) (name := tx.contract) h
  generalize lookup H w tx.contract = r at hl ⊢
  generalize lookup H w' tx.contract = s at hl ⊢
  apply Both.bind hl
  intro x a b hab
  cases x with
  | error e => exact .pure hab _
  | ok f =>
    cases f with
    | contract =>
      simp only
      have hl := fetchCompiled_both (name := tx.contract) hab
      generalize fetchCompiled a tx.contract = r at hl ⊢
      generalize fetchCompiled b tx.contract = s at hl ⊢
      apply Both.bind hl
      intro x a b hab
      cases x with
      | error e => exact .pure hab _
      | ok u =>
        simp only
        have hl := Prog.both (H := H) tx.code.top hp hab
        generalize tx.code.top.run H a = r at hl ⊢
        generalize tx.code.top.run H b = s at hl ⊢
        apply Both.bind hl
        intro x a b hab
        cases x with
        | error e => exact .pure hab _
        | ok v => exact .upd hab _ (fun v => v.addLoaded tx.contract) fun _ _ => rfl
    | _ => exact .pure hab _

/-- After a change of something other than the driver. -/
theorem Both.after {α : Type} {w w' : World} (f : World → World) (hf : ∀ v e, f { v with driver := e } = { f v with driver := e })
    {r s : α × World} (h : Both S K d0 e0 (f w) r s) : Both S K d0 e0 w r s := by
  have hd : (f w).driver = w.driver := by
    have hx := congrArg World.driver (hf w w.driver)
    exact hx
  exact ⟨by rw [← hd]; exact h.grow, h.same⟩

theorem invoke_both {H : Host} {tx : Tx} {m host : Bool} {w w' : World} (hp : tx.code.All (Blindly S)) (h : Beside S K d0 e0 w w') :
    Both S K d0 e0 w (invoke H tx m host w) (invoke H tx m host w') := by
  unfold invoke
  split
  · exact .upd h _ (fun w => setUp tx m { w with hostCalls := w.hostCalls ++ [(tx.contract, tx.function)] }) fun _ _ => rfl
  · split
    · exact .pure h _
    · rename_i fn hfn
      simp only
      by_cases hs : tx.contract = py! "submission"
      · simp only [if_pos hs]
        split
        · exact .upd h _ (fun w => { w with base := { w.base with submission := (Dict.get? tx.kwargs (py! "name")).getD .none } }) fun _ _ => rfl
        · rename_i kwargs _
          have := h.upd (fun w => setUp tx m { w with base := { w.base with submission := (Dict.get? tx.kwargs (py! "name")).getD .none } }) fun _ _ => rfl
          exact ⟨(callEntry_both (H := H) (tx := tx) (hp.2 _ hfn kwargs) this).grow, (callEntry_both (H := H) (tx := tx) (hp.2 _ hfn kwargs) this).same⟩
      · simp only [if_neg hs]
        split
        · exact .pure h _
        · rename_i kwargs _
          have := h.upd (fun w => setUp tx m w) fun _ _ => rfl
          exact ⟨(callEntry_both (H := H) (tx := tx) (hp.2 _ hfn kwargs) this).grow, (callEntry_both (H := H) (tx := tx) (hp.2 _ hfn kwargs) this).same⟩

theorem setBase_both {tx : Tx} {w w' : World} (h : Beside S K d0 e0 w w') : Both S K d0 e0 w (setBase tx w) (setBase tx w') := by
  have key : ∀ u : World, setBase tx u = (fun r : Except PyErr PyVal × World => match r with
      | (.error e, w) => (.error e, w)
      | (.ok owner, w) =>
        let f : Frame :=
          { signer := some tx.sender, caller := some tx.sender, this := some tx.contract,
            entry := some (tx.contract, tx.function), owner := owner, submission := .none }
        let w := { w with base := f }
        if ownerRefuses w.current.owner w.current.caller then (.error .exception, w) else (.ok (), w)) (u.owning tx.contract) := by
    intro u
    unfold setBase World.owning
    rcases u.driver.getOwner tx.contract with ⟨_ | _, _⟩ <;> rfl
  rw [key, key]
  have hg := owning_both h tx.contract
  generalize w.owning tx.contract = r at hg ⊢
  generalize w'.owning tx.contract = s at hg ⊢
  apply Both.bind hg
  intro x a b hab
  cases x with
  | error e => exact .pure hab _
  | ok owner =>
    simp only
    obtain ⟨e, rfl, hn⟩ := hab
    generalize hf : ({ signer := some tx.sender, caller := some tx.sender, this := some tx.contract, entry := some (tx.contract, tx.function), owner := owner, submission := .none } : Frame) = f
    have hcur : World.current { a with driver := e, base := f } = World.current { a with base := f } := rfl
    rw [hcur]
    split
    · exact .upd ⟨e, rfl, hn⟩ _ (fun a => { a with base := f }) fun _ _ => rfl
    · exact .upd ⟨e, rfl, hn⟩ _ (fun a => { a with base := f }) fun _ _ => rfl

theorem checkFunds_both {cfg : ExecCfg} {tx : Tx} {w w' : World} (h : Beside S K d0 e0 w w') :
    Both S K d0 e0 w (checkFunds cfg tx w) (checkFunds cfg tx w') := by
  unfold checkFunds
  by_cases hb : cfg.bypassBalance = true
  · simp only [hb, if_true]
    cases hasFunds (.int 9999999) tx.stampCost tx.stamps with
    | error e => exact .pure h _
    | ok q => cases q <;> exact .pure h _
  · simp only [hb, Bool.false_eq_true, if_false]
    refine reading_both h (balanceKey cfg tx.sender) (g := fun r => match r with
      | .error e => .error e
      | .ok balance =>
        match hasFunds balance tx.stampCost tx.stamps with
        | .error e => .error e
        | .ok false => .error .assertion
        | .ok true => .ok ()) ?_ ?_
    · simp only [World.getting]
      rcases w.driver.get (balanceKey cfg tx.sender) with ⟨_ | b, _⟩
      · rfl
      · simp only
        cases hasFunds b tx.stampCost tx.stamps with
        | error e => rfl
        | ok q => cases q <;> rfl
    · simp only [World.getting]
      rcases w'.driver.get (balanceKey cfg tx.sender) with ⟨_ | b, _⟩
      · rfl
      · simp only
        cases hasFunds b tx.stampCost tx.stamps with
        | error e => rfl
        | ok q => cases q <;> rfl

theorem attempt_both {H : Host} {cfg : ExecCfg} {tx : Tx} {m : Bool} {w w' : World} (hp : tx.code.All (Blindly S))
    (h : Beside S K d0 e0 w w') : Both S K d0 e0 w (attempt H cfg tx m w) (attempt H cfg tx m w') := by
  unfold attempt
  have h1 : Both S K d0 e0 w (if m then checkFunds cfg tx w else (.ok (), w)) (if m then checkFunds cfg tx w' else (.ok (), w')) := by
    cases m
    · exact .pure h _
    · exact checkFunds_both h
  generalize (if m then checkFunds cfg tx w else (.ok (), w)) = r at h1 ⊢
  generalize (if m then checkFunds cfg tx w' else (.ok (), w')) = s at h1 ⊢
  apply Both.bind h1
  intro x a b hab
  cases x with
  | error e => exact .pure hab _
  | ok u =>
    simp only
    have hsb := setBase_both (tx := tx) (hab.upd (fun w => { w with env := Dict.update w.env tx.environment }) fun _ _ => rfl)
    have hsb : Both S K d0 e0 a _ _ := ⟨hsb.grow, hsb.same⟩
    generalize setBase tx { a with env := Dict.update a.env tx.environment } = r at hsb ⊢
    generalize setBase tx { b with env := Dict.update b.env tx.environment } = s at hsb ⊢
    apply Both.bind hsb
    intro x a b hab
    cases x with
    | error e => exact .pure hab _
    | ok u =>
      simp only
      have hl := loadEntry_both (H := H) (tx := tx) hp.1 hab
      generalize loadEntry H tx a = r at hl ⊢
      generalize loadEntry H tx b = s at hl ⊢
      apply Both.bind hl
      intro x a b hab
      cases x with
      | error e => exact .pure hab _
      | ok host => exact invoke_both hp hab

/-- The failed transaction's writes are taken back. -/
theorem Near.undo {d e : Driver} (h : Near S K d0 e0 d e) (h0 : ∀ k, K k → e0.find k = d0.find k) (hb : d0.bypass = false ∧ e0.bypass = false) :
    Near S K d0 e0 { d with pendingWrites := d0.pendingWrites } { e with pendingWrites := e0.pendingWrites } := by
  refine ⟨h.bypass, h.txw, h.events, fun k hk => ?_, h.thr, h.okd, h.oke, h.keepd, h.keepe, fun _ _ => rfl, fun _ _ => rfl, fun x => x⟩
  have := h0 k hk
  rw [Driver.find_through hb.1, Driver.find_through hb.2] at this
  have f1 := Driver.find_through (d := { d with pendingWrites := d0.pendingWrites }) h.bypass.1 k
  have f2 := Driver.find_through (d := { e with pendingWrites := e0.pendingWrites }) h.bypass.2 k
  rw [f1, f2]
  simp only [h.keepd.1, h.keepd.2, h.keepe.1, h.keepe.2]
  exact this

theorem tryBlock_both {H : Host} {cfg : ExecCfg} {tx : Tx} {m : Bool} {w w' : World} (hp : tx.code.All (Blindly S))
    (ha : tx.autoCommit = false) (h0 : ∀ k, K k → e0.find k = d0.find k) (hb : d0.bypass = false ∧ e0.bypass = false)
    (h : Beside S K d0 e0 w w') :
    Both S K d0 e0 w (tryBlock H cfg tx m d0.pendingWrites w) (tryBlock H cfg tx m e0.pendingWrites w') := by
  unfold tryBlock
  have h1 := attempt_both (H := H) (cfg := cfg) (m := m) hp h
  generalize attempt H cfg tx m w = r at h1 ⊢
  generalize attempt H cfg tx m w' = s at h1 ⊢
  obtain ⟨x, a⟩ := r
  obtain ⟨y, b⟩ := s
  obtain ⟨g, hs⟩ := h1
  have left : GrowsD w.driver (match (x, a) with
      | (.error e, w) => onError tx d0.pendingWrites e w
      | (.ok v, w) =>
        let o : Outcome := { result := .ok v, writes := w.driver.txWrites, events := w.driver.events }
        let w := { w with meter := w.meter.stop, restricted := false }
        if tx.autoCommit then
          match w.driver.commit with
          | (.error e, d) => onError tx d0.pendingWrites e { w with driver := d }
          | (.ok _, d) => (o, { w with driver := d })
        else (o, w)).2.driver := by
    cases x with
    | error e => simp only [onError, ha, Bool.false_eq_true, if_false]; exact g
    | ok v => simp only [ha, Bool.false_eq_true, if_false]; exact g
  refine ⟨left, fun hx => ?_⟩
  have ha' : SeenD K a.driver := by
    cases x with
    | error e => simp only [onError, ha, Bool.false_eq_true, if_false] at hx; exact hx
    | ok v => simp only [ha, Bool.false_eq_true, if_false] at hx; exact hx
  obtain ⟨hxy, e, hb', hn⟩ := hs ha'
  simp only at hxy hb'
  subst hxy hb'
  cases x with
  | error e => simp only [onError, ha, Bool.false_eq_true, if_false]; exact ⟨trivial, _, rfl, hn.undo h0 hb⟩
  | ok v =>
    simp only [ha, Bool.false_eq_true, if_false]
    exact ⟨by rw [hn.txw, hn.events], e, rfl, hn⟩

theorem chargeFee_both {H : Host} {cfg : ExecCfg} {tx : Tx} {used : Int} {writes : Dict Str PyVal} {w w' : World}
    (ha : tx.autoCommit = false) (h : Beside S K d0 e0 w w') :
    Both S K d0 e0 w (chargeFee H cfg tx used writes w) (chargeFee H cfg tx used writes w') := by
  have key : ∀ u : World, chargeFee H cfg tx used writes u = match feeOf H tx used with
      | .error e => (.error e, u)
      | .ok fee => (fun r : Except PyErr PyVal × World => match r with
        | (.error e, w) => (.error e, w)
        | (.ok balance, w) =>
          match afterFee balance fee with
          | .error e => (.error e, w)
          | .ok b => (fun r : Except PyErr PyVal × World =>
              (r.1.map fun _ => Dict.set writes (balanceKey cfg tx.sender) b, r.2)) (w.md (w.driver.set w.meter (balanceKey cfg tx.sender) b false)))
          (u.getting (balanceKey cfg tx.sender)) := by
    intro u
    unfold chargeFee World.getting World.md
    cases feeOf H tx used with
    | error e => rfl
    | ok fee =>
      simp only
      rcases u.driver.get (balanceKey cfg tx.sender) with ⟨_ | bal, d⟩
      · rfl
      · simp only
        cases afterFee bal fee with
        | error e => rfl
        | ok b =>
          simp only
          rcases d.set u.meter (balanceKey cfg tx.sender) b false with ⟨_ | _, m, d'⟩
          · rfl
          · simp only [ha, Bool.false_eq_true, if_false]
            rfl
  rw [key, key]
  cases feeOf H tx used with
  | error e => exact .pure h _
  | ok fee =>
    simp only
    have hg := getting_both h (balanceKey cfg tx.sender)
    generalize w.getting (balanceKey cfg tx.sender) = r at hg ⊢
    generalize w'.getting (balanceKey cfg tx.sender) = s at hg ⊢
    apply Both.bind hg
    intro x a b hab
    cases x with
    | error e => exact .pure hab _
    | ok balance =>
      simp only
      cases hv : afterFee balance fee with
      | error e => exact .pure hab _
      | ok v => exact (setting_both hab _ v false (.inr (by rcases afterFee_shape hv with rfl | ⟨r, rfl⟩ <;> rfl))).from

theorem execute_both {H : Host} {cfg : ExecCfg} {tx : Tx} {w : World} {e : Driver} (hp : tx.code.All (Blindly S))
    (ha : tx.autoCommit = false) (hn : Near S K w.driver e w.driver.clearTxWrites.clearEvents e.clearTxWrites.clearEvents)
    (h0 : ∀ k, K k → e.find k = w.driver.find k) (hb : w.driver.bypass = false ∧ e.bypass = false)
    (hpriv : cfg.bypassPrivates = true ∨ startsWith tx.function (py! "__") = false) {o : Output} {w1 : World}
    (hok : execute H cfg tx w = (.ok o, w1)) (hseen : ∀ k, (Dict.get? o.reads k).isSome = true → K k) :
    ∃ o' f, execute H cfg tx { w with driver := e } = (.ok o', { w1 with driver := f }) ∧ Spec.SameOutput o o' ∧
      Near S K w.driver e w1.driver f := by
  have start : Beside S K w.driver e (startWorld w) (startWorld { w with driver := e }) := by
    exact ⟨_, rfl, fun _ => hn⟩
  have ht := tryBlock_both (H := H) (cfg := cfg) (tx := tx) (m := tx.metered cfg) hp ha h0 hb start
  have key : ∀ v : World, execute H cfg tx v = (fun r : Outcome × World =>
      (fun q : Except PyErr (Dict Str PyVal) × World => match q with
        | (.error e, w) => (.error e, w)
        | (.ok (writes : Dict Str PyVal), w2) =>
          (.ok { result := r.1.result, stampsUsed := stampsUsed tx { r.2 with driver := r.2.driver.clearEvents.clearTxWrites, meter := r.2.meter.stop },
                 writes := writes, reads := w2.driver.pendingReads, events := r.1.events }, cleanUp w2))
        (if tx.metered cfg then chargeFee H cfg tx (stampsUsed tx { r.2 with driver := r.2.driver.clearEvents.clearTxWrites, meter := r.2.meter.stop }) r.1.writes
            { r.2 with driver := r.2.driver.clearEvents.clearTxWrites, meter := r.2.meter.stop }
          else (.ok r.1.writes, { r.2 with driver := r.2.driver.clearEvents.clearTxWrites, meter := r.2.meter.stop })))
      (tryBlock H cfg tx (tx.metered cfg) v.driver.pendingWrites (startWorld v)) := by
    intro v
    unfold execute
    simp only
    rw [if_neg (by rcases hpriv with h | h <;> simp [h])]
    rfl
  rw [key] at hok ⊢
  generalize tryBlock H cfg tx (tx.metered cfg) w.driver.pendingWrites (startWorld w) = r at ht hok
  generalize tryBlock H cfg tx (tx.metered cfg) e.pendingWrites (startWorld { w with driver := e }) = s at ht ⊢
  obtain ⟨oc, a⟩ := r
  obtain ⟨oc', b⟩ := s
  have fee : ∀ {c : World}, Beside S K w.driver e a c → Both S K w.driver e a
      (if tx.metered cfg then chargeFee H cfg tx (stampsUsed tx { a with driver := a.driver.clearEvents.clearTxWrites, meter := a.meter.stop }) oc.writes
            { a with driver := a.driver.clearEvents.clearTxWrites, meter := a.meter.stop }
          else (.ok oc.writes, { a with driver := a.driver.clearEvents.clearTxWrites, meter := a.meter.stop }))
      (if tx.metered cfg then chargeFee H cfg tx (stampsUsed tx { c with driver := c.driver.clearEvents.clearTxWrites, meter := c.meter.stop }) oc.writes
            { c with driver := c.driver.clearEvents.clearTxWrites, meter := c.meter.stop }
          else (.ok oc.writes, { c with driver := c.driver.clearEvents.clearTxWrites, meter := c.meter.stop })) := by
    intro c hc
    have hm : c.meter = a.meter := hc.loaded.2.2.2.2.1
    have hbes : Beside S K w.driver e { a with driver := a.driver.clearEvents.clearTxWrites, meter := a.meter.stop }
        { c with driver := c.driver.clearEvents.clearTxWrites, meter := c.meter.stop } := by
      obtain ⟨f, rfl, hf⟩ := hc
      refine ⟨_, rfl, fun hs => ?_⟩
      have h := hf hs
      exact ⟨h.bypass, rfl, rfl, h.look, h.thr, h.okd, h.oke, h.keepd, h.keepe, h.restd, h.reste, h.pend⟩
    have hu : stampsUsed tx { c with driver := c.driver.clearEvents.clearTxWrites, meter := c.meter.stop } =
        stampsUsed tx { a with driver := a.driver.clearEvents.clearTxWrites, meter := a.meter.stop } := by
      unfold stampsUsed
      simp only [hm]
    rw [hu]
    split
    · have := chargeFee_both (H := H) (cfg := cfg) (tx := tx)
        (used := stampsUsed tx { a with driver := a.driver.clearEvents.clearTxWrites, meter := a.meter.stop }) (writes := oc.writes) ha hbes
      exact ⟨this.grow, this.same⟩
    · have := Both.pure (α := Except PyErr (Dict Str PyVal)) hbes (.ok oc.writes)
      exact ⟨this.grow, this.same⟩
  have hsa : SeenD K a.driver := by
    by_contra hx
    have hg := (fee (.unseen hx)).grow
    simp only at hok
    generalize (if tx.metered cfg then chargeFee H cfg tx (stampsUsed tx { a with driver := a.driver.clearEvents.clearTxWrites, meter := a.meter.stop }) oc.writes
            { a with driver := a.driver.clearEvents.clearTxWrites, meter := a.meter.stop }
          else (.ok oc.writes, { a with driver := a.driver.clearEvents.clearTxWrites, meter := a.meter.stop })) = q at hg hok
    obtain ⟨q, u⟩ := q
    cases q with
    | error x => cases hok
    | ok wr =>
      simp only at hok
      cases hok
      exact hx (hg.seen hseen)
  obtain ⟨hoc, f, hbe, hnf⟩ := ht.same hsa
  simp only at hoc hbe hnf
  subst hoc
  have hfee := fee ⟨f, hbe, fun _ => hnf⟩
  have hmm : b.meter = a.meter := by rw [hbe]
  have hu : stampsUsed tx { b with driver := b.driver.clearEvents.clearTxWrites, meter := b.meter.stop } =
      stampsUsed tx { a with driver := a.driver.clearEvents.clearTxWrites, meter := a.meter.stop } := by
    unfold stampsUsed
    simp only [hmm]
  simp only at hok ⊢
  generalize (if tx.metered cfg then chargeFee H cfg tx (stampsUsed tx { a with driver := a.driver.clearEvents.clearTxWrites, meter := a.meter.stop }) oc.writes
            { a with driver := a.driver.clearEvents.clearTxWrites, meter := a.meter.stop }
          else (.ok oc.writes, { a with driver := a.driver.clearEvents.clearTxWrites, meter := a.meter.stop })) = q at hfee hok
  generalize (if tx.metered cfg then chargeFee H cfg tx (stampsUsed tx { b with driver := b.driver.clearEvents.clearTxWrites, meter := b.meter.stop }) oc.writes
            { b with driver := b.driver.clearEvents.clearTxWrites, meter := b.meter.stop }
          else (.ok oc.writes, { b with driver := b.driver.clearEvents.clearTxWrites, meter := b.meter.stop })) = p at hfee ⊢
  rw [hu]
  obtain ⟨q, u⟩ := q
  obtain ⟨p, u'⟩ := p
  cases q with
  | error x => cases hok
  | ok wr =>
    simp only at hok
    cases hok
    obtain ⟨hqp, g, hue, hng⟩ := hfee.same hseen
    simp only at hqp hue hng
    subst hqp hue
    exact ⟨_, _, rfl, ⟨rfl, rfl, rfl, rfl⟩, hng⟩

theorem keys_isSome (m : Dict Str PyVal) (k : Str) : (Dict.get? m k).isSome = true ↔ k ∈ Dict.keys m := by
  exact Dict.get?_isSome_iff

/-- The relation between two starting points. -/
theorem Near.start {d e : Driver} (hb : d.bypass = false ∧ e.bypass = false) (hd : Spec.Readable d.disk) (he : Spec.Readable e.disk)
    (h : ∀ k, K k → e.find k = d.find k ∧ (S → Spec.stored e k = Spec.stored d k)) : Near S K d e d.clearTxWrites.clearEvents e.clearTxWrites.clearEvents := by
  have hst : ∀ (x : Driver) (k : Str), x.bypass = false → Spec.stored x k = through x.cache x.disk k := by
    intro x k hx
    unfold Spec.stored
    rw [Driver.find_through (d := { x with pendingWrites := [] }) hx]
    rfl
  have hok : ∀ (x : Driver), Spec.Readable x.disk → ∀ k, ∃ v, through x.cache x.disk k = .ok v := by
    intro x hx k
    unfold through
    split
    · exact hx _
    · exact ⟨_, rfl⟩
  refine ⟨hb, rfl, rfl, fun k hk => (h k hk).1, fun hS k hk => ?_, hok d hd, hok e he, ⟨rfl, rfl⟩, ⟨rfl, rfl⟩, fun _ _ => rfl, fun _ _ => rfl, id⟩
  have := (h k hk).2 hS
  rw [hst d k hb.1, hst e k hb.2] at this
  exact this

theorem find_eq_of {d e : Driver} (hd : d.bypass = false) (he : e.bypass = false) (hc : e.cache = d.cache) (hk : e.disk = d.disk) {k : Str}
    (hp : Dict.get? e.pendingWrites k = Dict.get? d.pendingWrites k) : e.find k = d.find k := by
  rw [Driver.find_through hd, Driver.find_through he, hc, hk]
  unfold dget
  rw [hp]

/-- The same, with all that is known of the two drivers in the end. -/
theorem depends_near {H : Host} {cfg : ExecCfg} {tx : Tx} {w w1 : World} {e : Driver} {o : Output} (hp : tx.code.All Spec.CacheBlind)
    (ha : tx.autoCommit = false) (hb : w.driver.bypass = false ∧ e.bypass = false)
    (hr : Spec.Readable w.driver.disk ∧ Spec.Readable e.disk) (hok : execute H cfg tx w = (.ok o, w1))
    (h : ∀ k, Spec.Reads o k → Spec.SameUnder w.driver e k) :
    ∃ o' w2, execute H cfg tx { w with driver := e } = (.ok o', w2) ∧ Spec.SameOutput o o' ∧
      Near True (Spec.Reads o) w.driver e w1.driver w2.driver := by
  obtain ⟨o', f, h1, h2, h3⟩ := execute_both (S := True) (code_all_mono (fun _ h => ⟨h, .inl trivial⟩) hp) ha
    (Near.start hb hr.1 hr.2 fun k hk => ⟨(h k hk).1, fun _ => (h k hk).2⟩) (fun k hk => (h k hk).1) hb (execute_ok hok).1 hok
    fun k hk => (keys_isSome _ _).1 hk
  exact ⟨o', _, h1, h2, h3⟩

/-- **C105.** A transaction (without `auto_commit`, whose code neither lists a hash nor changes a stored object in place)
depends on the stored state only through the keys it reports as read: in any other state that agrees on those keys it has
the same result, events, stamps and reported writes, it leaves the same under those keys, and it changes nothing else. The
records on disk can be read in both. -/
theorem C105_depends {H : Host} {cfg : ExecCfg} {tx : Tx} {w w1 : World} {e : Driver} {o : Output} (hp : tx.code.All Spec.CacheBlind)
    (ha : tx.autoCommit = false) (hb : w.driver.bypass = false ∧ e.bypass = false)
    (hr : Spec.Readable w.driver.disk ∧ Spec.Readable e.disk) (hok : execute H cfg tx w = (.ok o, w1))
    (h : ∀ k, Spec.Reads o k → Spec.SameUnder w.driver e k) :
    ∃ o' w2, execute H cfg tx { w with driver := e } = (.ok o', w2) ∧ Spec.SameOutput o o' ∧
      (∀ k, Spec.Reads o k → w2.driver.find k = w1.driver.find k) ∧
      (∀ k, ¬ Spec.Reads o k → w1.driver.find k = w.driver.find k ∧ w2.driver.find k = e.find k) ∧
      w1.driver.disk = w.driver.disk ∧ w2.driver.disk = e.disk := by
  obtain ⟨o', w2, h1, h2, hn⟩ := depends_near hp ha hb hr hok h
  exact ⟨o', w2, h1, h2, hn.look, fun k hk => ⟨find_eq_of hb.1 hn.bypass.1 hn.keepd.1 hn.keepd.2 (hn.restd k hk),
    find_eq_of hb.2 hn.bypass.2 hn.keepe.1 hn.keepe.2 (hn.reste k hk)⟩, hn.keepd.2, hn.keepe.2⟩

/-- What one transaction leaves for another one that did not read what it wrote. -/
theorem after_other {H : Host} {cfgA cfgB : ExecCfg} {A B : Tx} {w wA wB : World} {oA oB : Output} (hw : Spec.Served H w) (hs : w.stack = [])
    (hA : A.code.All Spec.CacheBlind ∧ A.autoCommit = false) (hB : B.code.All Spec.CacheBlind ∧ B.autoCommit = false)
    (hb : w.driver.bypass = false) (hr : Spec.Readable w.driver.disk)
    (ha : execute H cfgA A w = (.ok oA, wA)) (hbx : execute H cfgB B w = (.ok oB, wB)) (hsA : wA.stack = [])
    (hap : ∀ k, Spec.Reads oB k → Dict.get? wA.driver.pendingWrites k = Dict.get? w.driver.pendingWrites k) :
    ∃ oB' wAB, execute H cfgB B wA = (.ok oB', wAB) ∧ Spec.SameOutput oB oB' ∧
      wAB.driver.cache = w.driver.cache ∧ wAB.driver.disk = w.driver.disk ∧
      (∀ k, Spec.Reads oB k → Dict.get? wAB.driver.pendingWrites k = Dict.get? wB.driver.pendingWrites k) ∧
      (∀ k, ¬ Spec.Reads oB k → Dict.get? wAB.driver.pendingWrites k = Dict.get? wA.driver.pendingWrites k) ∧
      ∀ k, ¬ Spec.Reads oA k → Dict.get? wA.driver.pendingWrites k = Dict.get? w.driver.pendingWrites k := by
  obtain ⟨_, _, _, _, nA⟩ := depends_near (e := w.driver) hA.1 hA.2 ⟨hb, hb⟩ ⟨hr, hr⟩ ha fun k _ => ⟨rfl, rfl⟩
  have c1 := C32_restart hw hs cfgB B
  rw [hbx] at c1
  cases hf : execute H cfgB B (freshWorld w.driver) with
  | mk r1 w1 =>
    rw [hf] at c1
    obtain ⟨c1, c2⟩ := c1
    simp only at c1 c2
    subst c1
    have hst : ∀ x : Driver, x.bypass = false → x.cache = w.driver.cache → x.disk = w.driver.disk → ∀ k, Spec.stored x k = Spec.stored w.driver k :=
      fun x hx h1 h2 k => find_eq_of (d := { w.driver with pendingWrites := [] }) (e := { x with pendingWrites := [] }) hb hx h1 h2 rfl
    obtain ⟨oB', wAB, h1, h2, hn⟩ := depends_near (w := freshWorld w.driver) (e := wA.driver) hB.1 hB.2 ⟨hb, nA.bypass.1⟩
      ⟨hr, by rw [nA.keepd.2]; exact hr⟩ hf fun k hk => ⟨find_eq_of hb nA.bypass.1 nA.keepd.1 nA.keepd.2 (hap k hk), hst _ nA.bypass.1 nA.keepd.1 nA.keepd.2 k⟩
    have c3 := C32_restart (Spec.Served.tx hw ha) hsA cfgB B
    rw [show freshWorld wA.driver = { freshWorld w.driver with driver := wA.driver } from rfl, h1] at c3
    cases hg : execute H cfgB B wA with
    | mk r2 wAB2 =>
      rw [hg] at c3
      obtain ⟨c3, c4⟩ := c3
      simp only at c3 c4
      subst c3
      refine ⟨oB', wAB2, rfl, h2, ?_, ?_, fun k hk => ?_, fun k hk => ?_, nA.restd⟩
      · rw [c4, hn.keepe.1, nA.keepd.1]
      · rw [c4, hn.keepe.2, nA.keepd.2]
      · rw [c4, c2]; exact hn.pend hap k hk
      · rw [c4]; exact hn.reste k hk

/-- **C105.** Two transactions that, each run on its own, do not write what the other one reports as read, can be run in
either order: both have the same result, events, stamps and reported writes as on their own, and the state in the end is
the same. -/
theorem C105_commute {H : Host} {cfgA cfgB : ExecCfg} {A B : Tx} {w wA wB : World} {oA oB : Output} (hw : Spec.Served H w) (hs : w.stack = [])
    (hA : A.code.All Spec.CacheBlind ∧ A.autoCommit = false) (hB : B.code.All Spec.CacheBlind ∧ B.autoCommit = false)
    (hb : w.driver.bypass = false) (hr : Spec.Readable w.driver.disk)
    (ha : execute H cfgA A w = (.ok oA, wA)) (hbx : execute H cfgB B w = (.ok oB, wB)) (hsA : wA.stack = []) (hsB : wB.stack = [])
    (hAB : ∀ k, Spec.Reads oB k → Dict.get? wA.driver.pendingWrites k = Dict.get? w.driver.pendingWrites k)
    (hBA : ∀ k, Spec.Reads oA k → Dict.get? wB.driver.pendingWrites k = Dict.get? w.driver.pendingWrites k) :
    ∃ oA' oB' wAB wBA, execute H cfgB B wA = (.ok oB', wAB) ∧ execute H cfgA A wB = (.ok oA', wBA) ∧
      Spec.SameOutput oA oA' ∧ Spec.SameOutput oB oB' ∧
      (∀ k, Dict.get? wAB.driver.pendingWrites k = Dict.get? wBA.driver.pendingWrites k) ∧
      wAB.driver.cache = wBA.driver.cache ∧ wAB.driver.disk = wBA.driver.disk := by
  obtain ⟨oB', wAB, h1, h2, h3, h4, h5, h6, h7⟩ := after_other hw hs hA hB hb hr ha hbx hsA hAB
  obtain ⟨oA', wBA, g1, g2, g3, g4, g5, g6, g7⟩ := after_other hw hs hB hA hb hr hbx ha hsB hBA
  refine ⟨oA', oB', wAB, wBA, h1, g1, g2, h2, fun k => ?_, h3.trans g3.symm, h4.trans g4.symm⟩
  by_cases kB : Spec.Reads oB k
  · rw [h5 k kB]
    by_cases kA : Spec.Reads oA k
    · rw [g5 k kA, hAB k kB, hBA k kA]
    · rw [g6 k kA]
  · rw [h6 k kB]
    by_cases kA : Spec.Reads oA k
    · rw [g5 k kA]
    · rw [g6 k kA, h7 k kA, g7 k kB]

/-- What is not reported as written is not changed, whether the transaction succeeds or fails. -/
theorem unreported {H : Host} {cfg : ExecCfg} {tx : Tx} {w w1 : World} {o : Output} {k : Str} (ha : tx.autoCommit = false)
    (ht : tx.code.All (Action.Tracked k)) (hx : execute H cfg tx w = (.ok o, w1)) (h : Dict.get? o.writes k = none) :
    Dict.get? w1.driver.pendingWrites k = Dict.get? w.driver.pendingWrites k := by
  by_cases h0 : o.status = 0
  · by_contra hne
    obtain ⟨v, hv, _⟩ := (C35_writes (k := k) ha ht hx h0).1 hne
    rw [h] at hv
    cases hv
  · obtain ⟨_, h1, h2⟩ := C27_failed ha hx (by unfold Output.status at h0 ⊢; split <;> simp_all)
    cases hm : tx.metered cfg with
    | false => rw [h1 hm]
    | true =>
      obtain ⟨b, h3, h4⟩ := h2 hm
      rw [h4, Dict.get?_set]
      rw [h3] at h
      simp only [Dict.get?] at h
      split
      · rename_i e
        rw [if_pos e] at h
        cases h
      · rfl

/-- **C105**, in terms of what `execute` returns: two transactions, successful or not, neither of which reports as
written what the other one reports as read, can be run in either order. (Code that is not the submission contract's.) -/
theorem C105_disjoint {H : Host} {cfgA cfgB : ExecCfg} {A B : Tx} {w wA wB : World} {oA oB : Output} (hw : Spec.Served H w) (hs : w.stack = [])
    (hA : A.code.All Spec.CacheBlind ∧ A.autoCommit = false) (hB : B.code.All Spec.CacheBlind ∧ B.autoCommit = false)
    (htA : ∀ k, A.code.All (Action.Tracked k)) (htB : ∀ k, B.code.All (Action.Tracked k))
    (hb : w.driver.bypass = false) (hr : Spec.Readable w.driver.disk)
    (ha : execute H cfgA A w = (.ok oA, wA)) (hbx : execute H cfgB B w = (.ok oB, wB)) (hsA : wA.stack = []) (hsB : wB.stack = [])
    (hAB : ∀ k, Spec.Reads oB k → Dict.get? oA.writes k = none) (hBA : ∀ k, Spec.Reads oA k → Dict.get? oB.writes k = none) :
    ∃ oA' oB' wAB wBA, execute H cfgB B wA = (.ok oB', wAB) ∧ execute H cfgA A wB = (.ok oA', wBA) ∧
      Spec.SameOutput oA oA' ∧ Spec.SameOutput oB oB' ∧ ∀ k, wAB.driver.find k = wBA.driver.find k := by
  have hw1 : ∀ k, Spec.Reads oB k → Dict.get? wA.driver.pendingWrites k = Dict.get? w.driver.pendingWrites k :=
    fun k hk => unreported hA.2 (htA k) ha (hAB k hk)
  have hw2 : ∀ k, Spec.Reads oA k → Dict.get? wB.driver.pendingWrites k = Dict.get? w.driver.pendingWrites k :=
    fun k hk => unreported hB.2 (htB k) hbx (hBA k hk)
  obtain ⟨_, _, _, _, nA⟩ := depends_near (e := w.driver) hA.1 hA.2 ⟨hb, hb⟩ ⟨hr, hr⟩ ha fun k _ => ⟨rfl, rfl⟩
  obtain ⟨_, _, _, _, nB⟩ := depends_near (e := w.driver) hB.1 hB.2 ⟨hb, hb⟩ ⟨hr, hr⟩ hbx fun k _ => ⟨rfl, rfl⟩
  obtain ⟨oA', oB', wAB, wBA, h1, h2, h3, h4, h5, h6, h7⟩ := C105_commute hw hs hA hB hb hr ha hbx hsA hsB hw1 hw2
  have b1 : wAB.driver.bypass = false := by
    obtain ⟨_, _, _, _, n⟩ := depends_near (e := wA.driver) hB.1 hB.2 ⟨nA.bypass.1, nA.bypass.1⟩ ⟨by rw [nA.keepd.2]; exact hr, by rw [nA.keepd.2]; exact hr⟩ h1
      fun k _ => ⟨rfl, rfl⟩
    exact n.bypass.1
  have b2 : wBA.driver.bypass = false := by
    obtain ⟨_, _, _, _, n⟩ := depends_near (e := wB.driver) hA.1 hA.2 ⟨nB.bypass.1, nB.bypass.1⟩ ⟨by rw [nB.keepd.2]; exact hr, by rw [nB.keepd.2]; exact hr⟩ h2
      fun k _ => ⟨rfl, rfl⟩
    exact n.bypass.1
  exact ⟨oA', oB', wAB, wBA, h1, h2, h3, h4, fun k => find_eq_of b2 b1 h6 h7 (h5 k)⟩

namespace ReadsDemo

/-- `con_a.h`. -/
def h : HashVar := .make Demo.conA (py! "h")

/-- `con_a.x.set(7)`. -/
def putX : Tx := { Demo.tx (Demo.step (.varSet Demo.x (.int 7)) (.ret .none)) with metering := some false }

/-- `con_a.h['k'] = 3; return con_a.h['k']`. -/
def putH : Tx :=
  { Demo.tx (Demo.step (.hashSet h (.one (.str (py! "k"))) (.int 3)) (Demo.answer (.hashGet h (.one (.str (py! "k")))))) with metering := some false }

/-- `return con_a.h.all()`. -/
def listH : Tx := { Demo.tx (Demo.answer (.hashAll h [])) with metering := some false }

theorem putX_all {P : Action → Prop} (hp : ∀ a, (∀ key v, a ≠ .rawSet key v) → (∀ h args, a ≠ .hashClear h args) → (∀ k v i t, a ≠ .mutate k v i t) →
    (∀ h args, a ≠ .hashAll h args) → (∀ h args, a ≠ .hashItems h args) → P a) : putX.code.All P ∧ putH.code.All P := by
  have p1 : ∀ x v, P (.varSet x v) := fun x v => hp _ (by simp) (by simp) (by simp) (by simp) (by simp)
  have p2 : ∀ x i v, P (.hashSet x i v) := fun x i v => hp _ (by simp) (by simp) (by simp) (by simp) (by simp)
  have p3 : ∀ x i, P (.hashGet x i) := fun x i => hp _ (by simp) (by simp) (by simp) (by simp) (by simp)
  refine ⟨⟨trivial, fun fn hf kw => ?_⟩, ⟨trivial, fun fn hf kw => ?_⟩⟩
  · cases hf
    exact Demo.step_all (p1 _ _) trivial
  · cases hf
    exact Demo.step_all (p2 _ _ _) ⟨p3 _ _, fun r => by cases r <;> exact trivial⟩

theorem ran (t : Tx) {ks ws : List Str} (h : (execute Demo.host {} t Demo.w0).1.map (fun o => (o.status, Dict.keys o.reads, Dict.keys o.writes)) = .ok (0, ks, ws)) :
    ∃ o w1, execute Demo.host {} t Demo.w0 = (.ok o, w1) ∧ w1 = (execute Demo.host {} t Demo.w0).2 ∧ o.status = 0 ∧ Dict.keys o.reads = ks ∧ Dict.keys o.writes = ws := by
  cases he : execute Demo.host {} t Demo.w0 with
  | mk r w1 =>
    rw [he] at h
    cases r with
    | error e => cases h
    | ok o =>
      have h2 := Except.ok.inj h
      simp only [Prod.mk.injEq] at h2
      exact ⟨o, w1, rfl, rfl, h2.1, h2.2.1, h2.2.2⟩

/-- What the two report. -/
theorem ranX : (execute Demo.host {} putX Demo.w0).1.map (fun o => (o.status, Dict.keys o.reads, Dict.keys o.writes)) =
    .ok (0, [py! "con_a.__owner__", py! "con_a.__code__", py! "con_a.__compiled__", py! "con_a.x"], [py! "con_a.x"]) ∧
    (execute Demo.host {} putX Demo.w0).2.stack.isEmpty = true := by decide +kernel

theorem ranH : (execute Demo.host {} putH Demo.w0).1.map (fun o => (o.status, Dict.keys o.reads, Dict.keys o.writes)) =
    .ok (0, [py! "con_a.__owner__", py! "con_a.__code__", py! "con_a.__compiled__", py! "con_a.h:k"], [py! "con_a.h:k"]) ∧
    (execute Demo.host {} putH Demo.w0).2.stack.isEmpty = true := by decide +kernel

theorem empty_readable : Spec.Readable ([] : Disk) := fun _ => ⟨.none, rfl⟩

/-- They can be run in either order. -/
example : ∃ oA' oB' wAB wBA, execute Demo.host {} putH (execute Demo.host {} putX Demo.w0).2 = (.ok oB', wAB) ∧
    execute Demo.host {} putX (execute Demo.host {} putH Demo.w0).2 = (.ok oA', wBA) ∧ ∀ k, wAB.driver.find k = wBA.driver.find k := by
  obtain ⟨oA, wA, a1, a2, a3, a4, a5⟩ := ran putX ranX.1
  obtain ⟨oB, wB, b1, b2, b3, b4, b5⟩ := ran putH ranH.1
  have hcb := putX_all (P := Spec.CacheBlind) fun a _ h2 h3 h4 h5 => by
    cases a <;> first | trivial | exact absurd rfl (h2 _ _) | exact absurd rfl (h3 _ _ _ _) | exact absurd rfl (h4 _ _) | exact absurd rfl (h5 _ _)
  have htr : ∀ k, putX.code.All (Action.Tracked k) ∧ putH.code.All (Action.Tracked k) := fun k => putX_all fun a h1 h2 h3 _ _ => by
    cases a <;> first | trivial | exact absurd rfl (h1 _ _) | exact absurd rfl (h2 _ _) | exact absurd rfl (h3 _ _ _ _)
  have sA : wA.stack = [] := by rw [a2]; exact List.isEmpty_iff.1 ranX.2
  have sB : wB.stack = [] := by rw [b2]; exact List.isEmpty_iff.1 ranH.2
  obtain ⟨oA', oB', wAB, wBA, h1, h2, _, _, h5⟩ := C105_disjoint (H := Demo.host) (w := Demo.w0) (.start _) rfl ⟨hcb.1, rfl⟩ ⟨hcb.2, rfl⟩
    (fun k => (htr k).1) (fun k => (htr k).2) rfl empty_readable a1 b1 sA sB
    (fun k hk => by
      unfold Spec.Reads at hk
      rw [b4] at hk
      rw [Dict.get?_eq_none_iff, a5]
      simp only [List.mem_cons, List.not_mem_nil, or_false] at hk
      rcases hk with rfl | rfl | rfl | rfl <;> decide)
    (fun k hk => by
      unfold Spec.Reads at hk
      rw [a4] at hk
      rw [Dict.get?_eq_none_iff, b5]
      simp only [List.mem_cons, List.not_mem_nil, or_false] at hk
      rcases hk with rfl | rfl | rfl | rfl <;> decide)
  exact ⟨oA', oB', wAB, wBA, by rw [← a2]; exact h1, by rw [← b2]; exact h2, h5⟩

end ReadsDemo

open ReadsDemo in
/-- **C105 is false with listings**: `h.all()` shows the entry `h['k']` without reporting it as read; a state that only
differs there gives another result. -/
theorem C105_refuted_listing :
    ∃ (e : Driver) (ks : List Str), (∀ k ∈ ks, e.find k = Demo.w0.driver.find k ∧ Spec.stored e k = Spec.stored Demo.w0.driver k) ∧
      (execute Demo.host {} listH Demo.w0).1.map (fun o => (o.result, Dict.keys o.reads)) = .ok (.ok (.list []), ks) ∧
      (execute Demo.host {} listH { Demo.w0 with driver := e }).1.map (fun o => o.result) = .ok (.ok (.list [.int 3])) :=
  ⟨{ Demo.w0.driver with pendingWrites := Demo.w0.driver.pendingWrites ++ [(py! "con_a.h:k", .int 3)] },
    [py! "con_a.__owner__", py! "con_a.__code__", py! "con_a.__compiled__"], by decide +kernel, by decide +kernel, by decide +kernel⟩

end Verif
