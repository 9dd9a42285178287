import Verif.Proofs.Replica
import Verif.Props.Isolation
/-! # Blocks, evictions and restarts of two nodes that differ only in what they have cached -/
namespace Verif

theorem stable_setValueOps {v : PyVal} (hv : Spec.Stable v) (disk : Disk) (l : Loc) (b : Option Int) :
    ∃ ops, Disk.setValueOps l v b = .ok ops ∧ (disk.applyAll ops).get l = .ok v := by
  by_cases hn : v = .none
  · subst hn
    refine ⟨_, rfl, ?_⟩
    unfold Disk.get
    rw [Disk.attrs_setOps]
  · rcases hv with rfl | ⟨s, h1, h2⟩
    · exact absurd rfl hn
    · have : Disk.setValueOps l v b = .ok (Disk.setOps l (some s) (b.getD (-1))) := by
        unfold Disk.setValueOps
        cases v <;> first | exact absurd rfl hn | (simp only [h1]; rfl)
      refine ⟨_, this, ?_⟩
      unfold Disk.get
      rw [Disk.attrs_setOps]
      exact h2

theorem dget_set (c : Dict Str PyVal) (k k' : Str) (v : PyVal) :
    dget (Dict.set c k v) k' = if k' = k then v else dget c k' := by
  unfold dget
  by_cases h : k' = k
  · subst h; simp
  · rw [if_neg h, Dict.get?_set_ne _ _ (fun e => h e.symm)]

theorem Coh.put {c : Dict Str PyVal} {disk : Disk} (h : Coh c disk) {k : Str} {v : PyVal} {ops : List DiskOp}
    (hk : Spec.PlainKey k) (hl : ∀ op ∈ ops, op.loc = locOf k) (hg : (disk.applyAll ops).get (locOf k) = .ok v) :
    Coh (Dict.set c k v) (disk.applyAll ops) := by
  intro k' hn
  rw [dget_set] at hn ⊢
  by_cases he : k' = k
  · subst he
    rw [if_pos rfl]
    exact ⟨hk, hg⟩
  · rw [if_neg he] at hn ⊢
    obtain ⟨h1, h2⟩ := h k' hn
    refine ⟨h1, ?_⟩
    rw [← h2]
    refine Disk.get_congr (Disk.attrs_applyAll_ne _ _ fun op hop => ?_)
    rw [hl op hop]
    exact fun hx => he (locOf_inj h1 hk hx.symm)

/-- The writes of a block reach the disk, and the caches stay right. -/
theorem applyWrites_coh (nanos : Int) (f : Str → PyVal) : ∀ (ps : List (Str × PyVal)) (c c' : Dict Str PyVal) (disk : Disk),
    (∀ p ∈ ps, Spec.PlainKey p.1 ∧ Spec.Stable p.2) → Coh c disk → Coh c' disk →
    ∃ disk', Driver.applyWrites disk nanos (ps.map fun kv => (kv.1, f kv.1, kv.2)) = (.ok (), disk') ∧
      Coh (ps.foldl (fun c kv => Dict.set c kv.1 kv.2) c) disk' ∧ Coh (ps.foldl (fun c kv => Dict.set c kv.1 kv.2) c') disk'
  | [], c, c', disk, _, h, h' => ⟨disk, rfl, h, h'⟩
  | (k, v) :: ps, c, c', disk, hp, h, h' => by
    obtain ⟨hk, hv⟩ := hp (k, v) (by simp)
    obtain ⟨ops, h1, h2⟩ := stable_setValueOps hv disk (locOf k) (some nanos)
    have hl := fun op hop => Disk.setValueOps_loc h1 op hop
    obtain ⟨disk', i1, i2, i3⟩ := applyWrites_coh nanos f ps (Dict.set c k v) (Dict.set c' k v) (disk.applyAll ops)
      (fun p hp' => hp p (by simp [hp'])) (h.put hk hl h2) (h'.put hk hl h2)
    refine ⟨disk', ?_, i2, i3⟩
    simp only [List.map_cons, Driver.applyWrites, h1, i1]

theorem AlikeD.hardApply {d d' : Driver} (h : AlikeD d d') (n : Int)
    (hp : ∀ p ∈ d.pendingWrites, Spec.PlainKey p.1 ∧ Spec.Stable p.2) :
    (d.hardApply n).1 = (d'.hardApply n).1 ∧ AlikeD (d.hardApply n).2 (d'.hardApply n).2 := by
  obtain ⟨c, rfl, hb, hd, h1, h2⟩ := h
  obtain ⟨disk', i1, i2, i3⟩ := applyWrites_coh n (dget d.pendingReads) d.pendingWrites d.cache c d.disk hp h1 h2
  rw [hardApply_eq n hd i1, hardApply_eq (d := { d with cache := c }) n hd i1]
  exact ⟨rfl, _, rfl, hb, rfl, i2, i3⟩

theorem coh_nil (disk : Disk) : Coh [] disk := fun k h => by cases h

theorem commitLoop_stable : ∀ (ps : List (Str × PyVal)) (disk : Disk), (∀ p ∈ ps, Spec.Stable p.2) →
    ∃ disk', Driver.commitLoop disk ps = (.ok (), disk')
  | [], disk, _ => ⟨disk, rfl⟩
  | (k, v) :: ps, disk, hp => by
    obtain ⟨ops, h⟩ : ∃ ops, Driver.commitKeyOps disk k v = .ok ops := by
      obtain ⟨ops, h1, _⟩ := stable_setValueOps (hp (k, v) (by simp)) disk (locOf k) none
      unfold Driver.commitKeyOps
      cases v <;> first | exact ⟨_, rfl⟩ | exact ⟨ops, h1⟩
    obtain ⟨disk', i⟩ := commitLoop_stable ps (disk.applyAll ops) fun p hp' => hp p (by simp [hp'])
    exact ⟨disk', by simp only [Driver.commitLoop, h, i]⟩

theorem AlikeD.commit {d d' : Driver} (h : AlikeD d d') (hp : ∀ p ∈ d.pendingWrites, Spec.PlainKey p.1 ∧ Spec.Stable p.2) :
    d.commit.1 = d'.commit.1 ∧ AlikeD d.commit.2 d'.commit.2 := by
  obtain ⟨c, rfl, hb, hd, h1, h2⟩ := h
  obtain ⟨disk', hl⟩ := commitLoop_stable d.pendingWrites d.disk fun p h => (hp p h).2
  unfold Driver.commit
  simp only [hl]
  exact ⟨trivial, [], rfl, hb, hd, coh_nil _, coh_nil _⟩

/-- Two processes between two steps: both are at rest, and their drivers differ only in the cache and in the
records that every transaction starts by clearing. -/
structure Twins (a b : World) : Prop where
  restA : a.meter = {} ∧ a.seeded = false ∧ a.env = [] ∧ a.loaded = [] ∧ a.restricted = false ∧ a.logs = [] ∧ a.stack = []
  restB : b.meter = {} ∧ b.seeded = false ∧ b.env = [] ∧ b.loaded = [] ∧ b.restricted = false ∧ b.logs = [] ∧ b.stack = []
  driver : AlikeD a.driver.clearTxWrites.clearEvents b.driver.clearTxWrites.clearEvents

theorem atRest {w : World}
    (h : w.meter = {} ∧ w.seeded = false ∧ w.env = [] ∧ w.loaded = [] ∧ w.restricted = false ∧ w.logs = [] ∧ w.stack = []) :
    SameButBase (freshWorld w.driver) w := by
  obtain ⟨h1, h2, h3, h4, h5, h6, hs⟩ := h
  refine ⟨w.rng, w.hostCalls, w.base, ?_, fun hx => by cases hx⟩
  obtain ⟨driver, meter, base, stack, seeded, rng, env, loaded, restricted, logs, calls⟩ := w
  simp only at h1 h2 h3 h4 h5 h6 hs
  subst h1 h2 h3 h4 h5 h6 hs
  rfl

theorem AlikeD.cleared {d d' : Driver} (h : AlikeD d d') : AlikeD d.clearTxWrites.clearEvents d'.clearTxWrites.clearEvents := by
  obtain ⟨c, rfl, h⟩ := h
  exact ⟨c, rfl, h⟩

theorem Twins.tx {a b : World} (h : Twins a b) {H : Host} {cfg : ExecCfg} {t : Tx} (hp : t.code.All Spec.CacheBlind)
    (hc : t.autoCommit = false) {o : Output} (ho : (execute H cfg t a).1 = .ok o) (hs : (execute H cfg t a).2.stack = []) :
    (execute H cfg t a).1 = (execute H cfg t b).1 ∧ Twins (execute H cfg t a).2 (execute H cfg t b).2 := by
  have ra := execute_sameRun (H := H) (cfg := cfg) (tx := t) (atRest h.restA)
  have rb := execute_sameRun (H := H) (cfg := cfg) (tx := t) (atRest h.restB)
  have rab : AlikeRun (execute H cfg t (freshWorld a.driver)) (execute H cfg t (freshWorld b.driver)) :=
    execute_alike (w := freshWorld a.driver.clearTxWrites.clearEvents) (w' := freshWorld b.driver.clearTxWrites.clearEvents)
      hp hc ⟨_, rfl, h.driver⟩
  have e : (execute H cfg t a).1 = (execute H cfg t b).1 := ra.1.symm.trans (rab.1.trans rb.1)
  refine ⟨e, ?_⟩
  cases ha : execute H cfg t a with
  | mk r wa =>
    cases hb : execute H cfg t b with
    | mk s wb =>
      rw [ha] at ra ho e hs
      rw [hb] at rb e
      simp only at ho e hs ra rb
      subst ho
      subst e
      obtain ⟨_, _, _, _, ea, _⟩ := ra
      obtain ⟨_, _, _, _, eb, _⟩ := rb
      obtain ⟨_, d', ed, hd⟩ := rab
      have hsb : wb.stack = [] := by
        simp only at ea eb
        rw [eb, ed]
        rw [ea] at hs
        exact hs
      obtain ⟨a1, a2, a3, a4, a5, a6⟩ := C32_reset ha
      obtain ⟨b1, b2, b3, b4, b5, b6⟩ := C32_reset hb
      refine ⟨⟨a1, a2, a3, a4, a5, a6, hs⟩, ⟨b1, b2, b3, b4, b5, b6, hsb⟩, ?_⟩
      simp only at ea eb ⊢
      rw [ea, eb, ed]
      exact hd.cleared

theorem Twins.withDriver {a b : World} (h : Twins a b) {d d' : Driver}
    (hd : AlikeD d.clearTxWrites.clearEvents d'.clearTxWrites.clearEvents) :
    Twins { a with driver := d } { b with driver := d' } := ⟨h.restA, h.restB, hd⟩

theorem hardApply_clear (d : Driver) (n : Int) :
    (d.clearTxWrites.clearEvents.hardApply n).1 = (d.hardApply n).1 ∧
    (d.clearTxWrites.clearEvents.hardApply n).2.clearTxWrites.clearEvents = (d.hardApply n).2.clearTxWrites.clearEvents := by
  unfold Driver.hardApply
  simp only [Driver.clearTxWrites, Driver.clearEvents]
  split
  · exact ⟨rfl, rfl⟩
  · exact ⟨rfl, rfl⟩

theorem commit_clear (d : Driver) :
    (d.clearTxWrites.clearEvents.commit).1 = d.commit.1 ∧
    (d.clearTxWrites.clearEvents.commit).2.clearTxWrites.clearEvents = d.commit.2.clearTxWrites.clearEvents := by
  unfold Driver.commit
  simp only [Driver.clearTxWrites, Driver.clearEvents]
  split
  · exact ⟨rfl, rfl⟩
  · exact ⟨rfl, rfl⟩

theorem Twins.step {H : Host} {a b : World} (h : Twins a b) {s : Spec.NodeOp} {ss : List Spec.NodeOp}
    (hs : Spec.Steady H a (s :: ss)) :
    (s.run H a).1 = (s.run H b).1 ∧ Twins (s.run H a).2 (s.run H b).2 := by
  obtain ⟨hs, _⟩ := hs
  cases s with
  | tx cfg t =>
    obtain ⟨h1, h2, ⟨o, h3⟩, h4⟩ := hs
    obtain ⟨e, ht⟩ := h.tx h2 h1 h3 h4
    exact ⟨by simp only [Spec.NodeOp.run]; rw [e], ht⟩
  | apply n =>
    obtain ⟨e, hd⟩ := h.driver.hardApply n hs
    rw [(hardApply_clear a.driver n).1, (hardApply_clear b.driver n).1] at e
    have hd := hd.cleared
    rw [(hardApply_clear a.driver n).2, (hardApply_clear b.driver n).2] at hd
    exact ⟨by simp only [Spec.NodeOp.run]; rw [e], h.withDriver hd⟩
  | commit =>
    obtain ⟨e, hd⟩ := h.driver.commit hs
    rw [(commit_clear a.driver).1, (commit_clear b.driver).1] at e
    have hd := hd.cleared
    rw [(commit_clear a.driver).2, (commit_clear b.driver).2] at hd
    exact ⟨by simp only [Spec.NodeOp.run]; rw [e], h.withDriver hd⟩
  | rollback =>
    refine ⟨rfl, h.withDriver ?_⟩
    obtain ⟨c, hb, h1, h2, h3, h4⟩ := h.driver
    have e1 := congrArg Driver.disk hb
    have e2 := congrArg Driver.bypass hb
    refine ⟨[], ?_, h1, rfl, coh_nil _, coh_nil _⟩
    simp only [Driver.clearTxWrites, Driver.clearEvents, Driver.rollback] at e1 e2 ⊢
    rw [e1, e2]
  | flush =>
    refine ⟨rfl, h.withDriver ?_⟩
    obtain ⟨c, hb, h1, h2, h3, h4⟩ := h.driver
    have e1 := congrArg Driver.disk hb
    have e2 := congrArg Driver.bypass hb
    refine ⟨[], ?_, h1, rfl, coh_nil _, coh_nil _⟩
    simp only [Driver.clearTxWrites, Driver.clearEvents, Driver.flushCache] at e1 e2 ⊢
    rw [e1, e2]

theorem Twins.evict {a b : World} (h : Twins a b) (keep : Str → Bool) : Twins a { b with driver := b.driver.evict keep } := by
  refine ⟨h.restA, h.restB, ?_⟩
  obtain ⟨c, hb, h1, h2, h3, h4⟩ := h.driver
  refine ⟨c.filter fun kv => keep kv.1, ?_, h1, h2, h3, ?_⟩
  · have e : b.driver.cache = c := congrArg Driver.cache hb
    rw [← e]
    exact congrArg (fun d : Driver => { d with cache := b.driver.cache.filter fun kv => keep kv.1 }) hb
  · intro k hn
    have hx : dget (c.filter fun kv => keep kv.1) k = dget c k := by
      unfold dget at hn ⊢
      cases hg : Dict.get? (c.filter fun kv => keep kv.1) k with
      | none => rw [hg] at hn; cases hn
      | some v => rw [get?_filter_key c keep k hg]
    rw [hx] at hn ⊢
    exact h4 k hn

theorem Twins.restart {a b : World} (h : Twins a b) (h1 : b.driver.pendingWrites = []) (h2 : b.driver.pendingReads = []) :
    Twins a { driver := .open b.driver.disk } := by
  refine ⟨h.restA, ⟨rfl, rfl, rfl, rfl, rfl, rfl, rfl⟩, ?_⟩
  obtain ⟨c, hb, g1, g2, g3, g4⟩ := h.driver
  refine ⟨[], ?_, g1, g2, g3, coh_nil _⟩
  have e1 := congrArg Driver.disk hb
  have e2 := congrArg Driver.bypass hb
  have e3 := congrArg Driver.pendingWrites hb
  have e4 := congrArg Driver.pendingReads hb
  simp only [Driver.clearTxWrites, Driver.clearEvents, Driver.open] at e1 e2 e3 e4 g1 g2 ⊢
  rw [e1, ← e3, h1, ← e4, h2, g1, g2]

end Verif
