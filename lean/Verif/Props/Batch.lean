import Verif.Spec.Batch
import Verif.Props.Reads
import Verif.Props.Guard
import Verif.Props.Unmetered
import Verif.Props.AnyOrder
/-!
# Property C108: when pending work is written to disk, and when a node restarts, does not matter
-/
namespace Verif
open Spec

theorem Prog.all_both {P Q : Action → Prop} : ∀ p : Prog, p.All P → p.All Q → p.All (fun a => P a ∧ Q a)
  | .ret _, _, _ => trivial
  | .raise _, _, _ => trivial
  | .act _ k, hp, hq => ⟨⟨hp.1, hq.1⟩, fun r => Prog.all_both (k r) (hp.2 r) (hq.2 r)⟩
  | .call _ b k, hp, hq => ⟨Prog.all_both b hp.1 hq.1, fun r => Prog.all_both (k r) (hp.2 r) (hq.2 r)⟩
  | .load _ _ b k, hp, hq => ⟨Prog.all_both b hp.1 hq.1, fun r => Prog.all_both (k r) (hp.2 r) (hq.2 r)⟩

theorem code_all_both {P Q : Action → Prop} {c : Code} (hp : c.All P) (hq : c.All Q) : c.All (fun a => P a ∧ Q a) :=
  ⟨Prog.all_both _ hp.1 hq.1, fun fn hf kw => Prog.all_both _ (hp.2 fn hf kw) (hq.2 fn hf kw)⟩

theorem commitLoop_readable : ∀ (ps : List (Str × PyVal)) {disk : Disk}, (∀ p ∈ ps, Stable p.2) → Readable disk →
    Readable (Driver.commitLoop disk ps).2
  | [], _, _, h => h
  | (k, v) :: ps, disk, hp, h => by
    obtain ⟨ops, h1, h2⟩ : ∃ ops, Driver.commitKeyOps disk k v = .ok ops ∧ (disk.applyAll ops).get (locOf k) = .ok v := by
      by_cases hn : v = .none
      · subst hn
        refine ⟨_, rfl, ?_⟩
        unfold Disk.get; rw [Disk.attrs_deleteOps]
      · obtain ⟨ops, h1, h2⟩ := stable_setValueOps (hp (k, v) (by simp)) disk (locOf k) none
        refine ⟨ops, ?_, h2⟩
        cases v <;> first | exact absurd rfl hn | exact h1
    unfold Driver.commitLoop
    rw [h1]
    refine commitLoop_readable ps (fun p hp' => hp p (by simp [hp'])) fun l => ?_
    by_cases hl : locOf k = l
    · subst hl; exact ⟨v, h2⟩
    · obtain ⟨x, hx⟩ := h l
      refine ⟨x, Eq.trans (Disk.get_congr (Disk.attrs_applyAll_ne _ _ fun op hop => ?_)) hx⟩
      rw [Driver.commitKeyOps_loc h1 op hop]
      exact hl

theorem applyWrites_readable (nanos : Int) (f : Str → PyVal) : ∀ (ps : List (Str × PyVal)) {disk : Disk}, (∀ p ∈ ps, Stable p.2) →
    Readable disk → Readable (Driver.applyWrites disk nanos (ps.map fun kv => (kv.1, f kv.1, kv.2))).2
  | [], _, _, h => h
  | (k, v) :: ps, disk, hp, h => by
    obtain ⟨ops, h1, h2⟩ := stable_setValueOps (hp (k, v) (by simp)) disk (locOf k) (some nanos)
    rw [List.map_cons]
    unfold Driver.applyWrites
    rw [h1]
    refine applyWrites_readable nanos f ps (fun p hp' => hp p (by simp [hp'])) fun l => ?_
    by_cases hl : locOf k = l
    · subst hl; exact ⟨v, h2⟩
    · obtain ⟨x, hx⟩ := h l
      refine ⟨x, Eq.trans (Disk.get_congr (Disk.attrs_applyAll_ne _ _ fun op hop => ?_)) hx⟩
      rw [Disk.setValueOps_loc h1 op hop]
      exact hl

/-- What holds of the driver all along. -/
structure Fit (d : Driver) : Prop where
  bypass : d.bypass = false
  deltas : d.pendingDeltas = []
  wf : Dict.WF d.pendingWrites
  readable : Readable d.disk
  coh : ∀ k, PlainKey k → (dget d.cache k).isNone = false → d.disk.get (locOf k) = .ok (dget d.cache k)

theorem Fit.find {d : Driver} (h : Fit d) {k : Str} (hk : PlainKey k) :
    d.find k = if (dget d.pendingWrites k).isNone then d.disk.get (locOf k) else .ok (dget d.pendingWrites k) := by
  rw [Driver.find_through h.bypass]
  have : through d.cache d.disk k = d.disk.get (locOf k) := by
    unfold through
    by_cases hn : (dget d.cache k).isNone = true
    · rw [if_pos hn]
    · rw [if_neg hn, h.coh k hk (by simpa using hn)]
  rw [this]

/-- The disk after writing shows what was found before. -/
theorem Fit.shows {d : Driver} (h : Fit d) (hs : Settleable d) {disk' : Disk}
    (h2 : ∀ k, PlainKey k → Dict.get? d.pendingWrites k = none → disk'.get (locOf k) = d.disk.get (locOf k))
    (h3 : ∀ k v, Dict.get? d.pendingWrites k = some v → disk'.get (locOf k) = .ok v) {k : Str} (hk : PlainKey k) :
    disk'.get (locOf k) = d.find k := by
  rw [h.find hk]
  cases hg : Dict.get? d.pendingWrites k with
  | none =>
    have : dget d.pendingWrites k = .none := by unfold dget; rw [hg]; rfl
    rw [this, h2 k hk hg]; rfl
  | some v =>
    have hd : dget d.pendingWrites k = v := by unfold dget; rw [hg]; rfl
    have hn := (hs _ (Dict.mem_of_get? hg)).2.2
    rw [hd, h3 k v hg, if_neg (by rw [hn]; decide)]

theorem Fit.commit {d : Driver} (h : Fit d) (hs : Settleable d) :
    Fit d.commit.2 ∧ ∀ k, PlainKey k → d.commit.2.find k = d.find k := by
  obtain ⟨disk', h1, h2, h3⟩ := commitLoop_gets d.pendingWrites d.disk (fun p hp => ⟨(hs p hp).1, (hs p hp).2.1⟩) h.wf
  have hr := commitLoop_readable d.pendingWrites (fun p hp => (hs p hp).2.1) h.readable
  rw [h1] at hr
  have e : d.commit.2 = { d with disk := disk', cache := [], pendingWrites := [], pendingReads := [] } := by
    unfold Driver.commit; rw [h1]
  rw [e]
  have hf : Fit { d with disk := disk', cache := [], pendingWrites := [], pendingReads := [] } :=
    ⟨h.bypass, h.deltas, List.nodup_nil, hr, fun _ _ hn => by cases hn⟩
  refine ⟨hf, fun k hk => ?_⟩
  rw [hf.find hk]
  exact h.shows hs h2 h3 hk

theorem Fit.apply {d : Driver} (h : Fit d) (hs : Settleable d) (nanos : Int) :
    Fit (d.hardApply nanos).2 ∧ ∀ k, PlainKey k → (d.hardApply nanos).2.find k = d.find k := by
  obtain ⟨disk', h1, h2, h3⟩ := applyWrites_gets nanos (dget d.pendingReads) d.pendingWrites d.disk
    (fun p hp => ⟨(hs p hp).1, (hs p hp).2.1⟩) h.wf
  have hr := applyWrites_readable nanos (dget d.pendingReads) d.pendingWrites (fun p hp => (hs p hp).2.1) h.readable
  rw [h1] at hr
  rw [hardApply_eq nanos h.deltas h1]
  have hf : Fit { d with
      disk := disk', cache := d.pendingWrites.foldl (fun c kv => Dict.set c kv.1 kv.2) d.cache,
      pendingReads := [], pendingWrites := [], pendingDeltas := [] } := by
    refine ⟨h.bypass, rfl, List.nodup_nil, hr, fun k hk hn => ?_⟩
    have e := get?_foldl_set d.pendingWrites h.wf d.cache k
    unfold dget at hn ⊢
    dsimp only at hn ⊢
    rw [e] at hn ⊢
    cases hp : Dict.get? d.pendingWrites k with
    | none =>
      rw [hp] at hn
      rw [h2 k hk hp]
      exact h.coh k hk hn
    | some v => exact h3 k v hp
  refine ⟨hf, fun k hk => ?_⟩
  rw [hf.find hk]
  exact h.shows hs h2 h3 hk

theorem Fit.evict {d : Driver} (h : Fit d) (keep : Str → Bool) :
    Fit (d.evict keep) ∧ ∀ k, PlainKey k → (d.evict keep).find k = d.find k := by
  have hf : Fit (d.evict keep) := by
    refine ⟨h.bypass, h.deltas, h.wf, h.readable, fun k hk hn => ?_⟩
    have e := evict_dget d keep k hn
    rw [e] at hn ⊢
    exact h.coh k hk hn
  exact ⟨hf, fun k hk => by rw [hf.find hk, h.find hk]; rfl⟩

theorem Fit.restart {d : Driver} (h : Fit d) (hp : d.pendingWrites = []) :
    Fit (.open d.disk) ∧ ∀ k, PlainKey k → (Driver.open d.disk).find k = d.find k := by
  have hf : Fit (.open d.disk) := ⟨rfl, rfl, List.nodup_nil, h.readable, fun _ _ hn => by cases hn⟩
  refine ⟨hf, fun k hk => ?_⟩
  rw [hf.find hk, h.find hk, hp]
  rfl

/-- A process between transactions, up to what a transaction that starts does not see. -/
structure Running (H : Host) (w : World) : Prop where
  fit : Fit w.driver
  served : Served H w

/-- Two processes between transactions, with drivers that give the same under plain keys. -/
structure Abreast (H : Host) (w w' : World) : Prop where
  one : Running H w
  other : Running H w'
  stack : w'.stack = w.stack
  look : ∀ k, PlainKey k → w'.driver.find k = w.driver.find k

/-- What a transaction that starts sees of the process. -/
def seenOf (w : World) : World := { freshWorld w.driver with stack := w.stack }

theorem seenOf_execute {H : Host} {w : World} (h : Served H w) (cfg : ExecCfg) (tx : Tx) :
    (execute H cfg tx w).1 = (execute H cfg tx (seenOf w)).1 ∧
    (execute H cfg tx w).2.driver = (execute H cfg tx (seenOf w)).2.driver ∧
    (execute H cfg tx w).2.stack = (execute H cfg tx (seenOf w)).2.stack := by
  obtain ⟨h1, h2, h3, h4, h5, h6⟩ := h.shape
  have hb : SameButBase (seenOf w) w := by
    refine ⟨w.rng, w.hostCalls, w.base, ?_, fun hx => by cases hx⟩
    obtain ⟨driver, meter, base, stack, seeded, rng, env, loaded, restricted, logs, calls⟩ := w
    simp only at h1 h2 h3 h4 h5 h6
    subst h1 h2 h3 h4 h5 h6
    rfl
  obtain ⟨e1, rng, calls, base, e2, _⟩ := execute_sameRun (H := H) (cfg := cfg) (tx := tx) hb
  exact ⟨e1.symm, by rw [e2], by rw [e2]⟩

/-- What is asked of a transaction. -/
def Calm (t : Tx) : Prop := t.autoCommit = false ∧ t.code.All CacheBlind ∧ t.code.All KeepsKeys

theorem Fit.tx {H : Host} {cfg : ExecCfg} {t : Tx} {w w1 : World} {o : Output} (h : Fit w.driver) (ht : Calm t)
    (hx : execute H cfg t w = (.ok o, w1)) (hc : w1.driver.cache = w.driver.cache) : Fit w1.driver := by
  have hnm : ∀ n, t.code.All (Action.NoMutate (py! "x" ++ '.' :: n)) := fun n => code_all_mono (fun a ha => by
    cases a <;> first | exact ha.elim | trivial) ht.2.1
  obtain ⟨h1, h2, h3, h4, _⟩ := execute_around hnm ht.1 hx
  exact ⟨h2.trans h.bypass, h3.trans h.deltas, h4 h.wf, by rw [h1]; exact h.readable, fun k hk hn => by
    rw [hc] at hn ⊢; rw [h1]; exact h.coh k hk hn⟩

theorem Abreast.tx {H : Host} {cfg : ExecCfg} {t : Tx} {w w' w1 : World} {o : Output} (h : Abreast H w w') (ht : Calm t)
    (hx : execute H cfg t w = (.ok o, w1)) (hp : ∀ k, Reads o k → PlainKey k) :
    ∃ o' w1', execute H cfg t w' = (.ok o', w1') ∧ SameOutput o o' ∧ Abreast H w1 w1' := by
  have hd := h.one.fit
  have he := h.other.fit
  have hk : t.code.All (Blindly False) := code_all_mono (fun a ha => ⟨ha.1, .inr ha.2⟩) (code_all_both ht.2.1 ht.2.2)
  have c1 := seenOf_execute h.one.served cfg t
  rw [hx] at c1
  cases hf : execute H cfg t (seenOf w) with
  | mk r1 wf =>
    rw [hf] at c1
    obtain ⟨c1, c2, c2'⟩ := c1
    simp only at c1 c2 c2'
    subst c1
    obtain ⟨o', f, h1, h2, h3⟩ := execute_both (S := False) (K := PlainKey) (w := seenOf w) (e := w'.driver) hk ht.1
      (Near.start ⟨hd.bypass, he.bypass⟩ hd.readable he.readable fun k hk => ⟨h.look k hk, False.elim⟩) h.look ⟨hd.bypass, he.bypass⟩
      (execute_ok hf).1 hf fun k hk => hp k ((keys_isSome _ _).1 hk)
    have c3 := seenOf_execute h.other.served cfg t
    rw [show seenOf w' = { seenOf w with driver := w'.driver } from by unfold seenOf freshWorld; rw [h.stack], h1] at c3
    cases hg : execute H cfg t w' with
    | mk r2 w1' =>
      rw [hg] at c3
      obtain ⟨c3, c4, c5⟩ := c3
      simp only at c3 c4 c5
      subst c3
      refine ⟨o', w1', rfl, h2, ⟨hd.tx ht hx ?_, .tx h.one.served hx⟩, ⟨he.tx ht hg ?_, .tx h.other.served hg⟩, ?_, fun k hk => ?_⟩
      · rw [c2]; exact h3.keepd.1
      · rw [c4]; exact h3.keepe.1
      · rw [c5, c2']
      · rw [c4, c2]; exact h3.look k hk

theorem Abreast.self {H : Host} {w : World} (h : Running H w) : Abreast H w w := ⟨h, h, rfl, fun _ _ => rfl⟩

theorem Abreast.symm {H : Host} {w w' : World} (h : Abreast H w w') : Abreast H w' w :=
  ⟨h.other, h.one, h.stack.symm, fun k hk => (h.look k hk).symm⟩

/-- The other run changes its driver. -/
theorem Abreast.right {H : Host} {w w' : World} (h : Abreast H w w') {f : Driver}
    (hf : Fit f ∧ ∀ k, PlainKey k → f.find k = w'.driver.find k) : Abreast H w { w' with driver := f } :=
  ⟨h.one, ⟨hf.1, .storage f h.other.served⟩, h.stack, fun k hk => (hf.2 k hk).trans (h.look k hk)⟩

theorem Abreast.left {H : Host} {w w' : World} (h : Abreast H w w') {f : Driver}
    (hf : Fit f ∧ ∀ k, PlainKey k → f.find k = w.driver.find k) : Abreast H { w with driver := f } w' :=
  (h.symm.right hf).symm

/-- The other node restarts. -/
theorem Abreast.anew {H : Host} {w w' : World} (h : Abreast H w w') (hp : w'.driver.pendingWrites = []) (hs : w'.stack = []) :
    Abreast H w { driver := .open w'.driver.disk } :=
  have hf := h.other.fit.restart hp
  ⟨h.one, ⟨hf.1, .start _⟩, hs.symm.trans h.stack, fun k hk => (hf.2 k hk).trans (h.look k hk)⟩

theorem Abreast.anewLeft {H : Host} {w w' : World} (h : Abreast H w w') (hp : w.driver.pendingWrites = []) (hs : w.stack = []) :
    Abreast H { driver := .open w.driver.disk } w' :=
  (h.symm.anew hp hs).symm

/-- The other run up to the point where it has executed the next transaction as well. -/
theorem next_tx {H : Host} {cfg : ExecCfg} {t : Tx} (ht : Calm t) {w w1 : World} {o : Output} (hx : execute H cfg t w = (.ok o, w1))
    (hp : ∀ k, Reads o k → PlainKey k) {w' b : World} {l : List (ExecCfg × Tx)} {os' : List Output} (hb : Batched H w' l os' b) :
    ∀ {ts : List (ExecCfg × Tx)}, l = (cfg, t) :: ts → Abreast H w w' →
    ∃ o' w1' os'', os' = o' :: os'' ∧ SameOutput o o' ∧ Abreast H w1 w1' ∧ Batched H w1' ts os'' b := by
  induction hb with
  | stop => intro ts h; cases h
  | tx hx' hrest _ =>
    intro ts h ha
    cases h
    obtain ⟨o', w1', h1, h2, h3⟩ := ha.tx ht hx hp
    rw [hx'] at h1
    cases h1
    exact ⟨_, _, _, rfl, h2, h3, hrest⟩
  | commit hs _ ih => exact fun h ha => ih h (ha.right (ha.other.fit.commit hs))
  | apply nanos hs _ ih => exact fun h ha => ih h (ha.right (ha.other.fit.apply hs nanos))
  | evict keep _ ih => exact fun h ha => ih h (ha.right (ha.other.fit.evict keep))
  | restart hp hs _ ih => exact fun h ha => ih h (ha.anew hp hs)

theorem last_tx {H : Host} {w w' b : World} {l : List (ExecCfg × Tx)} {os' : List Output} (hb : Batched H w' l os' b) :
    l = [] → Abreast H w w' → os' = [] ∧ Abreast H w b := by
  induction hb with
  | stop => exact fun _ h => ⟨rfl, h⟩
  | tx => intro h; cases h
  | commit hs _ ih => exact fun h ha => ih h (ha.right (ha.other.fit.commit hs))
  | apply nanos hs _ ih => exact fun h ha => ih h (ha.right (ha.other.fit.apply hs nanos))
  | evict keep _ ih => exact fun h ha => ih h (ha.right (ha.other.fit.evict keep))
  | restart hp hs _ ih => exact fun h ha => ih h (ha.anew hp hs)

theorem runs_abreast {H : Host} {w a : World} {ts : List (ExecCfg × Tx)} {os : List Output} (ha : Batched H w ts os a) :
    (∀ p ∈ ts, Calm p.2) → (∀ o ∈ os, ∀ k, Reads o k → PlainKey k) → ∀ {w' b : World} {os' : List Output},
    Batched H w' ts os' b → Abreast H w w' → List.Forall₂ SameOutput os os' ∧ Abreast H a b := by
  induction ha with
  | stop =>
    intro _ _ w' b os' hb h
    obtain ⟨rfl, h⟩ := last_tx hb rfl h
    exact ⟨.nil, h⟩
  | tx hx _ ih =>
    intro ht hp w' b os' hb h
    obtain ⟨o', w1', os'', rfl, h2, h3, h4⟩ := next_tx (ht _ List.mem_cons_self) hx (hp _ List.mem_cons_self) hb rfl h
    obtain ⟨i1, i2⟩ := ih (fun p hp' => ht p (by simp [hp'])) (fun o ho => hp o (by simp [ho])) h4 h3
    exact ⟨.cons h2 i1, i2⟩
  | commit hs _ ih => exact fun ht hp _ _ _ hb h => ih ht hp hb (h.left (h.one.fit.commit hs))
  | apply nanos hs _ ih => exact fun ht hp _ _ _ hb h => ih ht hp hb (h.left (h.one.fit.apply hs nanos))
  | evict keep _ ih => exact fun ht hp _ _ _ hb h => ih ht hp hb (h.left (h.one.fit.evict keep))
  | restart hn hs _ ih => exact fun ht hp _ _ _ hb h => ih ht hp hb (h.anewLeft hn hs)

/-- **C108.** Two nodes that execute the same transactions, starting from the same disk, but commit, apply blocks or restart
at moments of their own choosing, get the same results, stamps, writes and events, and whatever is read afterwards is the same. -/
theorem C108_schedule {H : Host} {w a b : World} {ts : List (ExecCfg × Tx)} {os os' : List Output}
    (hw : Served H w) (hb : w.driver.bypass = false) (hd : w.driver.pendingDeltas = []) (hp : w.driver.pendingWrites = []) (hc : w.driver.cache = [])
    (hr : Readable w.driver.disk)
    (ht : ∀ p ∈ ts, p.2.autoCommit = false ∧ p.2.code.All CacheBlind ∧ p.2.code.All KeepsKeys)
    (hk : ∀ o ∈ os, ∀ k, Reads o k → PlainKey k) (h1 : Batched H w ts os a) (h2 : Batched H w ts os' b) :
    List.Forall₂ SameOutput os os' ∧ ∀ k, PlainKey k → b.driver.find k = a.driver.find k := by
  have hf : Fit w.driver := ⟨hb, hd, by rw [hp]; exact List.nodup_nil, hr, fun k _ hn => by rw [hc] at hn; cases hn⟩
  obtain ⟨h3, h4⟩ := runs_abreast h1 ht hk h2 (.self ⟨hf, hw⟩)
  exact ⟨h3, h4.look⟩

theorem Running.of {H : Host} {w : World} (h : Idle H w) : Running H w :=
  ⟨⟨h.bypass, h.deltas, by rw [h.pending]; exact List.nodup_nil, h.readable, fun k _ hn => by rw [h.cache] at hn; cases hn⟩, h.served⟩

/-- **C108**, for a node that joins from a snapshot: its disk need only show the same values under plain keys, however it came
about. -/
theorem C108_joined {H : Host} {w w' a b : World} {ts : List (ExecCfg × Tx)} {os os' : List Output}
    (hw : Idle H w) (hw' : Idle H w') (hs : w'.stack = w.stack)
    (hl : ∀ k, PlainKey k → w'.driver.find k = w.driver.find k)
    (ht : ∀ p ∈ ts, p.2.autoCommit = false ∧ p.2.code.All CacheBlind ∧ p.2.code.All KeepsKeys)
    (hk : ∀ o ∈ os, ∀ k, Reads o k → PlainKey k) (h1 : Batched H w ts os a) (h2 : Batched H w' ts os' b) :
    List.Forall₂ SameOutput os os' ∧ ∀ k, PlainKey k → b.driver.find k = a.driver.find k := by
  obtain ⟨h3, h4⟩ := runs_abreast h1 ht hk h2 ⟨.of hw, .of hw', hs, hl⟩
  exact ⟨h3, h4.look⟩

theorem batched_split {H : Host} {w a : World} {l : List (ExecCfg × Tx)} {os : List Output} (h : Batched H w l os a) :
    ∀ {ts us : List (ExecCfg × Tx)}, l = ts ++ us →
    ∃ os1 os2 m, os = os1 ++ os2 ∧ Batched H w ts os1 m ∧ Batched H m us os2 a := by
  induction h with
  | stop w =>
    intro ts us h
    obtain ⟨rfl, rfl⟩ := List.append_eq_nil_iff.1 h.symm
    exact ⟨[], [], w, rfl, .stop w, .stop w⟩
  | @tx w w1 w' cfg t o l os hx hr ih =>
    intro ts us h
    cases ts with
    | nil => cases h; exact ⟨[], _, w, rfl, .stop w, .tx hx hr⟩
    | cons p ts =>
      cases h
      obtain ⟨os1, os2, m, rfl, h1, h2⟩ := ih rfl
      exact ⟨o :: os1, os2, m, rfl, .tx hx h1, h2⟩
  | commit hs _ ih =>
    intro ts us h
    obtain ⟨os1, os2, m, e, h1, h2⟩ := ih h
    exact ⟨os1, os2, m, e, .commit hs h1, h2⟩
  | apply nanos hs _ ih =>
    intro ts us h
    obtain ⟨os1, os2, m, e, h1, h2⟩ := ih h
    exact ⟨os1, os2, m, e, .apply nanos hs h1, h2⟩
  | evict keep _ ih =>
    intro ts us h
    obtain ⟨os1, os2, m, e, h1, h2⟩ := ih h
    exact ⟨os1, os2, m, e, .evict keep h1, h2⟩
  | restart hp hs _ ih =>
    intro ts us h
    obtain ⟨os1, os2, m, e, h1, h2⟩ := ih h
    exact ⟨os1, os2, m, e, .restart hp hs h1, h2⟩

theorem replay {H : Host} {w a : World} {ts : List (ExecCfg × Tx)} {os : List Output} (ha : Batched H w ts os a) :
    (∀ p ∈ ts, Calm p.2) → (∀ o ∈ os, ∀ k, Reads o k → PlainKey k) → ∀ {w' : World}, Abreast H w w' →
    ∃ os' b, Batched H w' ts os' b ∧ List.Forall₂ SameOutput os os' := by
  induction ha with
  | stop => exact fun _ _ w' _ => ⟨[], w', .stop w', .nil⟩
  | tx hx _ ih =>
    intro ht hp w' h
    obtain ⟨o', w1', h1, h2, h3⟩ := h.tx (ht _ List.mem_cons_self) hx (hp _ List.mem_cons_self)
    obtain ⟨os', b, i1, i2⟩ := ih (fun p hp' => ht p (by simp [hp'])) (fun o ho => hp o (by simp [ho])) h3
    exact ⟨o' :: os', b, .tx h1 i1, .cons h2 i2⟩
  | commit hs _ ih => exact fun ht hp _ h => ih ht hp (h.left (h.one.fit.commit hs))
  | apply nanos hs _ ih => exact fun ht hp _ h => ih ht hp (h.left (h.one.fit.apply hs nanos))
  | evict keep _ ih => exact fun ht hp _ h => ih ht hp (h.left (h.one.fit.evict keep))
  | restart hn hs _ ih => exact fun ht hp _ h => ih ht hp (h.anewLeft hn hs)

/-- **C108**, that the other node does not get stuck: wherever it stands, having executed some of the transactions, the remaining
ones succeed there too and give what they gave on the first node. -/
theorem C108_continue {H : Host} {w a b : World} {ts us : List (ExecCfg × Tx)} {os os' : List Output}
    (hw : Served H w) (hb : w.driver.bypass = false) (hd : w.driver.pendingDeltas = []) (hp : w.driver.pendingWrites = []) (hc : w.driver.cache = [])
    (hr : Readable w.driver.disk)
    (ht : ∀ p ∈ ts ++ us, p.2.autoCommit = false ∧ p.2.code.All CacheBlind ∧ p.2.code.All KeepsKeys)
    (hk : ∀ o ∈ os, ∀ k, Reads o k → PlainKey k) (h1 : Batched H w (ts ++ us) os a) (h2 : Batched H w ts os' b) :
    ∃ os'' c, Batched H b us os'' c ∧ List.Forall₂ SameOutput os (os' ++ os'') := by
  have hf : Fit w.driver := ⟨hb, hd, by rw [hp]; exact List.nodup_nil, hr, fun k _ hn => by rw [hc] at hn; cases hn⟩
  obtain ⟨os1, os2, m, rfl, h3, h4⟩ := batched_split h1 rfl
  obtain ⟨h5, h6⟩ := runs_abreast h3 (fun p hp => ht p (by simp [hp])) (fun o ho => hk o (by simp [ho])) h2 (.self ⟨hf, hw⟩)
  obtain ⟨os'', c, h7, h8⟩ := replay h4 (fun p hp => ht p (by simp [hp])) (fun o ho => hk o (by simp [ho])) h6
  exact ⟨os'', c, h7, List.rel_append h5 h8⟩

/-- **C108**, the same for a node that joins from a snapshot: it can go on from wherever it stands, and what it gets is what the
first node got. -/
theorem C108_joined_continue {H : Host} {w w' a b : World} {ts us : List (ExecCfg × Tx)} {os os' : List Output}
    (hw : Idle H w) (hw' : Idle H w') (hs : w'.stack = w.stack)
    (hl : ∀ k, PlainKey k → w'.driver.find k = w.driver.find k)
    (ht : ∀ p ∈ ts ++ us, p.2.autoCommit = false ∧ p.2.code.All CacheBlind ∧ p.2.code.All KeepsKeys)
    (hk : ∀ o ∈ os, ∀ k, Reads o k → PlainKey k) (h1 : Batched H w (ts ++ us) os a) (h2 : Batched H w' ts os' b) :
    ∃ os'' c, Batched H b us os'' c ∧ List.Forall₂ SameOutput os (os' ++ os'') := by
  obtain ⟨os1, os2, m, rfl, h3, h4⟩ := batched_split h1 rfl
  obtain ⟨h5, h6⟩ := runs_abreast h3 (fun p hp => ht p (by simp [hp])) (fun o ho => hk o (by simp [ho])) h2
    ⟨.of hw, .of hw', hs, hl⟩
  obtain ⟨os'', c, h7, h8⟩ := replay h4 (fun p hp => ht p (by simp [hp])) (fun o ho => hk o (by simp [ho])) h6
  exact ⟨os'', c, h7, List.rel_append h5 h8⟩

/-! ### A concrete case -/
namespace BatchDemo

/-- `con_a` is deployed and `bob` has 100, and `x` is 5, all of it on disk. -/
def disk : Disk := (Demo.world (Demo.stored Demo.conA ++ [(Demo.bobKey, .int 100), (Demo.x.key, .int 5)])).driver.commit.2.disk
def base : World := { driver := .open disk }
def setX : Tx := Demo.tx (Demo.step (.varSet Demo.x (.int 7)) (.ret .none))
def getX : Tx := Demo.tx (Demo.answer (.varGet Demo.x))
def delX : Tx := Demo.tx (Demo.step (.varSet Demo.x .none) (.ret .none))

/-- After a first transaction; the same with a commit behind it. -/
def one (t : Tx) : World := (execute Demo.host {} t base).2
def mid (t : Tx) : World := { one t with driver := (one t).driver.commit.2 }

theorem one_pending : (one setX).driver.pendingWrites = [(Demo.x.key, .int 7), (Demo.bobKey, .dec ⟨false, 95, 0⟩)] := by
  decide +kernel

theorem plain_x : PlainKey Demo.x.key := ⟨Demo.conA, py! "x", [], by decide, by decide, by decide, by decide⟩
theorem plain_bob : PlainKey Demo.bobKey := ⟨py! "currency", py! "balances", [Demo.bob], by decide, by decide, by decide, by decide⟩

theorem settle : Settleable (one setX).driver := by
  intro p hp
  rw [one_pending] at hp
  simp only [List.mem_cons, List.not_mem_nil, or_false] at hp
  rcases hp with rfl | rfl
  · exact ⟨plain_x, stable_of (by decide +kernel), rfl⟩
  · exact ⟨plain_bob, stable_of (by decide +kernel), rfl⟩

def keys : List Str := [Demo.bobKey, py! "con_a.__owner__", py! "con_a.__code__", py! "con_a.__compiled__", py! "con_a.x"]

theorem keys_plain : ∀ k ∈ keys, PlainKey k := by
  intro k hk
  simp only [keys, List.mem_cons, List.not_mem_nil, or_false] at hk
  rcases hk with rfl | rfl | rfl | rfl | rfl
  · exact plain_bob
  · exact ⟨Demo.conA, py! "__owner__", [], by decide, by decide, by decide, by decide⟩
  · exact ⟨Demo.conA, py! "__code__", [], by decide, by decide, by decide, by decide⟩
  · exact ⟨Demo.conA, py! "__compiled__", [], by decide, by decide, by decide, by decide⟩
  · exact plain_x

theorem runs {t : Tx} {w : World} {v : PyVal}
    (h : (execute Demo.host {} t w).1.map (fun o => (o.result.toOption, Dict.keys o.reads)) = .ok (some v, keys)) :
    ∃ o, execute Demo.host {} t w = (.ok o, (execute Demo.host {} t w).2) ∧ o.result.toOption = some v ∧ Dict.keys o.reads = keys := by
  generalize execute Demo.host {} t w = r at h
  obtain ⟨r1, r2⟩ := r
  cases r1 with
  | error e => injection h
  | ok o => injection h with h; injection h with h1 h2; exact ⟨o, rfl, h1, h2⟩

theorem set_all {P : Action → Prop} (h : P (.varSet Demo.x (.int 7))) : setX.code.All P :=
  ⟨trivial, by rintro fn ⟨⟩ kwargs; exact Demo.step_all h trivial⟩

theorem get_all {P : Action → Prop} (h : P (.varGet Demo.x)) : getX.code.All P :=
  ⟨trivial, by rintro fn ⟨⟩ kwargs; exact ⟨h, fun r => by cases r <;> trivial⟩⟩

/-- The hypotheses of C108 are met: `x` is set and then read; one node waits with writing, the other one commits
and restarts in between. -/
example : ∃ os os' a b, Served Demo.host base ∧ Batched Demo.host base [({}, setX), ({}, getX)] os a ∧ Batched Demo.host base [({}, setX), ({}, getX)] os' b ∧
    a.driver.pendingWrites.length = 2 ∧ b.driver.pendingWrites.length = 1 ∧
    os.map (fun o => o.result.toOption) = [some .none, some (.int 7)] ∧
    (∀ o ∈ os, ∀ k, Reads o k → PlainKey k) ∧ Readable base.driver.disk ∧
    ∀ p ∈ [(({} : ExecCfg), setX), ({}, getX)], p.2.autoCommit = false ∧ p.2.code.All CacheBlind ∧ p.2.code.All KeepsKeys := by
  obtain ⟨o1, h1, r1, k1⟩ := runs (t := setX) (w := base) (v := .none) (by decide +kernel)
  obtain ⟨o2, h2, r2, k2⟩ := runs (t := getX) (w := one setX) (v := .int 7) (by decide +kernel)
  obtain ⟨o3, h3, _, _⟩ := runs (t := getX) (w := { driver := .open (mid setX).driver.disk }) (v := .int 7) (by decide +kernel)
  refine ⟨[o1, o2], [o1, o3], _, _, .start _, .tx h1 (.tx h2 (.stop _)), .tx h1 (.commit settle (.restart (by decide +kernel) (by decide +kernel) (.tx h3 (.stop _)))),
    by decide +kernel, by decide +kernel, ?_, ?_, ?_, ?_⟩
  · simp [r1, r2]
  · intro o ho k hk
    have : Dict.keys o.reads = keys := by
      simp only [List.mem_cons, List.not_mem_nil, or_false] at ho
      rcases ho with rfl | rfl
      · exact k1
      · exact k2
    unfold Reads at hk
    rw [this] at hk
    exact keys_plain k hk
  · exact readable_of (by decide +kernel)
  · intro p hp
    simp only [List.mem_cons, List.not_mem_nil, or_false] at hp
    rcases hp with rfl | rfl
    · exact ⟨rfl, set_all trivial, set_all rfl⟩
    · exact ⟨rfl, get_all trivial, get_all trivial⟩

/-- The states of C108_joined are there: one disk was written by a commit, the other one by applying a block, which also stores
the time, so they differ; but they show the same. -/
example : ∃ w w', Idle Demo.host w ∧ Idle Demo.host w' ∧ w'.stack = w.stack ∧ (∀ k, PlainKey k → w'.driver.find k = w.driver.find k) ∧
    w'.driver.disk ≠ w.driver.disk ∧ w.driver.find Demo.x.key = .ok (.int 7) := by
  have hf : Fit (one setX).driver := by
    refine ⟨by decide +kernel, by decide +kernel, ?_, readable_of (by decide +kernel), fun k _ hn => ?_⟩
    · rw [one_pending]; unfold Dict.WF; decide +kernel
    · rw [show (one setX).driver.cache = [] from by decide +kernel] at hn; cases hn
  have h1 := hf.commit settle
  have h2 := hf.apply settle 5
  have g1 := h1.1.restart (by decide +kernel)
  have g2 := h2.1.restart (by decide +kernel)
  refine ⟨{ driver := .open (mid setX).driver.disk }, { driver := .open ((one setX).driver.hardApply 5).2.disk },
    ⟨.start _, rfl, rfl, rfl, rfl, g1.1.readable⟩, ⟨.start _, rfl, rfl, rfl, rfl, g2.1.readable⟩, rfl, fun k hk => ?_, ?_, ?_⟩
  · exact (((g2.2 k hk).trans (h2.2 k hk)).trans (h1.2 k hk).symm).trans (g1.2 k hk).symm
  · decide +kernel
  · decide +kernel

end BatchDemo
open BatchDemo

/-- **C108 needs that nothing is deleted**: a deletion is not seen before it is committed. -/
theorem C108_refuted_deleted :
    (execute Demo.host {} getX (execute Demo.host {} delX base).2).1.map (fun o => o.result.toOption) = .ok (some (.int 5)) ∧
    (execute Demo.host {} getX (mid delX)).1.map (fun o => o.result.toOption) = .ok (some .none) := by
  decide +kernel

/-- **C108 needs that restarts wait for the commit**: what is only pending is lost. -/
theorem C108_refuted_unsaved :
    (execute Demo.host {} getX (one setX)).1.map (fun o => o.result.toOption) = .ok (some (.int 7)) ∧
    (execute Demo.host {} getX { driver := .open (one setX).driver.disk }).1.map (fun o => o.result.toOption) = .ok (some (.int 5)) := by
  decide +kernel

end Verif
