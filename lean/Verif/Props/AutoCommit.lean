import Verif.Props.Guard
import Verif.Props.Demo
import Verif.Proofs.Reads
import Verif.Props.Replica
/-!
# Property C107: `auto_commit` is `execute` followed by `commit`
-/
namespace Verif
open Spec

/-- What `execute` does once the fee is settled. -/
theorem execute_from {H : Host} {cfg : ExecCfg} {tx : Tx} {w : World}
    (hg : cfg.bypassPrivates = true ∨ startsWith tx.function (py! "__") = false) :
    execute H cfg tx w =
      match (if tx.metered cfg then chargeFee H cfg tx (stampsUsed tx (ranWorld H cfg tx w)) (ranOutcome H cfg tx w).writes
          (ranWorld H cfg tx w) else (.ok (ranOutcome H cfg tx w).writes, ranWorld H cfg tx w)) with
      | (.error e, w) => (.error e, w)
      | (.ok writes, w2) =>
        (.ok { result := (ranOutcome H cfg tx w).result, stampsUsed := stampsUsed tx (ranWorld H cfg tx w), writes := writes,
               reads := w2.driver.pendingReads, events := (ranOutcome H cfg tx w).events }, cleanUp w2) := by
  have : (!cfg.bypassPrivates && startsWith tx.function (py! "__")) = false := by
    rcases hg with h | h <;> simp [h]
  unfold execute
  simp only [this, Bool.false_eq_true, if_false]
  rfl

/-- Storing a new balance when nothing is metered. -/
theorem fee_set {m : Meter} {d : Driver} {k : Str} {b v : PyVal} (hm : m.started = false) (hb : b = .int 0 ∨ ∃ r, b = .dec r)
    (hst : Stable b) (hf : d.find k = .ok v) :
    ∃ r, Driver.set m d k b false = (.ok (), m, { d with pendingReads := r, pendingWrites := Dict.set d.pendingWrites k b }) := by
  obtain ⟨s, hs⟩ : ∃ s, encode b = .ok s := by
    rcases hst with rfl | ⟨s, hs, _⟩
    · rcases hb with h | ⟨r, h⟩ <;> cases h
    · exact ⟨s, hs⟩
  have hn : normValue b = .ok b := by rcases hb with rfl | ⟨r, rfl⟩ <;> rfl
  have hd : m.deductWrite (utf8Len k + s.length) = (.ok (), m) := by
    unfold Meter.deductWrite; rw [hm]; rfl
  have hr : ∃ v' r, (if (dget d.pendingReads k).isNone then d.get k else (.ok .none, d)) = (.ok v', { d with pendingReads := r }) := by
    split
    · unfold Driver.get
      rw [hf]
      rename_i hn
      exact ⟨v, Dict.set d.pendingReads k v, by simp only [if_pos hn]⟩
    · exact ⟨.none, d.pendingReads, rfl⟩
  obtain ⟨v', r, hr⟩ := hr
  refine ⟨r, ?_⟩
  unfold Driver.set
  rw [hs]; simp only
  rw [hd]; simp only
  rw [hr]; simp only
  rw [hn]; simp only
  rfl

/-- The fee under `auto_commit`: charged and committed. -/
theorem chargeFee_auto {H : Host} {cfg : ExecCfg} {tx : Tx} {used : Int} {writes : Dict Str PyVal} {w : World} {fee : Dec} {v b : PyVal}
    (hc : tx.autoCommit = true) (hm : w.meter.started = false) (hp : w.driver.pendingWrites = [])
    (hfee : feeOf H tx used = .ok fee) (hf : w.driver.find (balanceKey cfg tx.sender) = .ok v) (ha : afterFee v fee = .ok b)
    (hst : Stable b)
    {disk : Disk} (hcm : Driver.commitLoop w.driver.disk [(balanceKey cfg tx.sender, b)] = (.ok (), disk)) :
    chargeFee H cfg tx used writes w = (.ok (Dict.set writes (balanceKey cfg tx.sender) b),
      { w with driver := { w.driver with disk := disk, cache := [], pendingWrites := [], pendingReads := [] } }) := by
  have hget : ∃ r, w.driver.get (balanceKey cfg tx.sender) = (.ok v, { w.driver with pendingReads := r }) := by
    unfold Driver.get
    rw [hf]
    simp only
    split
    · exact ⟨_, rfl⟩
    · exact ⟨w.driver.pendingReads, rfl⟩
  obtain ⟨r, hget⟩ := hget
  have hfind : ({ w.driver with pendingReads := r } : Driver).find (balanceKey cfg tx.sender) = .ok v := hf
  obtain ⟨r', hset⟩ := fee_set (d := { w.driver with pendingReads := r }) hm (afterFee_shape ha) hst hfind
  unfold chargeFee
  rw [hfee]; simp only
  rw [hget]; simp only
  rw [ha]; simp only
  rw [hset]; simp only
  rw [hc, if_pos rfl]
  have : ({ w.driver with pendingReads := r', pendingWrites := Dict.set w.driver.pendingWrites (balanceKey cfg tx.sender) b } : Driver).commit =
      (.ok (), { w.driver with disk := disk, cache := [], pendingWrites := [], pendingReads := [] }) := by
    unfold Driver.commit
    simp only [hp]
    have : Dict.set ([] : Dict Str PyVal) (balanceKey cfg tx.sender) b = [(balanceKey cfg tx.sender, b)] := rfl
    rw [this, hcm]
  rw [this]

/-- A committed state: nothing pending, nothing cached, nothing recorded. -/
def Emptied (d : Driver) : Prop := d.pendingWrites = [] ∧ d.cache = [] ∧ d.pendingReads = []

theorem commit_committed {d d' : Driver} (h : d.commit = (.ok (), d')) : Emptied d' := by
  unfold Driver.commit at h
  split at h
  · cases h
  · cases h; exact ⟨rfl, rfl, rfl⟩

theorem tryBlock_committed {H : Host} {cfg : ExecCfg} {tx : Tx} (hc : tx.autoCommit = true) (m : Bool) (snap : Dict Str PyVal) (w : World) :
    Emptied (tryBlock H cfg tx m snap w).2.driver := by
  have herr : ∀ e w, Emptied (onError tx snap e w).2.driver := by
    intro e w
    unfold onError
    simp only [hc, if_true]
    exact ⟨rfl, rfl, rfl⟩
  unfold tryBlock
  split
  · exact herr _ _
  · simp only [hc, if_true]
    split
    · exact herr _ _
    · rename_i h
      exact commit_committed h

/-- **C107 (b).** With `auto_commit` on, a call of `execute` that returns leaves nothing pending and nothing cached, and
reports no reads, whatever the transaction read. -/
theorem C107_settled {H : Host} {cfg : ExecCfg} {tx : Tx} {w w' : World} {o : Output} (hc : tx.autoCommit = true)
    (h : execute H cfg tx w = (.ok o, w')) :
    o.reads = [] ∧ w'.driver.pendingWrites = [] ∧ w'.driver.cache = [] ∧ w'.driver.pendingReads = [] := by
  obtain ⟨_, writes, w2, hw, rfl, rfl⟩ := execute_ok h
  have h0 : Emptied (ranWorld H cfg tx w).driver := tryBlock_committed hc _ _ _
  have h2 : Emptied w2.driver := by
    split at hw
    · unfold chargeFee at hw
      split at hw
      · cases hw
      · simp only at hw
        split at hw
        · cases hw
        · split at hw
          · cases hw
          · split at hw
            · cases hw
            · rw [hc, if_pos rfl] at hw
              split at hw
              · cases hw
              · rename_i hcm
                cases hw
                exact commit_committed hcm
    · cases hw; exact h0
  exact ⟨h2.2.2, h2.1, h2.2.1, h2.2.2⟩

/-- With `auto_commit` on. -/
def Tx.auto (tx : Tx) : Tx := { tx with autoCommit := true }

/-- What is pending can be committed: stable values under plain keys. -/
def Committable (d : Driver) : Prop := ∀ p ∈ d.pendingWrites, PlainKey p.1 ∧ Stable p.2

/-- The disks show the same under this key. -/
def DiskAlike (a b : Driver) : Prop := ∀ k, PlainKey k → a.disk.get (locOf k) = b.disk.get (locOf k)

theorem committable_commit {d : Driver} (h : Committable d) (hwf : Dict.WF d.pendingWrites) :
    ∃ disk, Driver.commitLoop d.disk d.pendingWrites = (.ok (), disk) ∧
      d.commit = (.ok (), { d with disk := disk, cache := [], pendingWrites := [], pendingReads := [] }) ∧
      (∀ k, PlainKey k → Dict.get? d.pendingWrites k = none → disk.get (locOf k) = d.disk.get (locOf k)) ∧
      (∀ k v, Dict.get? d.pendingWrites k = some v → disk.get (locOf k) = .ok v) := by
  obtain ⟨disk, h1, h2, h3⟩ := commitLoop_gets d.pendingWrites d.disk h hwf
  refine ⟨disk, h1, ?_, h2, h3⟩
  unfold Driver.commit
  rw [h1]

theorem find_committed {d : Driver} (hb : d.bypass = false) (h : d.pendingWrites = []) (h' : d.cache = []) (k : Str) :
    d.find k = d.disk.get (locOf k) := by
  unfold Driver.find
  rw [hb, h, h']
  rfl

/-- What the two runs have in common before the fee: `d` is the driver of the run without `auto_commit`, `e` that of the run with it. -/
structure Before (k : Str) (w0 : Driver) (d e : World) : Prop where
  disk : d.driver.disk = w0.disk
  bypass : d.driver.bypass = false
  bypass' : e.driver.bypass = false
  wf : Dict.WF d.driver.pendingWrites
  cache : Dict.get? d.driver.cache k = Dict.get? w0.cache k
  pending : e.driver.pendingWrites = []
  cache' : e.driver.cache = []
  meter : e.meter = d.meter
  started : d.meter.started = false
  old : ∀ k, PlainKey k → Dict.get? d.driver.pendingWrites k = none → e.driver.disk.get (locOf k) = d.driver.disk.get (locOf k)
  new : ∀ k v, Dict.get? d.driver.pendingWrites k = some v → e.driver.disk.get (locOf k) = .ok v

theorem attempt_auto (H : Host) (cfg : ExecCfg) (tx : Tx) (m : Bool) (w : World) :
    attempt H cfg tx.auto m w = attempt H cfg tx m w := rfl

theorem ran_auto {H : Host} {cfg : ExecCfg} {tx : Tx} {w : World} {k : Str} (hc : tx.autoCommit = false)
    (hnm : tx.code.All (Action.NoMutate k)) (hb : w.driver.bypass = false) (hp : w.driver.pendingWrites = [])
    (hs : Committable (ranWorld H cfg tx w).driver) :
    ranOutcome H cfg tx.auto w = ranOutcome H cfg tx w ∧
    Before k w.driver (ranWorld H cfg tx w) (ranWorld H cfg tx.auto w) := by
  have hd := attempt_sameDisk H cfg tx (tx.metered cfg) (startWorld w)
  have hwf := attempt_wf (H := H) (cfg := cfg) (tx := tx) (tx.metered cfg) (startWorld w) (show Dict.WF w.driver.pendingWrites by rw [hp]; exact List.nodup_nil)
  have hca := attempt_cache (H := H) (cfg := cfg) hnm (tx.metered cfg) (startWorld w)
  have hau := attempt_auto H cfg tx (tx.metered cfg) (startWorld w)
  have hm : tx.auto.metered cfg = tx.metered cfg := rfl
  unfold ranWorld at hs ⊢
  unfold ranOutcome
  rw [hm]
  unfold tryBlock at hs ⊢
  rw [hau]
  generalize attempt H cfg tx (tx.metered cfg) (startWorld w) = r at *
  obtain ⟨r, w1⟩ := r
  cases r with
  | error e =>
    simp only [onError, hc, Bool.false_eq_true, if_false, Tx.auto, if_true] at hs ⊢
    refine ⟨trivial, ?_⟩
    exact { disk := hd.1, bypass := hd.2.1.trans hb, bypass' := hd.2.1.trans hb, wf := (by show Dict.WF w.driver.pendingWrites; rw [hp]; exact List.nodup_nil),
            cache := hca, pending := rfl, cache' := rfl, meter := rfl, started := rfl,
            old := fun _ _ _ => rfl,
            new := fun k v h => (by
              have : Dict.get? w.driver.pendingWrites k = some v := h
              rw [hp] at this; cases this) }
  | ok v =>
    simp only [hc, Bool.false_eq_true, if_false, Tx.auto, if_true] at hs ⊢
    obtain ⟨disk, h1, h2, h3, h4⟩ := committable_commit (d := w1.driver) hs hwf
    rw [h2]
    refine ⟨rfl, ?_⟩
    exact { disk := hd.1, bypass := hd.2.1.trans hb, bypass' := hd.2.1.trans hb, wf := hwf,
            cache := hca, pending := rfl, cache' := rfl, meter := rfl, started := rfl,
            old := fun k hk h => h3 k hk h,
            new := fun k v h => h4 k v h }

theorem stampsUsed_congr {tx : Tx} {a b : World} (h : a.meter = b.meter) : stampsUsed tx.auto a = stampsUsed tx b := by
  unfold stampsUsed
  rw [h]; rfl

/-- **C107.** Running a transaction with `auto_commit` on, from a state with nothing pending, is running it with `auto_commit` off
and committing: same result, stamps, writes and events, and both disks show the same. -/
theorem C107_commit {H : Host} {cfg : ExecCfg} {tx : Tx} {w w' : World} {o : Output} (hc : tx.autoCommit = false)
    (hnm : tx.code.All (Action.NoMutate (balanceKey cfg tx.sender))) (hb : w.driver.bypass = false) (hp : w.driver.pendingWrites = [])
    (hk : PlainKey (balanceKey cfg tx.sender))
    (hco : (dget w.driver.cache (balanceKey cfg tx.sender)).isNone = false →
      w.driver.disk.get (locOf (balanceKey cfg tx.sender)) = .ok (dget w.driver.cache (balanceKey cfg tx.sender)))
    (h : execute H cfg tx w = (.ok o, w')) (hs : Committable (ranWorld H cfg tx w).driver) (hs' : Committable w'.driver)
    (hdel : Dict.get? (ranWorld H cfg tx w).driver.pendingWrites (balanceKey cfg tx.sender) ≠ some .none) :
    ∃ o' w'' d, execute H cfg tx.auto w = (.ok o', w'') ∧ w'.driver.commit = (.ok (), d) ∧
      o'.result = o.result ∧ o'.stampsUsed = o.stampsUsed ∧ o'.writes = o.writes ∧ o'.events = o.events ∧
      w''.driver.pendingWrites = [] ∧ DiskAlike w''.driver d ∧ ∀ k, PlainKey k → w''.driver.find k = d.find k := by
  obtain ⟨ho, B⟩ := ran_auto (H := H) (cfg := cfg) hc hnm hb hp hs
  obtain ⟨hg, writes, w2, hw, rfl, rfl⟩ := execute_ok h
  have hst := stampsUsed_congr (tx := tx) B.meter
  have hx := execute_from (H := H) (cfg := cfg) (tx := tx.auto) (w := w) hg
  rw [ho, hst] at hx
  rw [show tx.auto.metered cfg = tx.metered cfg from rfl] at hx
  generalize hu : stampsUsed tx (ranWorld H cfg tx w) = used at *
  generalize ranWorld H cfg tx.auto w = e at *
  generalize ranWorld H cfg tx w = r at *
  -- both end with a commit of what `w2` shows
  suffices hh : ∃ e2 d, (if tx.metered cfg then chargeFee H cfg tx.auto used (ranOutcome H cfg tx w).writes e
        else (.ok (ranOutcome H cfg tx w).writes, e)) = (.ok writes, e2) ∧ w2.driver.commit = (.ok (), d) ∧
        e2.driver.pendingWrites = [] ∧ DiskAlike e2.driver d ∧ ∀ k, PlainKey k → e2.driver.find k = d.find k by
    obtain ⟨e2, d, h1, h2, h3, h4, h5⟩ := hh
    rw [h1] at hx
    exact ⟨_, _, d, hx, h2, rfl, rfl, rfl, rfl, h3, h4, h5⟩
  by_cases hm : tx.metered cfg = true
  · rw [if_pos hm] at hw ⊢
    obtain ⟨fee, v, b, rd, h1, h2, h3, rfl, rfl⟩ := chargeFee_ok hc B.started hw
    have hbs : Stable b := (hs' (balanceKey cfg tx.sender, b) (Dict.mem_of_get? (Dict.get?_set_self _ _ _))).2
    obtain ⟨disk, hc1, hc3, hc4⟩ := commitLoop_gets [(balanceKey cfg tx.sender, b)] e.driver.disk
      (by intro p hp; rw [List.mem_singleton] at hp; subst hp; exact ⟨hk, hbs⟩) (List.nodup_singleton _)
    have hfe : e.driver.find (balanceKey cfg tx.sender) = .ok v := by
      rw [find_committed B.bypass' B.pending B.cache']
      cases hg : Dict.get? r.driver.pendingWrites (balanceKey cfg tx.sender) with
      | some u =>
        have hu : u.isNone = false := by
          cases u with
          | none => exact absurd hg hdel
          | _ => rfl
        have hd : dget r.driver.pendingWrites (balanceKey cfg tx.sender) = u := by unfold dget; rw [hg]; rfl
        rw [B.new _ _ hg]
        unfold Driver.find at h2
        rw [B.bypass] at h2
        simp only [hd, hu, Bool.false_eq_true, if_false] at h2
        exact h2
      | none =>
        have hd : dget r.driver.pendingWrites (balanceKey cfg tx.sender) = .none := by unfold dget; rw [hg]; rfl
        have hdc : dget r.driver.cache (balanceKey cfg tx.sender) = dget w.driver.cache (balanceKey cfg tx.sender) := by
          unfold dget; rw [B.cache]
        rw [B.old _ hk hg, B.disk]
        rw [Driver.find_through B.bypass, hd] at h2
        unfold through at h2
        rw [hdc, B.disk, if_pos (show PyVal.none.isNone = true from rfl)] at h2
        by_cases hn : (dget w.driver.cache (balanceKey cfg tx.sender)).isNone = true
        · rw [if_pos hn] at h2; exact h2
        · rw [if_neg hn] at h2; rw [hco (by simpa using hn)]; exact h2
    have hcf := chargeFee_auto (tx := tx.auto) (writes := (ranOutcome H cfg tx w).writes) rfl (by rw [B.meter]; exact B.started) B.pending h1 hfe h3 hbs hc1
    obtain ⟨disk', _, g2, g3, g4⟩ := committable_commit hs' (Dict.WF.set B.wf _ _)
    have hal : ∀ k, PlainKey k → disk.get (locOf k) = disk'.get (locOf k) := by
      intro k hkk
      by_cases he : k = balanceKey cfg tx.sender
      · subst he
        rw [hc4 _ b (show Dict.get? (Dict.set [] _ b) _ = some b from Dict.get?_set_self _ _ _), g4 _ b (Dict.get?_set_self _ _ _)]
      · have h0 : Dict.get? [(balanceKey cfg tx.sender, b)] k = none := by
          show Dict.get? (Dict.set [] (balanceKey cfg tx.sender) b) k = none
          rw [Dict.get?_set_ne _ _ (Ne.symm he)]; rfl
        have hss : Dict.get? (Dict.set r.driver.pendingWrites (balanceKey cfg tx.sender) b) k = Dict.get? r.driver.pendingWrites k :=
          Dict.get?_set_ne _ _ (Ne.symm he)
        rw [hc3 k hkk h0]
        cases hg : Dict.get? r.driver.pendingWrites k with
        | none => exact (B.old k hkk hg).trans (g3 k hkk (hss.trans hg)).symm
        | some u => rw [B.new k u hg, g4 k u (hss.trans hg)]
    refine ⟨_, _, hcf, g2, rfl, hal, fun k hkk => ?_⟩
    exact (find_committed (d := { e.driver with disk := disk, cache := [], pendingWrites := [], pendingReads := [] }) B.bypass' rfl rfl k).trans ((hal k hkk).trans (find_committed (d := { r.driver with disk := disk', cache := [], pendingWrites := [], pendingReads := [] }) B.bypass rfl rfl k).symm)
  · rw [if_neg hm] at hw ⊢
    cases hw
    obtain ⟨disk, _, h2, h3, h4⟩ := committable_commit hs B.wf
    have hal : ∀ k, PlainKey k → e.driver.disk.get (locOf k) = disk.get (locOf k) := by
      intro k hk
      cases hg : Dict.get? w2.driver.pendingWrites k with
      | none => rw [B.old k hk hg, h3 k hk hg]
      | some v => rw [B.new k v hg, h4 k v hg]
    refine ⟨e, _, rfl, h2, B.pending, hal, fun k hk => ?_⟩
    rw [find_committed B.bypass' B.pending B.cache', find_committed (d := { w2.driver with disk := disk, cache := [], pendingWrites := [], pendingReads := [] }) B.bypass rfl rfl]
    exact hal k hk

/-! ### A concrete case -/
namespace AutoDemo

/-- `con_a` is deployed and `bob` has 100, all of it committed. -/
def base : World := { driver := .open Demo.w0.driver.commit.2.disk }
def t : Tx := Demo.tx (Demo.step (.varSet Demo.x (.int 7)) (.ret (.int 3)))

theorem ran_pending : (ranWorld Demo.host {} t base).driver.pendingWrites = [(Demo.x.key, .int 7)] := by decide +kernel
theorem done_pending : (execute Demo.host {} t base).2.driver.pendingWrites =
    [(Demo.x.key, .int 7), (Demo.bobKey, .dec ⟨false, 95, 0⟩)] := by decide +kernel
theorem plain_x : PlainKey Demo.x.key := ⟨Demo.conA, py! "x", [], by decide, by decide, by decide, by decide⟩
theorem plain_bob : PlainKey Demo.bobKey := ⟨py! "currency", py! "balances", [Demo.bob], by decide, by decide, by decide, by decide⟩

/-- The hypotheses of C107 are met: `x` is set to 7 and the fee is paid. -/
example : ∃ o w', t.autoCommit = false ∧ t.code.All (Action.NoMutate (balanceKey {} t.sender)) ∧ base.driver.bypass = false ∧
    base.driver.pendingWrites = [] ∧ PlainKey (balanceKey {} t.sender) ∧ base.driver.cache = [] ∧
    execute Demo.host {} t base = (.ok o, w') ∧ o.result = .ok (.int 3) ∧ o.reads ≠ [] ∧ Committable (ranWorld Demo.host {} t base).driver ∧
    Committable w'.driver ∧ Dict.get? (ranWorld Demo.host {} t base).driver.pendingWrites (balanceKey {} t.sender) ≠ some .none := by
  obtain ⟨o, ho⟩ := ok_of_isOk (r := (execute Demo.host {} t base).1) (by decide +kernel)
  have hr : (execute Demo.host {} t base).1.map (fun o => (o.result.toOption, o.reads.isEmpty)) = .ok (some (.int 3), false) := by decide +kernel
  rw [ho] at hr
  injection hr with hr
  injection hr with hr1 hr2
  refine ⟨o, (execute Demo.host {} t base).2, rfl, ⟨trivial, ?_⟩, rfl, rfl, plain_bob, rfl, Prod.ext ho rfl, ?_, ?_, ?_, ?_, ?_⟩
  · rintro fn ⟨⟩ kwargs
    exact ⟨trivial, fun r => by cases r <;> trivial⟩
  · cases hq : o.result with
    | error e => rw [hq] at hr1; cases hr1
    | ok v => rw [hq] at hr1; cases hr1; rfl
  · intro he; rw [he] at hr2; cases hr2
  · intro p hp
    rw [ran_pending, List.mem_singleton] at hp
    subst hp
    exact ⟨plain_x, stable_of (by decide +kernel)⟩
  · intro p hp
    rw [done_pending] at hp
    simp only [List.mem_cons, List.not_mem_nil, or_false] at hp
    rcases hp with rfl | rfl
    · exact ⟨plain_x, stable_of (by decide +kernel)⟩
    · exact ⟨plain_bob, stable_of (by decide +kernel)⟩
  · rw [ran_pending]; decide +kernel

/-- A transaction of the token contract. -/
def token (p : Prog) : Tx := { Demo.tx p with contract := py! "currency" }
def balances : HashVar := .make (py! "currency") (py! "balances")
def tokenBase : World :=
  { driver := .open (Demo.world (Demo.stored (py! "currency") ++ [(Demo.bobKey, .int 100)])).driver.commit.2.disk }

end AutoDemo
open AutoDemo

/-- **C107 needs nothing to be pending**: what earlier transactions left pending is lost when a transaction fails under `auto_commit`
(`flush_cache`), and stays otherwise. -/
theorem C107_refuted_pending :
    let w : World := { base with driver := { base.driver with pendingWrites := [(Demo.x.key, .int 5)] } }
    let tx := Demo.tx (.raise .exception)
    (execute Demo.host {} tx w).1.map Output.status = .ok 1 ∧ ((execute Demo.host {} tx w).2.driver.commit.2.find Demo.x.key) = .ok (.int 5) ∧
    (execute Demo.host {} tx.auto w).1.map Output.status = .ok 1 ∧ (execute Demo.host {} tx.auto w).2.driver.find Demo.x.key = .ok .none := by
  decide +kernel

/-- **C107 needs the sender's balance not to be deleted**: a deletion is not seen before it is committed, so the fee is taken from
the deleted balance (95 left of 100) without `auto_commit`, from nothing with it. -/
theorem C107_refuted_deleted :
    let tx := token (Demo.step (.hashSet balances (.one (.str Demo.bob)) .none) (.ret .none))
    (execute Demo.host {} tx tokenBase).2.driver.commit.2.find Demo.bobKey = .ok (.dec ⟨false, 95, 0⟩) ∧
    (execute Demo.host {} tx.auto tokenBase).2.driver.find Demo.bobKey = .ok (.int 0) := by
  decide +kernel

/-- **Under `auto_commit` work is committed before it is paid for**: a token contract that stores a text as its sender's balance makes
the deduction of the fee fail; `execute` raises, and the text is on the disk. -/
theorem C107_refuted_unpaid :
    let tx := token (Demo.step (.hashSet balances (.one (.str Demo.bob)) (.str (py! "rich"))) (.ret .none))
    (execute Demo.host {} tx.auto tokenBase).1.map Output.status = .error .typeError ∧
    (execute Demo.host {} tx.auto tokenBase).2.driver.disk.get (locOf Demo.bobKey) = .ok (.str (py! "rich")) := by
  decide +kernel

end Verif
