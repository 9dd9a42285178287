import Verif.Proofs.Refine2
/-!
# C16–C26: the storage driver

`Spec.after d cs` is the driver after the calls `cs`; `Spec.Maps` is the pair of maps (committed,
uncommitted). Histories may contain any calls; writes use plain keys and storable values (`Call.OK`),
reads any key. Histories start from a driver freshly opened on any directory whose stored texts decode.
-/
namespace Verif
open Spec (Call Maps PlainKey Readable)

/-- Reachable driver states: some history on some readable directory. -/
def Spec.Reachable (d : Driver) : Prop :=
  ∃ disk cs, Readable disk ∧ (∀ c ∈ cs, Call.OK c) ∧ d = Spec.after (.open disk) cs

theorem Spec.Reachable.sim {d : Driver} (h : Spec.Reachable d) : ∃ s, Sim d s := by
  obtain ⟨disk, cs, h1, h2, rfl⟩ := h
  exact ⟨_, (Sim.init h1).after cs h2⟩

theorem readable_nil : Readable [] := fun _ => ⟨.none, rfl⟩

/-! Concrete keys used in the examples below. -/
def kA : Str := py! "currency.balances:alice"
def kB : Str := py! "currency.balances:bob"
theorem plain_kA : PlainKey kA := ⟨py! "currency", py! "balances", [py! "alice"], by decide, by decide, by decide, rfl⟩
theorem plain_kB : PlainKey kB := ⟨py! "currency", py! "balances", [py! "bob"], by decide, by decide, by decide, rfl⟩

/-! ### C16: read-your-writes -/

/-- **C16.** In every state of a driver with caching: after an accepted write of anything but
`None`, a read returns the value written (a float: its decimal). -/
theorem C16_set {m m' : Meter} {d d' : Driver} {k : Str} {v : PyVal} {txn : Bool}
    (hb : d.bypass = false) (h : d.set m k v txn = (.ok (), m', d')) (hv : v ≠ .none) :
    ∃ w, normValue v = .ok w ∧ (d'.get k).1 = .ok w := by
  obtain ⟨w, h1, _, h2, _⟩ := Driver.set_ok h
  refine ⟨w, h1, ?_⟩
  rw [(Driver.get_frame d' k).2]
  have hw : w.isNone = false := by
    cases hn : w.isNone
    · rfl
    · exact absurd (normValue_none h1 (isNone_iff.1 hn)) hv
  rw [h2]
  simp [Driver.find, hb, dget, hw]

/-- `k` is not written by the call and uncommitted changes are not thrown away. -/
def Spec.Keeps (k : Str) : Call → Prop
  | .set _ k' _ _ => k' ≠ k
  | .delete _ k' => k' ≠ k
  | .rollback | .rollbackTo _ | .flushCache => False
  | _ => True

theorem keeps_step {s : Maps} {k : Str} {w : PyVal} (hw : w ≠ .none) (b : Bool) {c : Call} (hk : Spec.Keeps k c)
    (h : s.overlay k = some w ∨ (s.overlay k = none ∧ s.committed k = w)) :
    (s.step b c).overlay k = some w ∨ ((s.step b c).overlay k = none ∧ (s.step b c).committed k = w) := by
  have hwr : ∀ k' v, k' ≠ k → (s.write k' v).overlay k = s.overlay k := fun k' v hne => by
    simp [Maps.write, Ne.symm hne]
  have hper : s.persist.overlay k = none ∧ s.persist.committed k = w := by
    refine ⟨rfl, ?_⟩
    rcases h with h | ⟨h, h'⟩
    · exact read_eq h
    · simp only [Maps.persist]; rw [read_eq' h]; exact h'
  cases c with
  | set m k' v txn =>
    simp only [Maps.step]
    split
    · split
      · rw [hwr _ _ hk]; exact h
      · exact h
    · exact h
  | delete m k' =>
    simp only [Maps.step]
    split
    · rw [hwr _ _ hk]; exact h
    · exact h
  | commit => exact Or.inr hper
  | hardApply n => exact Or.inr hper
  | rollback => exact absurd hk (by simp [Spec.Keeps])
  | rollbackTo n => exact absurd hk (by simp [Spec.Keeps])
  | flushCache => exact absurd hk (by simp [Spec.Keeps])
  | get k => exact h
  | items p => exact h
  | evict keep => exact h

/-- **C16.** The written value stays visible through any further calls (commits, hard applies,
evictions, other writes) until the key is written again or uncommitted changes are discarded. -/
theorem C16_stays {d : Driver} (hr : Spec.Reachable d) {m m' : Meter} {d' : Driver} {k : Str} {v : PyVal} {txn : Bool}
    (hk : PlainKey k) (hs : Storable v) (h : d.set m k v txn = (.ok (), m', d')) (hv : v ≠ .none)
    (cs : List Call) (hc : ∀ c ∈ cs, c.OK ∧ Spec.Keeps k c) :
    ∃ w u, normValue v = .ok w ∧ ((Spec.after d' cs).get k).1 = .ok u ∧ PyEq w u := by
  obtain ⟨s, hsim⟩ := hr.sim
  have h1 := hsim.set (m := m) (txn := txn) hk hs
  rw [h] at h1
  obtain ⟨w, hw, hsim'⟩ := h1
  have hwn : w ≠ .none := fun hn => hv (normValue_none hw hn)
  have key : ∀ (cs : List Call) (d : Driver) (s : Maps), Sim d s → (∀ c ∈ cs, c.OK ∧ Spec.Keeps k c) →
      (s.overlay k = some w ∨ (s.overlay k = none ∧ s.committed k = w)) →
      ∃ u, (Spec.after d cs).find k = .ok u ∧ PyEq w u := by
    intro cs
    induction cs with
    | nil =>
      intro d s hsim _ ho
      obtain ⟨u, h1, h2⟩ := hsim.find hk
      refine ⟨u, h1, ?_⟩
      rcases ho with ho | ⟨ho, hcm⟩
      · rw [readDeferred_some ho (by
          cases hn : w.isNone
          · rfl
          · exact absurd (isNone_iff.1 hn) hwn)] at h2
        exact h2
      · rw [readDeferred_committed (Or.inl ho), hcm] at h2; exact h2
    | cons c cs ih =>
      intro d s hsim hc ho
      exact ih _ _ (hsim.step c (hc c (by simp)).1) (fun c' h' => hc c' (by simp [h']))
        (keeps_step hwn _ (hc c (by simp)).2 ho)
  obtain ⟨u, h2, h3⟩ := key cs d' _ hsim' hc (Or.inl (by simp [Maps.write]))
  exact ⟨w, u, hw, by rw [(Driver.get_frame _ k).2]; exact h2, h3⟩

/-- The call makes uncommitted changes permanent. -/
def Spec.Persists : Call → Prop
  | .commit | .hardApply _ => True
  | _ => False

/-- **C16, deletions.** After an accepted `delete(k)` and any further calls that neither write `k` nor
discard changes: while none of them was a commit or hard apply, a read of `k` still gives the committed
value; once one of them was, it gives `None`. -/
theorem C16_delete {d : Driver} (hr : Spec.Reachable d) {m m' : Meter} {d' : Driver} {k : Str}
    (hk : PlainKey k) (h : d.delete m k = (.ok (), m', d')) (cs : List Call) (hc : ∀ c ∈ cs, c.OK ∧ Spec.Keeps k c) :
    ((∀ c ∈ cs, ¬ Spec.Persists c) →
      ∃ c u, d.disk.get (locOf k) = .ok c ∧ ((Spec.after d' cs).get k).1 = .ok u ∧ PyEq c u) ∧
    ((∃ c ∈ cs, Spec.Persists c) → ((Spec.after d' cs).get k).1 = .ok .none) := by
  obtain ⟨s, hsim⟩ := hr.sim
  have h1 := hsim.set (m := m) (v := .none) (txn := false) hk trivial
  rw [show d.set m k .none false = _ from h] at h1
  obtain ⟨w, hw, hsim'⟩ := h1
  cases hw
  have hgone : ∀ (cs : List Call) (d : Driver) (s : Maps), Sim d s → (∀ c ∈ cs, c.OK ∧ Spec.Keeps k c) →
      s.overlay k = none → s.committed k = .none → (Spec.after d cs).find k = .ok .none := by
    intro cs
    induction cs with
    | nil =>
      intro d s hsim _ ho hcm
      obtain ⟨u, h1, h2⟩ := hsim.find hk
      rw [readDeferred_committed (Or.inl ho), hcm] at h2
      rw [show (Spec.after d []).find k = .ok u from h1, h2.none_eq]
    | cons c cs ih =>
      intro d s hsim hc ho hcm
      refine ih _ _ (hsim.step c (hc c (by simp)).1) (fun c' h' => hc c' (by simp [h'])) ?_ ?_
      · have hkc := (hc c (by simp)).2
        cases c <;> simp only [Maps.step, Maps.persist, Maps.discard] <;> try exact ho
        · split
          · split
            · simp only [Maps.write]; rw [if_neg (Ne.symm hkc)]; exact ho
            · exact ho
          · exact ho
        · split
          · simp only [Maps.write]; rw [if_neg (Ne.symm hkc)]; exact ho
          · exact ho
      · cases c <;> simp only [Maps.step, Maps.persist, Maps.discard, Maps.write] <;> try exact hcm
        · split
          · split <;> exact hcm
          · exact hcm
        · split <;> exact hcm
        · rw [read_eq' ho]; exact hcm
        · rw [read_eq' ho]; exact hcm
  have key : ∀ (cs : List Call) (d : Driver) (s : Maps), Sim d s → (∀ c ∈ cs, c.OK ∧ Spec.Keeps k c) →
      s.overlay k = some .none →
      ((∀ c ∈ cs, ¬ Spec.Persists c) → ∃ u, (Spec.after d cs).find k = .ok u ∧ PyEq (s.committed k) u) ∧
      ((∃ c ∈ cs, Spec.Persists c) → (Spec.after d cs).find k = .ok .none) := by
    intro cs
    induction cs with
    | nil =>
      intro d s hsim _ ho
      refine ⟨fun _ => ?_, fun ⟨c, h, _⟩ => by cases h⟩
      obtain ⟨u, h1, h2⟩ := hsim.find hk
      rw [readDeferred_committed (Or.inr ho)] at h2
      exact ⟨u, h1, h2⟩
    | cons c cs ih =>
      intro d s hsim hc ho
      have hst := hsim.step c (hc c (by simp)).1
      have hrest : ∀ c' ∈ cs, c'.OK ∧ Spec.Keeps k c' := fun c' h' => hc c' (by simp [h'])
      by_cases hp : Spec.Persists c
      · refine ⟨fun hn => absurd hp (hn c (by simp)), fun _ => ?_⟩
        have e : (s.step (Spec.accepted (c.run d)) c) = s.persist := by
          cases c <;> first | exact absurd hp id | rfl
        rw [e] at hst
        exact hgone cs _ _ hst hrest rfl (read_eq ho)
      · have hkc := (hc c (by simp)).2
        have e : (s.step (Spec.accepted (c.run d)) c).overlay k = some .none ∧
            (s.step (Spec.accepted (c.run d)) c).committed k = s.committed k := by
          cases c <;> dsimp only [Maps.step] <;> first
            | exact absurd trivial hp
            | exact ⟨ho, rfl⟩
            | exact absurd hkc id
            | skip
          · split
            · split
              · exact ⟨by simp only [Maps.write]; rw [if_neg (Ne.symm hkc)]; exact ho, rfl⟩
              · exact ⟨ho, rfl⟩
            · exact ⟨ho, rfl⟩
          · split
            · exact ⟨by simp only [Maps.write]; rw [if_neg (Ne.symm hkc)]; exact ho, rfl⟩
            · exact ⟨ho, rfl⟩
        obtain ⟨i1, i2⟩ := ih _ _ hst hrest e.1
        rw [e.2] at i1
        refine ⟨fun hn => i1 (fun c' h' => hn c' (by simp [h'])), fun ⟨c', h', hp'⟩ => i2 ?_⟩
        rcases List.mem_cons.1 h' with rfl | h'
        · exact absurd hp' hp
        · exact ⟨c', h', hp'⟩
  obtain ⟨k1, k2⟩ := key cs d' _ hsim' hc (by simp [Maps.write])
  refine ⟨fun hn => ?_, fun hp => by rw [(Driver.get_frame _ k).2]; exact k2 hp⟩
  obtain ⟨u, hu, hpe⟩ := k1 hn
  obtain ⟨c, hcd, hpc⟩ := hsim.disk k hk
  exact ⟨c, u, hcd, by rw [(Driver.get_frame _ k).2]; exact hu, hpc.symm.trans hpe⟩

/-- **C16, bypassing the cache.** A driver with `bypass_cache` reads what is on disk, whatever was written. -/
theorem C16_bypass {d : Driver} (hb : d.bypass = true) (k : Str) : (d.get k).1 = d.disk.get (locOf k) := by
  rw [(Driver.get_frame d k).2]
  simp [Driver.find, hb, Driver.fromDisk]

/-- Hypotheses met: a deletion of a committed key, before and after the next commit. -/
example : let d := Spec.after (.open []) [.set {} kA (.int 5) true, .commit]
    ∃ d', d.delete {} kA = (.ok (), {}, d') ∧ ((Spec.after d' [.set {} kB (.int 1) true]).get kA).1 = .ok (.int 5) ∧
      ((Spec.after d' [.set {} kB (.int 1) true, .commit]).get kA).1 = .ok .none :=
  ⟨_, rfl, rfl, rfl⟩

/-- **C16, the unrestricted claim fails.** (1) A deletion is invisible: with 5 committed, `delete` then `get` gives 5.
(2) With `bypass_cache` a write is invisible. -/
theorem C16_refuted :
    (let d : Driver := { disk := [(locOf kA, { value := some (py! "5") })] }
     (d.delete {} kA).1 = .ok () ∧ ((d.delete {} kA).2.2.get kA).1 = .ok (.int 5)) ∧
    (let d : Driver := { bypass := true }
     (d.set {} kA (.int 5) true).1 = .ok () ∧ ((d.set {} kA (.int 5) true).2.2.get kA).1 = .ok .none) := by
  refine ⟨⟨rfl, rfl⟩, ⟨rfl, rfl⟩⟩

/-- Hypotheses met: a write, a hard apply, an eviction of everything and a commit in between. -/
example : ((Spec.after (Driver.open []) [.set {} kA (.int 5) true, .hardApply 1, .evict (fun _ => false),
    .set {} kB (.int 6) true, .commit]).get kA).1 = .ok (.int 5) := by rfl

/-! ### C17: the pair of maps -/

/-- **C17.** After every history, every read of a plain key returns what the pair of maps gives
when deletions show at the next commit or hard apply. (Reads inside the history are covered because
every prefix of a history is a history.) -/
theorem C17_refines {disk : Disk} (h : Readable disk) (cs : List Call) (hc : ∀ c ∈ cs, c.OK) {k : Str}
    (hk : PlainKey k) :
    ∃ w, ((Spec.after (.open disk) cs).get k).1 = .ok w ∧
      PyEq (((Maps.ofDisk disk).after (.open disk) cs).readDeferred k) w := by
  obtain ⟨w, h1, h2⟩ := ((Sim.init h).after cs hc).find hk
  exact ⟨w, by rw [(Driver.get_frame _ k).2]; exact h1, h2⟩

/-- Not a deletion. -/
def Spec.NoDelete : Call → Prop
  | .set _ _ v _ => v ≠ .none
  | .delete _ _ => False
  | _ => True

theorem noDelete_step {s : Maps} (b : Bool) {c : Call} (hc : Spec.NoDelete c) (h : ∀ k, s.overlay k ≠ some .none) :
    ∀ k, (s.step b c).overlay k ≠ some .none := by
  cases c with
  | set m k' v txn =>
    simp only [Maps.step]
    split
    · split
      · rename_i w hw
        intro k
        simp only [Maps.write]
        split
        · intro hn; cases hn; exact hc (normValue_none hw rfl)
        · exact h k
      · exact h
    · exact h
  | delete m k' => exact absurd hc (by simp [Spec.NoDelete])
  | commit => intro k; simp [Maps.step, Maps.persist]
  | hardApply n => intro k; simp [Maps.step, Maps.persist]
  | rollback => intro k; simp [Maps.step, Maps.discard]
  | flushCache => intro k; simp [Maps.step, Maps.discard]
  | rollbackTo n => exact h
  | get k => exact h
  | items p => exact h
  | evict keep => exact h

/-- **C17.** For histories without deletions the pair of maps is matched exactly. -/
theorem C17_no_delete {disk : Disk} (h : Readable disk) (cs : List Call)
    (hc : ∀ c ∈ cs, c.OK ∧ Spec.NoDelete c) {k : Str} (hk : PlainKey k) :
    ∃ w, ((Spec.after (.open disk) cs).get k).1 = .ok w ∧
      PyEq (((Maps.ofDisk disk).after (.open disk) cs).read k) w := by
  obtain ⟨w, h1, h2⟩ := C17_refines h cs (fun c h' => (hc c h').1) hk
  refine ⟨w, h1, ?_⟩
  have key : ∀ (cs : List Call) (d : Driver) (s : Maps), (∀ c ∈ cs, Spec.NoDelete c) → (∀ k, s.overlay k ≠ some .none) →
      ∀ k, (s.after d cs).overlay k ≠ some .none := by
    intro cs
    induction cs with
    | nil => exact fun _ _ _ h => h
    | cons c cs ih =>
      exact fun d s hc h => ih _ _ (fun c' h' => hc c' (by simp [h'])) (noDelete_step _ (hc c (by simp)) h)
  have hn := key cs (.open disk) (.ofDisk disk) (fun c h' => (hc c h').2) (fun _ => by simp [Maps.ofDisk]) k
  have : ((Maps.ofDisk disk).after (.open disk) cs).readDeferred k = ((Maps.ofDisk disk).after (.open disk) cs).read k := by
    generalize (Maps.ofDisk disk).after (.open disk) cs = s at *
    cases ho : s.overlay k with
    | none => rw [readDeferred_committed (Or.inl ho), read_eq' ho]
    | some v =>
      rw [readDeferred_some ho (by
        cases hv : v.isNone
        · rfl
        · rw [isNone_iff.1 hv] at ho; exact absurd ho hn), read_eq ho]
  rwa [this] at h2

/-- **C17.** In reachable states commit and hard_apply never raise, and set/delete are accepted or
rejected on the value, the key and the meter alone. -/
theorem C17_total {d : Driver} (hr : Spec.Reachable d) (n : Int) (m : Meter) (k : Str) (v : PyVal) (txn : Bool) :
    d.commit.1 = .ok () ∧ (d.hardApply n).1 = .ok () ∧ (∃ w, (d.get k).1 = .ok w) ∧
    (d.set m k v txn).1.isOk = setAccepts m k v := by
  obtain ⟨s, hs⟩ := hr.sim
  obtain ⟨_, h1, _⟩ := hs.commit
  obtain ⟨_, h2, _⟩ := hs.hardApply n
  obtain ⟨w, h3⟩ := hs.find_any k
  exact ⟨by rw [h1], by rw [h2], ⟨w, by rw [(Driver.get_frame d k).2]; exact h3⟩, hs.set_accepts m k v txn⟩

/-- **C17, deletions are not visible at once.** Write 5, commit, delete: the driver still reads 5, the maps say `None`. -/
theorem C17_refuted : let cs : List Call := [.set {} kA (.int 5) true, .commit, .delete {} kA]
    ((Spec.after (.open []) cs).get kA).1 = .ok (.int 5) ∧
    ((Maps.ofDisk []).after (.open []) cs).read kA = .none := by
  exact ⟨rfl, rfl⟩

/-- Hypotheses met: a history with all kinds of calls. -/
example : ∀ c ∈ ([.set {} kA (.int 5) true, .hardApply 7, .get kB, .delete {} kA, .rollback,
    .set {} kB (.dec ⟨false, 15, -1⟩) true, .evict (fun _ => false), .commit, .flushCache] : List Call), c.OK := by
  intro c hc
  simp only [List.mem_cons, List.not_mem_nil, or_false] at hc
  rcases hc with rfl | rfl | rfl | rfl | rfl | rfl | rfl | rfl | rfl <;>
    simp only [Call.OK, Storable, plain_kA, plain_kB, true_and, and_true]
  exact ⟨⟨false, 15, -1⟩, by decide +kernel⟩

/-! ### C18: commit is durable -/

/-- **C18.** `commit` succeeds; a fresh driver on the directory then reads, for every key, `None` if the
key was deleted and otherwise the value the committing driver read before; and so does the committing
driver itself. -/
theorem C18_commit_durable {d : Driver} (hr : Spec.Reachable d) :
    ∃ d', d.commit = (.ok (), d') ∧ d'.pendingWrites = [] ∧ ∀ k, PlainKey k →
      ∃ w, ((Driver.open d'.disk).get k).1 = .ok w ∧ (d'.get k).1 = .ok w ∧
        (Dict.get? d.pendingWrites k = some .none → w = .none) ∧
        (Dict.get? d.pendingWrites k ≠ some .none → ∃ v, (d.get k).1 = .ok v ∧ PyEq v w) := by
  obtain ⟨s, hs⟩ := hr.sim
  obtain ⟨d', h1, h2⟩ := hs.commit
  have hd' : d'.pendingWrites = [] ∧ d'.cache = [] := by
    unfold Driver.commit at h1
    rcases hl : Driver.commitLoop d.disk d.pendingWrites with ⟨r, disk'⟩
    rw [hl] at h1
    cases r <;> cases h1
    exact ⟨rfl, rfl⟩
  refine ⟨d', h1, hd'.1, fun k hk => ?_⟩
  obtain ⟨w, hw, hp⟩ := h2.disk k hk
  have hp : PyEq (s.read k) w := hp
  refine ⟨w, ?_, ?_, ?_, ?_⟩
  · rw [(Driver.get_frame _ k).2]; exact hw
  · rw [(Driver.get_frame _ k).2]
    unfold Driver.find Driver.fromDisk
    simp [h2.bypass, hd', dget, PyVal.isNone, hw]
  · intro ho
    rw [read_eq (by rw [hs.overlay]; exact ho)] at hp
    exact hp.none_eq
  · intro ho
    obtain ⟨v, hv, hpv⟩ := hs.find hk
    refine ⟨v, by rw [(Driver.get_frame _ k).2]; exact hv, ?_⟩
    cases hov : s.overlay k with
    | none =>
      rw [readDeferred_committed (Or.inl hov)] at hpv
      rw [read_eq' hov] at hp
      exact hpv.symm.trans hp
    | some u =>
      have hu : u.isNone = false := by
        cases hn : u.isNone
        · rfl
        · rw [isNone_iff.1 hn, hs.overlay] at hov; exact absurd hov ho
      rw [readDeferred_some hov hu] at hpv
      rw [read_eq hov] at hp
      exact hpv.symm.trans hp

/-- Reached: one committed, one deleted key. -/
example : Spec.Reachable (Spec.after (.open []) [.set {} kA (.int 5) true, .commit, .delete {} kA, .set {} kB (.int 1) true]) :=
  ⟨[], _, readable_nil, by
    intro c hc
    simp only [List.mem_cons, List.not_mem_nil, or_false] at hc
    rcases hc with rfl | rfl | rfl | rfl <;> simp only [Call.OK, Storable, plain_kA, plain_kB, and_true], rfl⟩

/-! ### C19: rollback() -/

/-- **C19.** In every state whatever, after `rollback()` each read returns what is on disk, the disk is as
before, nothing is pending, and a commit writes nothing. -/
theorem C19_rollback (d : Driver) :
    (∀ k, (d.rollback.get k).1 = d.disk.get (locOf k)) ∧ d.rollback.disk = d.disk ∧ d.rollback.pendingWrites = [] ∧
    d.rollback.pendingReads = [] ∧ d.rollback.commit.2.disk = d.disk := by
  refine ⟨fun k => ?_, rfl, rfl, rfl, rfl⟩
  rw [(Driver.get_frame _ k).2]
  unfold Driver.find Driver.rollback Driver.fromDisk
  simp [dget, PyVal.isNone]

example : ((Spec.after (.open []) [.set {} kA (.int 5) true, .hardApply 1, .set {} kA (.int 6) true, .rollback]).get kA).1
    = .ok (.int 5) := by rfl

/-! ### C20: rollback(nanos) -/

/-- **C20, nothing is undone.** Hard-apply 1 at stamp 1 and 2 at stamp 2, then `rollback(2)`: the read still
gives 2. -/
theorem C20_refuted :
    ((Spec.after (.open []) [.set {} kA (.int 1) true, .hardApply 1, .set {} kA (.int 2) true, .hardApply 2,
      .rollbackTo 2]).get kA).1 = .ok (.int 2) := by rfl

/-- **C20.** In every reachable state `rollback(nanos)` changes nothing at all, because a successful
`hard_apply` leaves no delta behind. -/
theorem C20_noop {d : Driver} (hr : Spec.Reachable d) (n : Int) : d.rollbackTo n = d := by
  obtain ⟨s, hs⟩ := hr.sim
  exact rollbackTo_id hs.deltas n

/-! ### C21: hard_apply -/

/-- **C21.** `hard_apply(n)` succeeds; each pending key then has on disk its pending value (nothing when
deleted) with block stamp `n`; every other place keeps value and stamp; nothing is left pending; and
reads of keys that were not deleted are unchanged, while deleted keys read `None`. -/
theorem C21_hard_apply {d : Driver} (hr : Spec.Reachable d) (n : Int) :
    ∃ d', d.hardApply n = (.ok (), d') ∧ d'.pendingWrites = [] ∧ d'.pendingDeltas = [] ∧
      (∀ k v, Dict.get? d.pendingWrites k = some v → d'.disk.getBlock (locOf k) = some n ∧
        (v = .none → (d'.disk.attrs (locOf k)).value = none) ∧ ∃ w, d'.disk.get (locOf k) = .ok w ∧ PyEq v w) ∧
      (∀ l, (∀ k v, Dict.get? d.pendingWrites k = some v → locOf k ≠ l) → d'.disk.attrs l = d.disk.attrs l) ∧
      (∀ k, PlainKey k → (Dict.get? d.pendingWrites k ≠ some .none →
          ∃ v w, (d.get k).1 = .ok v ∧ (d'.get k).1 = .ok w ∧ PyEq v w) ∧
        (Dict.get? d.pendingWrites k = some .none → (d'.get k).1 = .ok .none)) := by
  obtain ⟨s, hs⟩ := hr.sim
  obtain ⟨disk', h1, h2, h3⟩ := hs.hardApply_disk n
  obtain ⟨d', g1, g2⟩ := hs.hardApply n
  rw [h1] at g1; cases g1
  refine ⟨_, h1, rfl, rfl, ?_, ?_, ?_⟩
  · intro k v hv
    exact h3 (k, v) (Dict.mem_of_get? hv)
  · intro l hl
    exact h2 l (fun p hp => hl p.1 p.2 (Dict.get?_of_mem hs.wf hp))
  · intro k hk
    obtain ⟨v, hv, hpv⟩ := hs.find hk
    obtain ⟨w, hw, hpw⟩ := g2.find hk
    rw [readDeferred_committed (Or.inl rfl)] at hpw
    have hpw : PyEq (s.read k) w := hpw
    refine ⟨fun ho => ⟨v, w, ?_, ?_, ?_⟩, fun ho => ?_⟩
    · rw [(Driver.get_frame _ k).2]; exact hv
    · rw [(Driver.get_frame _ k).2]; exact hw
    · cases hov : s.overlay k with
      | none =>
        rw [readDeferred_committed (Or.inl hov)] at hpv
        rw [read_eq' hov] at hpw
        exact hpv.symm.trans hpw
      | some u =>
        have hu : u.isNone = false := by
          cases hn : u.isNone
          · rfl
          · rw [isNone_iff.1 hn, hs.overlay] at hov; exact absurd hov ho
        rw [readDeferred_some hov hu] at hpv
        rw [read_eq hov] at hpw
        exact hpv.symm.trans hpw
    · rw [(Driver.get_frame _ k).2, hw]
      rw [read_eq (by rw [hs.overlay]; exact ho)] at hpw
      rw [hpw.none_eq]

example : let d := (Spec.after (.open []) [.set {} kA (.int 1) true, .commit, .set {} kB (.int 2) true, .delete {} kA, .hardApply 9])
    d.disk.getBlock (locOf kB) = some 9 ∧ d.disk.getBlock (locOf kA) = some 9 ∧ (d.get kA).1 = .ok .none ∧ (d.get kB).1 = .ok (.int 2) := by
  refine ⟨?_, ?_, ?_, ?_⟩ <;> rfl

/-! ### C22: prefix listing -/

/-- **C22, listings do not agree with reads.** (1) A committed entry is not listed although it can be read. (2) After a hard
apply of 1 and a new write of 2 the listing shows 1 while a read gives 2. -/
theorem C22_refuted :
    (let d := Spec.after (.open []) [.set {} kA (.int 5) true, .commit]
     (d.get kA).1 = .ok (.int 5) ∧ ((HashVar.make (py! "currency") (py! "balances")).items d []).1 = .ok []) ∧
    (let d := Spec.after (.open []) [.set {} kA (.int 1) true, .hardApply 1, .set {} kA (.int 2) true]
     (d.get kA).1 = .ok (.int 2) ∧ ((HashVar.make (py! "currency") (py! "balances")).items d []).1 = .ok [(kA, .int 1)]) := by
  refine ⟨⟨rfl, rfl⟩, ⟨rfl, rfl⟩⟩

/-- **C22.** What a listing with a dotted prefix (every Hash listing) contains, exactly: the keys
with the prefix that are cached or pending with a value other than `None`, the cached value taking
precedence; nothing that is only on disk; and it changes nothing. -/
theorem C22_items {disk : Disk} (h : Readable disk) (hp : PlainDisk disk) (cs : List Call) (hc : ∀ c ∈ cs, c.OK)
    {p : Str} (hd : '.' ∈ p) :
    let d := Spec.after (.open disk) cs
    ∃ r, d.items p = (.ok r, d) ∧ ∀ k, Dict.get? r k =
      if startsWith k p = true then
        (if (dget d.cache k).isNone = false then some (dget d.cache k)
         else if (dget d.pendingWrites k).isNone = false then some (dget d.pendingWrites k) else none)
      else none := by
  intro d
  have hs := (Sim.init h).after cs hc
  have hpd := after_plainDisk (Sim.init h) hp cs hc
  unfold Driver.items
  rw [iterFromDisk_nil hpd hd]
  refine ⟨_, rfl, fun k => ?_⟩
  rw [pick_get? p _ hs.cwf, pick_get? p _ hs.wf]
  by_cases h1 : startsWith k p = true
  · simp only [h1, true_and, if_true, Dict.get?_nil]; rfl
  · simp [h1]

/-- **C22.** While nothing is cached (fresh start, after commit, rollback or flush), the listing is
exactly the uncommitted entries with that prefix, with the values `get` returns. -/
theorem C22_uncached {disk : Disk} (h : Readable disk) (hp : PlainDisk disk) (cs : List Call) (hc : ∀ c ∈ cs, c.OK)
    {p : Str} (hd : '.' ∈ p) (hcache : (Spec.after (.open disk) cs).cache = []) :
    let d := Spec.after (.open disk) cs
    ∃ r, (d.items p).1 = .ok r ∧
      ∀ k v, Dict.get? r k = some v ↔ (startsWith k p = true ∧ Dict.get? d.pendingWrites k = some v ∧ v ≠ .none) ∧
        (d.get k).1 = .ok v := by
  intro d
  obtain ⟨r, h1, h2⟩ := C22_items h hp cs hc hd
  have hs := (Sim.init h).after cs hc
  refine ⟨r, by rw [h1], fun k v => ?_⟩
  rw [h2 k]
  simp only [hcache]
  have hnone : (dget ([] : Dict Str PyVal) k).isNone = true := rfl
  rw [(Driver.get_frame d k).2]
  simp only [hnone, Bool.true_eq_false, if_false]
  constructor
  · intro hv
    by_cases hsw : startsWith k p = true
    · rw [if_pos hsw] at hv
      split at hv
      · rename_i hn
        cases hv
        have hne : ¬ (dget d.pendingWrites k).isNone = true := by simpa using hn
        obtain ⟨e1, e2⟩ := dget_some hne
        refine ⟨⟨hsw, e1, fun he => ?_⟩, ?_⟩
        · rw [he] at e2; cases e2
        · unfold Driver.find
          simp only [hs.bypass, Bool.false_eq_true, if_false, d, if_neg hne]
      · cases hv
    · rw [if_neg hsw] at hv; cases hv
  · rintro ⟨⟨h3, h4, h5⟩, _⟩
    rw [if_pos h3]
    have : dget d.pendingWrites k = v := by unfold dget; rw [h4]; rfl
    rw [this, if_pos]
    cases hn : v.isNone
    · rfl
    · exact absurd (isNone_iff.1 hn) h5

example : ((HashVar.make (py! "currency") (py! "balances")).items
    (Spec.after (.open []) [.set {} kA (.int 1) true, .set {} kB (.int 2) true, .delete {} kA]) []).1 = .ok [(kB, .int 2)] := by rfl

/-! ### C23: rejected writes -/

/-- **C23.** A write that raises leaves the driver exactly as it was, except that a float that cannot be
made a decimal (NaN, infinities, ...) leaves it as a read of the key would: only the read record can
differ. In all cases pending and transaction writes, disk, cache, events and all visible values are as before. -/
theorem C23_rejected {m m' : Meter} {d d' : Driver} {k : Str} {v : PyVal} {txn : Bool} {e : PyErr}
    (h : d.set m k v txn = (.error e, m', d')) :
    (d' = d ∨ ((∃ t, v = .flt t) ∧ normValue v = .error e ∧ d' = (d.get k).2)) ∧
    d'.pendingWrites = d.pendingWrites ∧ d'.txWrites = d.txWrites ∧ d'.disk = d.disk ∧ d'.cache = d.cache ∧
    d'.events = d.events ∧ (∀ k', d'.find k' = d.find k') := by
  obtain ⟨h1, h2⟩ := Driver.set_error h
  refine ⟨?_, ?_, ?_, ?_, ?_, ?_, fun k' => ?_⟩
  · by_cases hf : ∃ t, v = .flt t
    · unfold Driver.set at h
      split at h
      · cases h; exact Or.inl rfl
      split at h
      · cases h; exact Or.inl rfl
      by_cases hr : (dget d.pendingReads k).isNone = true
      · rw [if_pos hr] at h
        rcases hg : d.get k with ⟨r, d1⟩
        rw [hg] at h
        cases r with
        | error e1 =>
          cases h
          refine Or.inl ?_
          unfold Driver.get at hg
          split at hg <;> cases hg
          rfl
        | ok u =>
          simp only at h
          split at h
          · rename_i hn
            cases h
            exact Or.inr ⟨hf, hn, rfl⟩
          · cases h
      · rw [if_neg hr] at h
        simp only at h
        split at h
        · cases h; exact Or.inl rfl
        · cases h
    · exact Or.inl (h2 fun t ht => hf ⟨t, ht⟩)
  · rw [h1]
  · rw [h1]
  · rw [h1]
  · rw [h1]
  · rw [h1]
  · rw [h1]; exact Driver.find_congr rfl rfl rfl rfl k'

/-- **C23, the read record can change.** `set(k, nan)` raises and leaves a new read record behind. -/
theorem C23_refuted : ∃ e m' d', (Driver.open []).set {} kA (.flt .nan) true = (.error e, m', d') ∧
    Dict.get? d'.pendingReads kA = some .none ∧ Dict.get? (Driver.open []).pendingReads kA = none :=
  ⟨.invalidOperation, {}, { pendingReads := [(kA, .none)] }, rfl, rfl, rfl⟩

/-- Somewhere inside the value there is an object that JSON has no form for. -/
inductive Spec.HasObject : PyVal → Prop where
  | obj (tag : Nat) : Spec.HasObject (.obj tag)
  | list {x : PyVal} {xs : List PyVal} : x ∈ xs → Spec.HasObject x → Spec.HasObject (.list xs)
  | tuple {x : PyVal} {xs : List PyVal} : x ∈ xs → Spec.HasObject x → Spec.HasObject (.tuple xs)
  | dict {k : PyKey} {x : PyVal} {kvs : List (PyKey × PyVal)} : (k, x) ∈ kvs → Spec.HasObject x → Spec.HasObject (.dict kvs)

theorem toJsonList_error : ∀ {xs : List PyVal} {x : PyVal}, x ∈ xs → (∃ e, toJson x = .error e) → ∃ e, toJsonList xs = .error e := by
  intro xs
  induction xs with
  | nil => intro x hx; cases hx
  | cons y ys ih =>
    intro x hx ⟨e, he⟩
    unfold toJsonList
    cases hy : toJson y with
    | error e' => exact ⟨e', rfl⟩
    | ok j =>
      rcases List.mem_cons.1 hx with rfl | hx
      · rw [he] at hy; cases hy
      · obtain ⟨e', h'⟩ := ih hx ⟨e, he⟩
        exact ⟨e', by rw [h']; rfl⟩

theorem toJsonItems_error : ∀ {kvs : List (PyKey × PyVal)} {k : PyKey} {x : PyVal}, (k, x) ∈ kvs → (∃ e, toJson x = .error e) →
    ∃ e, toJsonItems kvs = .error e := by
  intro kvs
  induction kvs with
  | nil => intro k x hx; cases hx
  | cons p ys ih =>
    obtain ⟨k', y⟩ := p
    intro k x hx ⟨e, he⟩
    unfold toJsonItems
    cases hy : toJson y with
    | error e' => exact ⟨e', rfl⟩
    | ok j =>
      rcases List.mem_cons.1 hx with h | hx
      · cases h; rw [he] at hy; cases hy
      · obtain ⟨e', h'⟩ := ih hx ⟨e, he⟩
        exact ⟨e', by rw [h']; rfl⟩

theorem toJson_object {v : PyVal} (h : Spec.HasObject v) : ∃ e, toJson v = .error e := by
  induction h with
  | obj t => exact ⟨.typeError, by unfold toJson; rfl⟩
  | list hx _ ih => obtain ⟨e, he⟩ := toJsonList_error hx ih; exact ⟨e, by unfold toJson; rw [he]; rfl⟩
  | tuple hx _ ih => obtain ⟨e, he⟩ := toJsonList_error hx ih; exact ⟨e, by unfold toJson; rw [he]; rfl⟩
  | dict hx _ ih => obtain ⟨e, he⟩ := toJsonItems_error hx ih; exact ⟨e, by unfold toJson; rw [he]; rfl⟩

/-- What `encode_ints` rewrites keeps its objects. -/
theorem encodeIntsItems_mem {kvs : List (PyKey × PyVal)} {k : PyKey} {x : PyVal} (h : (k, x) ∈ kvs) : (k, encodeIntsVal x) ∈ encodeIntsItems kvs := by
  induction kvs with
  | nil => cases h
  | cons p kvs ih =>
    obtain ⟨k', y⟩ := p
    unfold encodeIntsItems
    rcases List.mem_cons.1 h with h | h
    · cases h; exact List.mem_cons_self
    · exact List.mem_cons_of_mem _ (ih h)

theorem encodeIntsList_mem {xs : List PyVal} {x : PyVal} (h : x ∈ xs) (hx : Spec.HasObject x) (hd : ∀ kvs, x = .dict kvs → Spec.HasObject (.dict (encodeIntsItems kvs))) :
    ∃ y ∈ encodeIntsList xs, Spec.HasObject y := by
  induction xs with
  | nil => cases h
  | cons y ys ih =>
    rcases List.mem_cons.1 h with rfl | h
    · cases x
      case int => cases hx
      case dict kvs => exact ⟨_, by unfold encodeIntsList; exact List.mem_cons_self, hd _ rfl⟩
      all_goals exact ⟨_, by unfold encodeIntsList; exact List.mem_cons_self, hx⟩
    · obtain ⟨z, hz, ho⟩ := ih h
      refine ⟨z, ?_, ho⟩
      cases y <;> (unfold encodeIntsList; exact List.mem_cons_of_mem _ hz)

theorem encodeIntsVal_object {v : PyVal} (h : Spec.HasObject v) : Spec.HasObject (encodeIntsVal v) := by
  induction h with
  | obj t => unfold encodeIntsVal; exact .obj t
  | list hx h ih =>
    unfold encodeIntsVal
    obtain ⟨y, hy, ho⟩ := encodeIntsList_mem hx h fun kvs e => by
      subst e
      unfold encodeIntsVal at ih
      exact ih
    exact .list hy ho
  | tuple hx h ih => unfold encodeIntsVal; exact .tuple hx h
  | dict hx h ih => unfold encodeIntsVal; exact .dict (encodeIntsItems_mem hx) ih

theorem encode_object {v : PyVal} (h : Spec.HasObject v) : ∃ e, encode v = .error e := by
  have hp : Spec.HasObject (preEncode v) := by
    cases h with
    | obj t => exact .obj t
    | list hx h => exact .list hx h
    | tuple hx h => exact .tuple hx h
    | dict hx h => exact .dict (encodeIntsItems_mem hx) (encodeIntsVal_object h)
  obtain ⟨e, he⟩ := toJson_object hp
  exact ⟨e, by unfold encode; rw [he]; rfl⟩

/-- **C23, objects.** A value with an object somewhere in it that JSON has no form for is never stored: the write raises,
costs nothing and changes nothing. -/
theorem C23_object {v : PyVal} (h : Spec.HasObject v) (m : Meter) (d : Driver) (k : Str) (txn : Bool) :
    ∃ e, d.set m k v txn = (.error e, m, d) := by
  obtain ⟨e, he⟩ := encode_object h
  exact ⟨e, by unfold Driver.set; rw [he]⟩

/-- Hypotheses met: an object in a list in a dict. -/
example : Spec.HasObject (.dict [(.str kA, .list [.int 1, .obj 7])]) :=
  .dict (List.mem_singleton.2 rfl) (.list (x := .obj 7) (by simp) (.obj 7))

/-- Hypotheses met: an unserialisable object and the write cap. -/
example : ∃ e, ((Driver.open []).set {} kA (.obj 1) true).1 = .error e := ⟨_, rfl⟩
example : ((Driver.open []).set { started := true, supplied := 100000000, writes := 131071 } kA (.int 1) true).1 = .error .assertion := by rfl

/-! ### C24: recorded reads -/

/-- **C24.** In every reachable state, whatever is recorded for a key with a committed value is that
committed value; and every key with an uncommitted write, and every key just read, is recorded. -/
theorem C24_reads {d : Driver} (hr : Spec.Reachable d) {k : Str} (hk : PlainKey k) :
    (∀ u c, Dict.get? d.pendingReads k = some u → d.disk.get (locOf k) = .ok c → c ≠ .none → PyEq c u) ∧
    (∀ v, Dict.get? d.pendingWrites k = some v → ∃ u, Dict.get? d.pendingReads k = some u) ∧
    (∃ u, Dict.get? (d.get k).2.pendingReads k = some u) := by
  obtain ⟨s, hs⟩ := hr.sim
  refine ⟨fun u c hu hc hn => ?_, fun v hv => hs.recorded k v hv, ?_⟩
  · obtain ⟨w, hw, hp⟩ := hs.disk k hk
    rw [hc] at hw; cases hw
    rcases hs.reads k u hk hu with h | h
    · exact hp.symm.trans h
    · rw [h] at hp; exact absurd hp.none_eq hn
  · unfold Driver.get
    obtain ⟨w, hw⟩ := hs.find_any k
    rw [hw]
    simp only
    split
    · exact ⟨w, by simp⟩
    · rename_i hr
      exact ⟨_, (dget_some hr).1⟩

theorem firstSeen_snoc (xs : List PyVal) (v : PyVal) :
    Spec.firstSeen (xs ++ [v]) = if ((Spec.firstSeen xs).getD .none).isNone = true then some v else Spec.firstSeen xs := by
  unfold Spec.firstSeen
  cases xs with
  | nil =>
    simp only [List.nil_append, Option.getD_none, PyVal.isNone, if_true]
    cases hv : v.isNone
    · cases v <;> first | (cases hv; done) | rfl
    · have : v = .none := isNone_iff.1 hv
      subst this; rfl
  | cons x xs =>
    simp only [List.cons_append]
    rw [show x :: (xs ++ [v]) = (x :: xs) ++ [v] from rfl, List.find?_append]
    cases hf : (x :: xs).find? (fun v => !v.isNone) with
    | some w =>
      have hw := List.find?_some hf
      simp only [Option.some_or, Option.getD_some]
      rw [if_neg (by simpa using hw)]
    | none =>
      simp only [Option.none_or, Option.getD_none, Option.getD_some, PyVal.isNone, if_true]
      cases hv : v.isNone
      · cases v <;> first | (cases hv; done) | rfl
      · have : v = .none := isNone_iff.1 hv
        subst this; rfl

theorem get_record (d : Driver) (k k' : Str) {w : PyVal} (hw : d.find k' = .ok w) :
    Dict.get? (d.get k').2.pendingReads k =
      if k' = k ∧ (dget d.pendingReads k).isNone = true then some w else Dict.get? d.pendingReads k := by
  unfold Driver.get
  rw [hw]
  simp only
  by_cases hk : k' = k
  · subst hk
    by_cases hr : (dget d.pendingReads k').isNone = true
    · rw [if_pos hr, if_pos ⟨rfl, hr⟩]; simp
    · rw [if_neg hr, if_neg (fun h => hr h.2)]
  · rw [if_neg (c := k' = k ∧ _) (fun h => hk h.1)]
    split
    · simp only; rw [Dict.get?_set_ne _ _ hk]
    · rfl

theorem set_record (d : Driver) (m : Meter) (k k' : Str) (v : PyVal) (txn : Bool) {w : PyVal} (hw : d.find k' = .ok w) :
    Dict.get? (d.set m k' v txn).2.2.pendingReads k =
      if (k' = k ∧ Spec.reaches m k' v = true) ∧ (dget d.pendingReads k).isNone = true then some w
      else Dict.get? d.pendingReads k := by
  unfold Driver.set Spec.reaches
  cases he : encode v with
  | error e => simp
  | ok t =>
    simp only
    obtain ⟨r, m1, hm⟩ : ∃ r m1, m.deductWrite (utf8Len k' + t.length) = (r, m1) := ⟨_, _, rfl⟩
    simp only [hm]
    cases r with
    | error e => simp [Except.isOk, Except.toBool]
    | ok u =>
      simp only [Except.isOk, Except.toBool, and_true]
      have hg := get_record d k k' hw
      have hg1 : (d.get k').1 = .ok w := by rw [(Driver.get_frame d k').2]; exact hw
      by_cases hr : (dget d.pendingReads k').isNone = true
      · rw [if_pos hr]
        rcases hgd : d.get k' with ⟨r, d1⟩
        rw [hgd] at hg hg1
        simp only at hg1
        subst hg1
        simp only
        split <;> exact hg
      · rw [if_neg hr]
        simp only
        by_cases hk : k' = k
        · subst hk
          rw [if_neg (fun h => hr h.2)]
          split <;> rfl
        · rw [if_neg (fun h => hk h.1)]
          split <;> rfl

theorem itemsFromDisk_record (k : Str) (ks : List Str) (hk : k ∉ ks) : ∀ (d : Driver) (acc : Dict Str PyVal),
    Dict.get? (d.itemsFromDisk acc ks).2.pendingReads k = Dict.get? d.pendingReads k := by
  induction ks with
  | nil => exact fun _ _ => rfl
  | cons k' ks ih =>
    intro d acc
    simp only [List.mem_cons, not_or] at hk
    unfold Driver.itemsFromDisk
    have hg : Dict.get? (d.get k').2.pendingReads k = Dict.get? d.pendingReads k := by
      unfold Driver.get
      split
      · rfl
      · simp only
        split
        · simp only; rw [Dict.get?_set_ne _ _ (Ne.symm hk.1)]
        · rfl
    rcases hgd : d.get k' with ⟨r, d1⟩
    rw [hgd] at hg
    cases r with
    | error e => exact hg
    | ok v => simp only; rw [ih hk.2]; exact hg

theorem iterFromDisk_plain {d : Driver} (hp : PlainDisk d.disk) {p k : Str} (hk : PlainKey k) : k ∉ d.iterFromDisk p := by
  intro hg
  unfold Driver.iterFromDisk at hg
  have hg := (List.mem_filter.1 hg).1
  unfold Disk.groups at hg
  rw [List.mem_dedup] at hg
  obtain ⟨q, hq, hh⟩ := List.mem_filterMap.1 hg
  obtain ⟨hq1, _⟩ := List.mem_filter.1 hq
  obtain ⟨k', ⟨c, n, comps, hc, hn, hx, rfl⟩, hl⟩ := hp q.1 (List.mem_map.2 ⟨q, hq1, rfl⟩)
  rw [locOf_stateKey hc hn hx] at hl
  rw [hl] at hh
  simp at hh
  subst hh
  obtain ⟨c', n', comps', _, _, _, rfl⟩ := hk
  exact hn.2.1 (by simp [Spec.stateKey])

/-- **C24, exactly.** After any history on a directory of plain keys, what is recorded for a key is the
first value other than `None` that a read showed at an access (read or write) of the key since the
last commit, hard apply, rollback or flush; `None` if all of them showed `None`; nothing without an access. -/
theorem C24_recorded {disk : Disk} (h : Readable disk) (hp : PlainDisk disk) (cs : List Call) (hc : ∀ c ∈ cs, c.OK)
    {k : Str} (hk : PlainKey k) :
    Dict.get? (Spec.after (.open disk) cs).pendingReads k = Spec.firstSeen (Spec.seen k (.open disk) cs []) := by
  have key : ∀ (cs : List Call) (d : Driver) (s : Maps) (acc : List PyVal), Sim d s → PlainDisk d.disk → (∀ c ∈ cs, c.OK) →
      Dict.get? d.pendingReads k = Spec.firstSeen acc →
      Dict.get? (Spec.after d cs).pendingReads k = Spec.firstSeen (Spec.seen k d cs acc) := by
    intro cs
    induction cs with
    | nil => exact fun _ _ _ _ _ _ h => h
    | cons c cs ih =>
      intro d s acc hs hp hc ha
      have hd : dget d.pendingReads k = (Spec.firstSeen acc).getD .none := by unfold dget; rw [ha]
      refine ih _ _ _ (hs.step c (hc c (by simp))) (step_plainDisk hs hp c) (fun c' h' => hc c' (by simp [h'])) ?_
      have hacc : ∀ (b : Bool) (k' : Str) (x : Option PyVal),
          (x = if (k' = k ∧ b = true) ∧ (dget d.pendingReads k).isNone = true then
            some (Spec.shown d k') else Dict.get? d.pendingReads k) →
          x = Spec.firstSeen (if k' = k ∧ b = true then acc ++ [Spec.shown d k'] else acc) := by
        intro b k' x hx
        rw [hx]
        by_cases hb : k' = k ∧ b = true
        · rw [if_pos hb, firstSeen_snoc, ← hd]
          simp only [hb, true_and, and_self]
          split
          · rfl
          · exact ha
        · rw [if_neg hb, if_neg (fun h => hb h.1)]; exact ha
      cases c with
      | get k' =>
        obtain ⟨w, hw⟩ := hs.find_any k'
        have := hacc true k' (Dict.get? (d.get k').2.pendingReads k) (by
          rw [get_record d k k' hw, Spec.shown, hw]; simp)
        simpa [Spec.seenStep, Call.run] using this
      | set m k' v txn =>
        obtain ⟨w, hw⟩ := hs.find_any k'
        have := hacc (Spec.reaches m k' v) k' (Dict.get? (d.set m k' v txn).2.2.pendingReads k) (by
          rw [set_record d m k k' v txn hw, Spec.shown, hw])
        simpa [Spec.seenStep, Call.run] using this
      | delete m k' =>
        obtain ⟨w, hw⟩ := hs.find_any k'
        have := hacc (Spec.reaches m k' .none) k' (Dict.get? (d.set m k' .none false).2.2.pendingReads k) (by
          rw [set_record d m k k' .none false hw, Spec.shown, hw])
        simpa [Spec.seenStep, Call.run, Driver.delete] using this
      | items p =>
        simp only [Spec.seenStep, Call.run, Driver.items]
        rw [itemsFromDisk_record k _ (fun h => iterFromDisk_plain hp hk (List.mem_filter.1 h).1)]
        exact ha
      | commit =>
        obtain ⟨d', h1, _⟩ := hs.commit
        have : d'.pendingReads = [] := by
          unfold Driver.commit at h1
          split at h1 <;> cases h1
          rfl
        simp only [Spec.seenStep, Call.run, h1, this]
        rfl
      | hardApply n =>
        have : (d.hardApply n).2.pendingReads = [] := by
          unfold Driver.hardApply
          simp only
          split <;> rfl
        simp only [Spec.seenStep, Call.run, this]
        rfl
      | rollback => rfl
      | rollbackTo n => simp only [Spec.seenStep, Call.run, rollbackTo_id hs.deltas]; exact ha
      | flushCache => rfl
      | evict keep => exact ha
  exact key cs _ _ [] (Sim.init h) hp hc rfl

/-- Hypotheses met: written twice, then read; the record is the first value seen. -/
example : Spec.seen kA (.open []) [.set {} kA (.int 1) true, .get kA, .set {} kA (.int 2) true, .get kA] [] =
    [.none, .int 1, .int 1, .int 2] := by rfl

/-- **C24, not always the committed value.** A key that does not exist is written (1) and read: the recorded "previous" value
is 1, not `None`. -/
theorem C24_refuted :
    let d := Spec.after (.open []) [.set {} kA (.int 1) true, .get kA]
    Dict.get? d.pendingReads kA = some (.int 1) ∧ d.disk.get (locOf kA) = .ok .none := by
  exact ⟨rfl, rfl⟩

example : let d := Spec.after (.open []) [.set {} kA (.int 1) true, .commit, .set {} kA (.int 2) true, .get kA]
    Dict.get? d.pendingReads kA = some (.int 1) := by rfl

/-! ### C25: crash during commit -/

theorem crash_loop (ps : List (Str × PyVal)) : ∀ (disk : Disk) (n : Nat), (∀ p ∈ ps, PlainKey p.1 ∧ Storable p.2) → Dict.WF ps →
    ∃ done rest, ps = done ++ rest ∧
      (∀ p ∈ done, ∃ w, (disk.applyAll ((Driver.commitTrace disk ps).take n)).get (locOf p.1) = .ok w ∧ PyEq p.2 w) ∧
      (∀ l, (∀ p ∈ done, locOf p.1 ≠ l) → (∀ p, rest.head? = some p → locOf p.1 ≠ l) →
        (disk.applyAll ((Driver.commitTrace disk ps).take n)).attrs l = disk.attrs l) ∧
      (∀ p, rest.head? = some p →
        (disk.applyAll ((Driver.commitTrace disk ps).take n)).get (locOf p.1) = disk.get (locOf p.1) ∨
        (disk.applyAll ((Driver.commitTrace disk ps).take n)).get (locOf p.1) = .ok .none ∨
        ∃ w, (disk.applyAll ((Driver.commitTrace disk ps).take n)).get (locOf p.1) = .ok w ∧ PyEq p.2 w) := by
  induction ps with
  | nil => intro disk n _ _; exact ⟨[], [], rfl, by simp, by simp [Driver.commitTrace, Disk.applyAll], by simp⟩
  | cons p ps ih =>
    intro disk n hok hwf
    obtain ⟨k, v⟩ := p
    obtain ⟨hk, hv⟩ := hok (k, v) (by simp)
    obtain ⟨ops, h1, h2, h3⟩ := commitKeyOps_ok hv disk k
    simp only [Dict.WF, Dict.keys, List.map_cons, List.nodup_cons] at hwf
    have htr : Driver.commitTrace disk ((k, v) :: ps) = ops ++ Driver.commitTrace (disk.applyAll ops) ps := by
      simp only [Driver.commitTrace, h1]
    rw [htr]
    by_cases hn : n ≤ ops.length
    · rw [List.take_append_of_le_length hn]
      refine ⟨[], (k, v) :: ps, rfl, by simp, ?_, ?_⟩
      · intro l _ hl
        have hl := hl (k, v) rfl
        exact Disk.attrs_applyAll_ne _ _ (fun op hop => by
          rw [Driver.commitKeyOps_loc h1 op (List.mem_of_mem_take hop)]; exact hl)
      · rintro p hp
        simp at hp; subst hp
        rcases keyOps_prefix h1 n with h | h | h
        · left; unfold Disk.get; rw [h]
        · right; left; unfold Disk.get; rw [h]
        · right; right
          obtain ⟨w, hw, hp⟩ := h3
          exact ⟨w, by rw [← hw]; unfold Disk.get; rw [h], hp⟩
    · have hn : ops.length < n := by omega
      have htk : (ops ++ Driver.commitTrace (disk.applyAll ops) ps).take n =
          ops ++ (Driver.commitTrace (disk.applyAll ops) ps).take (n - ops.length) := by
        rw [List.take_append, List.take_of_length_le (by omega)]
      have hap : ∀ xs, disk.applyAll (ops ++ xs) = (disk.applyAll ops).applyAll xs := fun xs => by
        unfold Disk.applyAll; rw [List.foldl_append]
      rw [htk, hap]
      obtain ⟨done, rest, e1, e2, e3, e4⟩ := ih (disk.applyAll ops) (n - ops.length) (fun p hp => hok p (by simp [hp])) hwf.2
      have hne : ∀ p ∈ ps, locOf p.1 ≠ locOf k := by
        intro p hp he
        exact hwf.1 (List.mem_map.2 ⟨p, hp, locOf_inj (hok p (by simp [hp])).1 hk he⟩)
      refine ⟨(k, v) :: done, rest, by rw [e1]; rfl, ?_, ?_, ?_⟩
      · intro p hp
        rcases List.mem_cons.1 hp with rfl | hp
        · have := e3 (locOf k) (fun p hp => hne p (by rw [e1]; simp [hp]))
            (fun p hp => hne p (by rw [e1]; simp [List.mem_of_mem_head? hp]))
          obtain ⟨w, hw, hpe⟩ := h3
          exact ⟨w, by rw [Disk.get_congr this]; exact hw, hpe⟩
        · exact e2 p hp
      · intro l hl hl'
        rw [e3 l (fun p hp => hl p (by simp [hp])) hl']
        exact Disk.attrs_applyAll_ne _ _ (fun op hop => by
          rw [Driver.commitKeyOps_loc h1 op hop]; exact hl (k, v) (by simp))
      · intro p hp
        have hpm : p ∈ ps := by rw [e1]; simp [List.mem_of_mem_head? hp]
        rcases e4 p hp with h | h | h
        · left
          rw [h]
          exact Disk.get_congr (Disk.attrs_applyAll_ne _ _ (fun op hop => by
            rw [Driver.commitKeyOps_loc h1 op hop]; exact (hne p hpm).symm))
        · exact Or.inr (Or.inl h)
        · exact Or.inr (Or.inr h)

/-- The disk if the process dies after `n` elementary operations of `commit`. -/
def Spec.crashed (d : Driver) (n : Nat) : Disk := d.disk.applyAll ((Driver.commitTrace d.disk d.pendingWrites).take n)

/-- **C25.** Let the process die after any number `n` of elementary disk operations of `commit`. In write
order, a first group of keys has its new value; at most one key (the next) has its old value, no value,
or its new value; every other place on disk is exactly as before. All `n` large enough give the
completed commit. -/
theorem C25_crash_prefix {d : Driver} (hr : Spec.Reachable d) (n : Nat) :
    ∃ done rest, d.pendingWrites = done ++ rest ∧
      (∀ p ∈ done, ∃ w, (Spec.crashed d n).get (locOf p.1) = .ok w ∧ PyEq p.2 w) ∧
      (∀ p, rest.head? = some p → (Spec.crashed d n).get (locOf p.1) = d.disk.get (locOf p.1) ∨
        (Spec.crashed d n).get (locOf p.1) = .ok .none ∨
        ∃ w, (Spec.crashed d n).get (locOf p.1) = .ok w ∧ PyEq p.2 w) ∧
      (∀ l, (∀ p ∈ done, locOf p.1 ≠ l) → (∀ p, rest.head? = some p → locOf p.1 ≠ l) →
        (Spec.crashed d n).attrs l = d.disk.attrs l) := by
  obtain ⟨s, hs⟩ := hr.sim
  obtain ⟨done, rest, h1, h2, h3, h4⟩ := crash_loop d.pendingWrites d.disk n hs.pend_mem hs.wf
  exact ⟨done, rest, h1, h2, h4, h3⟩

theorem C25_crash_complete {d : Driver} (hr : Spec.Reachable d) {n : Nat}
    (hn : (Driver.commitTrace d.disk d.pendingWrites).length ≤ n) :
    ∃ d', d.commit = (.ok (), d') ∧ Spec.crashed d n = d'.disk := by
  obtain ⟨s, hs⟩ := hr.sim
  obtain ⟨disk', h1, _⟩ := commitLoop_ok d.pendingWrites d.disk hs.pend_mem hs.wf
  refine ⟨_, by unfold Driver.commit; rw [h1], ?_⟩
  unfold Spec.crashed
  rw [List.take_of_length_le hn, commitLoop_trace _ _ _ h1]

theorem commit_of_loop {d : Driver} {disk' : Disk} (h : Driver.commitLoop d.disk d.pendingWrites = (.ok (), disk')) :
    d.commit = (.ok (), { d with disk := disk', cache := [], pendingWrites := [], pendingReads := [] }) := by
  unfold Driver.commit; rw [h]

/-- **C25.** Redoing the same writes on whatever the crash left reaches, for every key, the value the
uninterrupted commit would have stored. -/
theorem C25_redo {d : Driver} (hr : Spec.Reachable d) (n : Nat) :
    ∃ d1 d2, d.commit = (.ok (), d1) ∧
      ({ Driver.open (Spec.crashed d n) with pendingWrites := d.pendingWrites }).commit = (.ok (), d2) ∧
      ∀ k, PlainKey k → ∃ v w, d1.disk.get (locOf k) = .ok v ∧ d2.disk.get (locOf k) = .ok w ∧ PyEq v w := by
  obtain ⟨s, hs⟩ := hr.sim
  obtain ⟨disk1, a1, a2, a3⟩ := commitLoop_ok d.pendingWrites d.disk hs.pend_mem hs.wf
  obtain ⟨disk2, b1, b2, b3⟩ := commitLoop_ok d.pendingWrites (Spec.crashed d n) hs.pend_mem hs.wf
  obtain ⟨done, rest, c1, _, _, c3⟩ := C25_crash_prefix hr n
  refine ⟨_, _, commit_of_loop a1, commit_of_loop (d := { Driver.open (Spec.crashed d n) with pendingWrites := d.pendingWrites }) b1, fun k hk => ?_⟩
  by_cases hm : ∃ p ∈ d.pendingWrites, p.1 = k
  · obtain ⟨p, hp, rfl⟩ := hm
    obtain ⟨v, hv, hpv⟩ := (a3 p hp).2
    obtain ⟨w, hw, hpw⟩ := (b3 p hp).2
    exact ⟨v, w, hv, hw, hpv.symm.trans hpw⟩
  · push Not at hm
    have hl : ∀ p ∈ d.pendingWrites, locOf p.1 ≠ locOf k := fun p hp he =>
      hm p hp (locOf_inj (hs.pend_mem p hp).1 hk he)
    have e0 : (Spec.crashed d n).attrs (locOf k) = d.disk.attrs (locOf k) :=
      c3 _ (fun p hp => hl p (by rw [c1]; simp [hp])) (fun p hp => hl p (by rw [c1]; simp [List.mem_of_mem_head? hp]))
    obtain ⟨w, hw, _⟩ := hs.disk k hk
    refine ⟨w, w, ?_, ?_, PyEq.refl w⟩
    · rw [Disk.get_congr (a2 _ hl)]; exact hw
    · simp only; rw [Disk.get_congr (b2 _ hl), Disk.get_congr e0]; exact hw

/-- The in-between state really occurs: dying after two operations loses the old value. -/
example : let d := Spec.after (.open []) [.set {} kA (.int 1) true, .commit, .set {} kA (.int 2) true, .set {} kB (.int 3) true]
    (Spec.crashed d 2).get (locOf kA) = .ok .none ∧ (Spec.crashed d 3).get (locOf kA) = .ok (.int 2) ∧
    (Spec.crashed d 3).get (locOf kB) = .ok .none ∧ (Spec.crashed d 1).get (locOf kA) = .ok (.int 1) := by
  refine ⟨?_, ?_, ?_, ?_⟩ <;> rfl

/-! ### C26: eviction -/

/-- **C26.** Evicting any cache entries in any reachable state changes no read. -/
theorem C26_evict {d : Driver} (hr : Spec.Reachable d) (keep : Str → Bool) {k : Str} (hk : PlainKey k) :
    ∃ v w, (d.get k).1 = .ok v ∧ ((d.evict keep).get k).1 = .ok w ∧ PyEq v w := by
  obtain ⟨s, hs⟩ := hr.sim
  obtain ⟨v, h1, h2⟩ := hs.find hk
  obtain ⟨w, h3, h4⟩ := (hs.evict keep).find hk
  exact ⟨v, w, by rw [(Driver.get_frame _ k).2]; exact h1, by rw [(Driver.get_frame _ k).2]; exact h3, h2.symm.trans h4⟩

/-- **C26.** A history with evictions anywhere ends in the same visible state as the history without them. -/
theorem C26_evict_history {disk : Disk} (h : Readable disk) (cs : List Call) (hc : ∀ c ∈ cs, c.OK) {k : Str} (hk : PlainKey k) :
    ∃ v w, ((Spec.after (.open disk) cs).get k).1 = .ok v ∧
      ((Spec.after (.open disk) (cs.filter fun c => !c.isEvict)).get k).1 = .ok w ∧ PyEq v w := by
  have hc' : ∀ c ∈ cs.filter fun c => !c.isEvict, c.OK := fun c h' => hc c (List.mem_filter.1 h').1
  obtain ⟨v, h1, h2⟩ := C17_refines h cs hc hk
  obtain ⟨w, h3, h4⟩ := C17_refines h _ hc' hk
  rw [(Sim.init h).after_pure cs hc] at h2
  rw [(Sim.init h).after_pure _ hc', pureAfter_evict] at h4
  exact ⟨v, w, h1, h3, h2.symm.trans h4⟩

/-- Outside the storable values it fails: a tuple hard-applied reads back as a tuple until the cache entry
expires, then as a list. -/
theorem C26_tuple_refuted : let d := Spec.after (.open []) [.set {} kA (.tuple [.int 1]) true, .hardApply 1]
    (d.get kA).1 = .ok (.tuple [.int 1]) ∧ ((d.evict fun _ => false).get kA).1 = .ok (.list [.int 1]) := by
  exact ⟨rfl, rfl⟩

end Verif
