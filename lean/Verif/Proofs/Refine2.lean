import Verif.Proofs.Refine
/-! # Consequences of the simulation: acceptance, eviction, listing, crashes -/
namespace Verif
open Spec (Call Maps PlainKey Readable)

/-! ### Acceptance does not depend on the state -/

/-- Does `set` accept this value with this meter? -/
def setAccepts (m : Meter) (k : Str) (v : PyVal) : Bool :=
  match encode v with
  | .error _ => false
  | .ok t =>
    match m.deductWrite (utf8Len k + t.length) with
    | (.error _, _) => false
    | (.ok _, _) => match normValue v with
      | .ok _ => true
      | .error _ => false

theorem Sim.set_accepts {d : Driver} {s : Maps} (h : Sim d s) (m : Meter) (k : Str) (v : PyVal) (txn : Bool) :
    (d.set m k v txn).1.isOk = setAccepts m k v := by
  unfold Driver.set setAccepts
  cases he : encode v with
  | error e => rfl
  | ok text =>
    simp only
    rcases hm : m.deductWrite (utf8Len k + text.length) with ⟨r, m1⟩
    cases r with
    | error e => rfl
    | ok u =>
      simp only
      by_cases hr : (dget d.pendingReads k).isNone = true
      · rw [if_pos hr]
        obtain ⟨u, hu⟩ := h.find_any k
        have hg : d.get k = (.ok u, { d with pendingReads := Dict.set d.pendingReads k u }) := by
          unfold Driver.get; rw [hu]; simp only [hr, if_true]
        rw [hg]
        simp only
        cases hn : normValue v <;> rfl
      · rw [if_neg hr]
        simp only
        cases hn : normValue v <;> rfl

/-- Step of the maps with acceptance computed from the call alone. -/
def pureStep (s : Maps) (c : Call) : Maps :=
  match c with
  | .set m k v _ => s.step (setAccepts m k v) c
  | .delete m k => s.step (setAccepts m k .none) c
  | c => s.step true c

/-- Maps after a history, computed without the driver. -/
def pureAfter (s : Maps) : List Call → Maps
  | [] => s
  | c :: cs => pureAfter (pureStep s c) cs

theorem Sim.step_pure {d : Driver} {s : Maps} (h : Sim d s) (c : Call) :
    s.step (Spec.accepted (c.run d)) c = pureStep s c := by
  cases c with
  | set m k v txn =>
    simp only [pureStep, Call.run, accepted_map]
    rw [h.set_accepts]
  | delete m k =>
    simp only [pureStep, Call.run, accepted_map, Driver.delete]
    rw [h.set_accepts]
  | _ => rfl

theorem Sim.after_pure {d : Driver} {s : Maps} (h : Sim d s) (cs : List Call) (hc : ∀ c ∈ cs, c.OK) :
    s.after d cs = pureAfter s cs := by
  induction cs generalizing d s with
  | nil => rfl
  | cons c cs ih =>
    have h1 := ih (h.step c (hc c (by simp))) (fun c' h' => hc c' (by simp [h']))
    show Maps.after (s.step _ c) _ cs = _
    rw [h1, h.step_pure]; rfl

theorem pureAfter_evict (s : Maps) (cs : List Call) : pureAfter s (cs.filter fun c => !c.isEvict) = pureAfter s cs := by
  induction cs generalizing s with
  | nil => rfl
  | cons c cs ih =>
    by_cases h : c.isEvict = true
    · rw [List.filter_cons_of_neg (by simp [h]), ih]
      cases c <;> simp only [Call.isEvict, Bool.false_eq_true] at h
      rfl
    · rw [List.filter_cons_of_pos (by simp [h])]
      exact ih _

/-! ### Listing -/

theorem mem_keys_set {κ α : Type} [DecidableEq κ] {d : Dict κ α} {k a : κ} {v : α} (h : a ∈ Dict.keys (Dict.set d k v)) :
    a ∈ Dict.keys d ∨ a = k := by
  rw [Dict.keys_set] at h
  split at h
  · exact Or.inl h
  · rcases List.mem_append.1 h with h | h
    · exact Or.inl h
    · simp at h; exact Or.inr h

theorem keys_applyAll {disk : Disk} {ops : List DiskOp} {l : Loc} (h : l ∈ Dict.keys (disk.applyAll ops)) :
    l ∈ Dict.keys disk ∨ ∃ op ∈ ops, op.loc = l := by
  induction ops generalizing disk with
  | nil => exact Or.inl h
  | cons op ops ih =>
    rcases ih (disk := disk.apply op) h with h1 | ⟨o, ho, he⟩
    · have : l ∈ Dict.keys disk ∨ l = op.loc := by
        cases op <;> exact mem_keys_set h1
      rcases this with h2 | h2
      · exact Or.inl h2
      · exact Or.inr ⟨op, by simp, h2.symm⟩
    · exact Or.inr ⟨o, by simp [ho], he⟩

/-- All groups on disk belong to plain keys. -/
def PlainDisk (disk : Disk) : Prop := ∀ l ∈ Dict.keys disk, ∃ k, PlainKey k ∧ l = locOf k

theorem commitLoop_plain (ps : List (Str × PyVal)) (hk : ∀ p ∈ ps, PlainKey p.1) : ∀ (disk : Disk), PlainDisk disk →
    PlainDisk (Driver.commitLoop disk ps).2 := by
  induction ps with
  | nil => exact fun disk h => h
  | cons p ps ih =>
    intro disk h
    obtain ⟨k, v⟩ := p
    unfold Driver.commitLoop
    cases ho : Driver.commitKeyOps disk k v with
    | error e => exact h
    | ok ops =>
      refine ih (fun p hp => hk p (by simp [hp])) _ (fun l hl => ?_)
      rcases keys_applyAll hl with h1 | ⟨o, h1, h2⟩
      · exact h l h1
      · exact ⟨k, hk (k, v) (by simp), by rw [← h2]; exact Driver.commitKeyOps_loc ho o h1⟩

theorem applyWrites_plain (n : Int) (ps : List (Str × (PyVal × PyVal))) (hk : ∀ p ∈ ps, PlainKey p.1) :
    ∀ (disk : Disk), PlainDisk disk → PlainDisk (Driver.applyWrites disk n ps).2 := by
  induction ps with
  | nil => exact fun disk h => h
  | cons p ps ih =>
    intro disk h
    obtain ⟨k, o, v⟩ := p
    unfold Driver.applyWrites
    cases ho : Disk.setValueOps (locOf k) v (some n) with
    | error e => exact h
    | ok ops =>
      refine ih (fun p hp => hk p (by simp [hp])) _ (fun l hl => ?_)
      rcases keys_applyAll hl with h1 | ⟨o', h1, h2⟩
      · exact h l h1
      · exact ⟨k, hk (k, o, v) (by simp), by rw [← h2]; exact Disk.setValueOps_loc ho o' h1⟩

theorem step_plainDisk {d : Driver} {s : Maps} (h : Sim d s) (hp : PlainDisk d.disk) (c : Call) :
    PlainDisk (c.run d).2.disk := by
  cases c with
  | set m k v txn => simp only [Call.run]; rw [(Driver.set_frame m d k v txn).1]; exact hp
  | delete m k => simp only [Call.run, Driver.delete]; rw [(Driver.set_frame m d k .none false).1]; exact hp
  | get k => simp only [Call.run]; rw [(Driver.get_frame d k).1]; exact hp
  | items p =>
    simp only [Call.run, Driver.items]
    have : ∀ (ks : List Str) (d : Driver) (acc : Dict Str PyVal), (d.itemsFromDisk acc ks).2.disk = d.disk := by
      intro ks
      induction ks with
      | nil => exact fun _ _ => rfl
      | cons k ks ih =>
        intro d acc
        unfold Driver.itemsFromDisk
        have hf := congrArg Driver.disk (Driver.get_frame d k).1
        rcases hg : d.get k with ⟨r, d'⟩
        rw [hg] at hf
        cases r with
        | error e => exact hf
        | ok v => simp only; rw [ih]; exact hf
    rw [this]; exact hp
  | commit =>
    have := commitLoop_plain d.pendingWrites (fun p hp => (h.pend_mem p hp).1) d.disk hp
    simp only [Call.run, Driver.commit]
    rcases hl : Driver.commitLoop d.disk d.pendingWrites with ⟨r, disk'⟩
    rw [hl] at this
    cases r <;> exact this
  | hardApply n =>
    have := applyWrites_plain n (d.pendingWrites.map fun kv => (kv.1, dget d.pendingReads kv.1, kv.2))
      (fun p hp => by obtain ⟨q, hq, rfl⟩ := List.mem_map.1 hp; exact (h.pend_mem q hq).1) d.disk hp
    simp only [Call.run]
    rcases hl : Driver.applyWrites d.disk n (d.pendingWrites.map fun kv => (kv.1, dget d.pendingReads kv.1, kv.2)) with ⟨r, disk'⟩
    rw [hl] at this
    cases r with
    | ok u => rw [hardApply_eq n h.deltas hl]; exact this
    | error e =>
      unfold Driver.hardApply
      simp only [h.deltas, Dict.set, Driver.sortDeltas, List.foldr, Driver.insertSorted, Driver.applyDeltas, hl]
      exact this
  | rollback => exact hp
  | rollbackTo n => exact hp
  | flushCache => exact hp
  | evict keep => exact hp

theorem after_plainDisk {d : Driver} {s : Maps} (h : Sim d s) (hp : PlainDisk d.disk) (cs : List Call) (hc : ∀ c ∈ cs, c.OK) :
    PlainDisk (Spec.after d cs).disk := by
  induction cs generalizing d s with
  | nil => exact hp
  | cons c cs ih =>
    exact ih (h.step c (hc c (by simp))) (step_plainDisk h hp c) (fun c' h' => hc c' (by simp [h']))

/-- A prefix with a dot finds nothing on disk. -/
theorem iterFromDisk_nil {d : Driver} (hp : PlainDisk d.disk) {p : Str} (hd : '.' ∈ p) : d.iterFromDisk p = [] := by
  unfold Driver.iterFromDisk
  rw [List.filter_eq_nil_iff]
  intro g hg hs
  unfold Disk.groups at hg
  rw [List.mem_dedup] at hg
  obtain ⟨q, hq, hh⟩ := List.mem_filterMap.1 hg
  obtain ⟨hq1, _⟩ := List.mem_filter.1 hq
  obtain ⟨k, ⟨c, n, comps, hc, hn, hx, rfl⟩, hl⟩ := hp q.1 (List.mem_map.2 ⟨q, hq1, rfl⟩)
  rw [locOf_stateKey hc hn hx] at hl
  rw [hl] at hh
  simp at hh
  subst hh
  have : p <+: n := List.isPrefixOf_iff_prefix.1 hs
  exact hn.2.1 (this.subset hd)

theorem pick_get? (p : Str) (xs : Dict Str PyVal) (hwf : Dict.WF xs) : ∀ (acc : Dict Str PyVal) (k : Str),
    Dict.get? (xs.foldl (fun (acc : Dict Str PyVal) (kv : Str × PyVal) =>
        if startsWith kv.1 p ∧ kv.2.isNone = false then Dict.set acc kv.1 kv.2 else acc) acc) k =
      if startsWith k p = true ∧ (dget xs k).isNone = false then some (dget xs k) else Dict.get? acc k := by
  induction xs with
  | nil => intro acc k; simp [dget, PyVal.isNone]
  | cons x xs ih =>
    intro acc k
    obtain ⟨k0, v0⟩ := x
    simp only [Dict.WF, Dict.keys, List.map_cons, List.nodup_cons] at hwf
    rw [List.foldl_cons, ih hwf.2]
    by_cases he : k0 = k
    · subst he
      have hn : Dict.get? xs k0 = none := Dict.get?_eq_none_iff.2 hwf.1
      have h1 : dget xs k0 = .none := by unfold dget; rw [hn]; rfl
      have h2 : dget ((k0, v0) :: xs) k0 = v0 := by unfold dget; rw [Dict.get?_cons, if_pos rfl]; rfl
      rw [h1, h2]
      rw [if_neg (by simp [PyVal.isNone])]
      simp only
      by_cases hc : startsWith k0 p = true ∧ v0.isNone = false
      · rw [if_pos hc, if_pos hc]; simp
      · rw [if_neg hc, if_neg hc]
    · have h2 : dget ((k0, v0) :: xs) k = dget xs k := by unfold dget; rw [Dict.get?_cons, if_neg he]
      rw [h2]
      split
      · rfl
      · split
        · rw [Dict.get?_set_ne _ _ he]
        · rfl

/-! ### Crashes -/

theorem commitLoop_trace (ps : List (Str × PyVal)) : ∀ (disk disk' : Disk), Driver.commitLoop disk ps = (.ok (), disk') →
    disk.applyAll (Driver.commitTrace disk ps) = disk' := by
  induction ps with
  | nil => intro disk disk' h; cases h; rfl
  | cons p ps ih =>
    intro disk disk' h
    obtain ⟨k, v⟩ := p
    unfold Driver.commitLoop at h
    unfold Driver.commitTrace
    cases ho : Driver.commitKeyOps disk k v with
    | error e => rw [ho] at h; cases h
    | ok ops =>
      rw [ho] at h
      simp only at h ⊢
      unfold Disk.applyAll
      rw [List.foldl_append]
      exact ih _ _ h

/-- Value attribute after any prefix of one key's operations. -/
theorem keyOps_prefix {disk : Disk} {k : Str} {v : PyVal} {ops : List DiskOp}
    (h : Driver.commitKeyOps disk k v = .ok ops) (n : Nat) :
    (Disk.attrs (disk.applyAll (ops.take n)) (locOf k)).value = (disk.attrs (locOf k)).value ∨
    (Disk.attrs (disk.applyAll (ops.take n)) (locOf k)).value = none ∨
    (Disk.attrs (disk.applyAll (ops.take n)) (locOf k)).value = (Disk.attrs (disk.applyAll ops) (locOf k)).value := by
  have hset : ∀ (t : Option Str) (b : Int), ops = Disk.setOps (locOf k) t b → 
    (Disk.attrs (disk.applyAll (ops.take n)) (locOf k)).value = (disk.attrs (locOf k)).value ∨
    (Disk.attrs (disk.applyAll (ops.take n)) (locOf k)).value = none ∨
    (Disk.attrs (disk.applyAll (ops.take n)) (locOf k)).value = (Disk.attrs (disk.applyAll ops) (locOf k)).value := by
    rintro t b rfl
    cases t with
    | none =>
      match n with
      | 0 => exact Or.inl rfl
      | 1 => left; simp [Disk.setOps, Disk.applyAll, Disk.apply, Disk.attrs_set]
      | 2 | 3 | 4 => right; left; simp [Disk.setOps, Disk.applyAll, Disk.apply, Disk.attrs_set]
      | n + 5 => right; right; rw [List.take_of_length_le (by simp [Disk.setOps])]
    | some t =>
      match n with
      | 0 => exact Or.inl rfl
      | 1 => left; simp [Disk.setOps, Disk.applyAll, Disk.apply, Disk.attrs_set]
      | 2 => right; left; simp [Disk.setOps, Disk.applyAll, Disk.apply, Disk.attrs_set]
      | 3 | 4 | 5 => right; right; simp [Disk.setOps, Disk.applyAll, Disk.apply, Disk.attrs_set]
      | n + 6 => right; right; rw [List.take_of_length_le (by simp [Disk.setOps])]
  unfold Driver.commitKeyOps at h
  split at h
  · cases h
    unfold Disk.deleteOps
    split
    · left; simp [Disk.applyAll]
    · match n with
      | 0 => exact Or.inl rfl
      | 1 => right; left; simp [Disk.applyAll, Disk.apply, Disk.attrs_set]
      | n + 2 => right; right; rw [List.take_of_length_le (by simp)]
  · cases v <;> simp only [Disk.setValueOps] at h
    case none => cases h; exact hset _ _ rfl
    all_goals
      revert h
      cases he : encode _ with
      | error e => intro h; cases h
      | ok t => intro h; cases h; exact hset _ _ rfl

end Verif
