import Verif.Proofs.Disk
import Verif.Props.Encoder
import Verif.Spec.Driver
/-! # The driver simulates the pair of maps -/
namespace Verif
open Spec (Call Maps PlainKey Readable)

theorem PyEq.symm {v w : PyVal} (h : PyEq v w) : PyEq w v := PyEq.join w v w (PyEq.refl w) h
theorem PyEq.trans {v w u : PyVal} (h : PyEq v w) (h' : PyEq w u) : PyEq v u := PyEq.join v u w h h'.symm
theorem PyEq.eq_none {v : PyVal} (h : PyEq v .none) : v = .none := by
  cases v <;> simp only [PyEq] at h <;> first | rfl | exact h
theorem PyEq.none_eq {v : PyVal} (h : PyEq .none v) : v = .none := h.symm.eq_none

theorem cdOfStr_isCD {s : Str} {x : Dec} (h : cdOfStr s = .ok x) : IsCD x := by
  unfold cdOfStr at h
  split at h
  · cases h
  · rename_i n _
    cases n with
    | fin d => exact ⟨d, h⟩
    | inf b => cases b <;> simp only [fixPrecisionNum] at h <;> cases h; exact ⟨⟨false, 1, 40⟩, by decide +kernel⟩
    | nan => simp only [fixPrecisionNum] at h; cases h

theorem normValue_storable {v w : PyVal} (hv : Storable v) (h : normValue v = .ok w) : Storable w := by
  unfold normValue at h
  split at h
  · rename_i t
    cases hc : cdOfStr t.text with
    | error e => rw [hc] at h; cases h
    | ok x => rw [hc] at h; cases h; simp only [Storable]; exact cdOfStr_isCD hc
  · cases h; exact hv

theorem normValue_none {v w : PyVal} (h : normValue v = .ok w) (hw : w = .none) : v = .none := by
  unfold normValue at h
  split at h
  · rename_i t
    cases hc : cdOfStr t.text with
    | error e => rw [hc] at h; cases h
    | ok x => rw [hc] at h; cases h; cases hw
  · cases h; exact hw

/-! ### Writing one key -/

theorem setValueOps_ok {v : PyVal} (hv : Storable v) (disk : Disk) (l : Loc) (b : Option Int) :
    ∃ ops, Disk.setValueOps l v b = .ok ops ∧
      (Disk.attrs (disk.applyAll ops) l).block = some (b.getD (-1)) ∧
      (v = .none → (Disk.attrs (disk.applyAll ops) l).value = none) ∧
      ∃ w, (disk.applyAll ops).get l = .ok w ∧ PyEq v w := by
  by_cases h : v = .none
  · subst h
    refine ⟨_, rfl, ?_, fun _ => ?_, .none, ?_, PyEq.refl _⟩
    · rw [Disk.attrs_setOps]
    · rw [Disk.attrs_setOps]
    · unfold Disk.get; rw [Disk.attrs_setOps]
  · obtain ⟨s, w, h1, h2, h3⟩ := C08_roundtrip hv
    have hs : Disk.setValueOps l v b = .ok (Disk.setOps l (some s) (b.getD (-1))) := by
      cases v <;> first | exact absurd rfl h | (simp only [Disk.setValueOps, h1, Except.map])
    refine ⟨_, hs, ?_, fun h' => absurd h' h, w, ?_, h3⟩
    · rw [Disk.attrs_setOps]
    · unfold Disk.get; rw [Disk.attrs_setOps]; exact h2

theorem commitKeyOps_ok {v : PyVal} (hv : Storable v) (disk : Disk) (k : Str) :
    ∃ ops, Driver.commitKeyOps disk k v = .ok ops ∧
      (v = .none → (Disk.attrs (disk.applyAll ops) (locOf k)).value = none) ∧
      ∃ w, (disk.applyAll ops).get (locOf k) = .ok w ∧ PyEq v w := by
  by_cases h : v = .none
  · subst h
    refine ⟨_, rfl, fun _ => Disk.attrs_deleteOps _ _, .none, ?_, PyEq.refl _⟩
    unfold Disk.get; rw [Disk.attrs_deleteOps]
  · obtain ⟨ops, h1, _, _, h2⟩ := setValueOps_ok hv disk (locOf k) none
    refine ⟨ops, ?_, fun h' => absurd h' h, h2⟩
    cases v <;> first | exact absurd rfl h | exact h1

/-! ### The loops -/

theorem commitLoop_ok (ps : List (Str × PyVal)) : ∀ (disk : Disk), (∀ p ∈ ps, PlainKey p.1 ∧ Storable p.2) →
    Dict.WF ps →
    ∃ disk', Driver.commitLoop disk ps = (.ok (), disk') ∧
      (∀ l, (∀ p ∈ ps, locOf p.1 ≠ l) → disk'.attrs l = disk.attrs l) ∧
      (∀ p ∈ ps, (p.2 = .none → (disk'.attrs (locOf p.1)).value = none) ∧
        ∃ w, disk'.get (locOf p.1) = .ok w ∧ PyEq p.2 w) := by
  induction ps with
  | nil => exact fun disk _ _ => ⟨disk, rfl, fun _ _ => rfl, by simp⟩
  | cons p ps ih =>
    intro disk hok hwf
    obtain ⟨k, v⟩ := p
    obtain ⟨hk, hv⟩ := hok (k, v) (by simp)
    obtain ⟨ops, h1, h2, h3⟩ := commitKeyOps_ok hv disk k
    simp only [Dict.WF, Dict.keys, List.map_cons, List.nodup_cons] at hwf
    obtain ⟨disk', i1, i2, i3⟩ := ih (disk.applyAll ops) (fun p hp => hok p (by simp [hp])) hwf.2
    have hne : ∀ p ∈ ps, locOf p.1 ≠ locOf k := by
      intro p hp he
      have := locOf_inj (hok p (by simp [hp])).1 hk he
      exact hwf.1 (List.mem_map.2 ⟨p, hp, this⟩)
    have ha : disk'.attrs (locOf k) = (disk.applyAll ops).attrs (locOf k) := i2 _ hne
    refine ⟨disk', ?_, ?_, ?_⟩
    · simp only [Driver.commitLoop, h1, i1]
    · intro l hl
      rw [i2 l (fun p hp => hl p (by simp [hp]))]
      exact Disk.attrs_applyAll_ne _ _ (fun op hop => by
        rw [Driver.commitKeyOps_loc h1 op hop]; exact hl (k, v) (by simp))
    · intro p hp
      rcases List.mem_cons.1 hp with rfl | hp
      · refine ⟨fun hn => by rw [ha]; exact h2 hn, ?_⟩
        obtain ⟨w, h3, h4⟩ := h3
        exact ⟨w, by rw [Disk.get_congr ha]; exact h3, h4⟩
      · exact i3 p hp

theorem applyWrites_ok (nanos : Int) (ps : List (Str × (PyVal × PyVal))) : ∀ (disk : Disk),
    (∀ p ∈ ps, PlainKey p.1 ∧ Storable p.2.2) → Dict.WF ps →
    ∃ disk', Driver.applyWrites disk nanos ps = (.ok (), disk') ∧
      (∀ l, (∀ p ∈ ps, locOf p.1 ≠ l) → disk'.attrs l = disk.attrs l) ∧
      (∀ p ∈ ps, (disk'.attrs (locOf p.1)).block = some nanos ∧
        (p.2.2 = .none → (disk'.attrs (locOf p.1)).value = none) ∧
        ∃ w, disk'.get (locOf p.1) = .ok w ∧ PyEq p.2.2 w) := by
  induction ps with
  | nil => exact fun disk _ _ => ⟨disk, rfl, fun _ _ => rfl, by simp⟩
  | cons p ps ih =>
    intro disk hok hwf
    obtain ⟨k, o, v⟩ := p
    obtain ⟨hk, hv⟩ := hok (k, o, v) (by simp)
    obtain ⟨ops, h1, hb, h2, h3⟩ := setValueOps_ok hv disk (locOf k) (some nanos)
    simp only [Dict.WF, Dict.keys, List.map_cons, List.nodup_cons] at hwf
    obtain ⟨disk', i1, i2, i3⟩ := ih (disk.applyAll ops) (fun p hp => hok p (by simp [hp])) hwf.2
    have hne : ∀ p ∈ ps, locOf p.1 ≠ locOf k := by
      intro p hp he
      have := locOf_inj (hok p (by simp [hp])).1 hk he
      exact hwf.1 (List.mem_map.2 ⟨p, hp, this⟩)
    have ha : disk'.attrs (locOf k) = (disk.applyAll ops).attrs (locOf k) := i2 _ hne
    refine ⟨disk', ?_, ?_, ?_⟩
    · simp only [Driver.applyWrites, h1, i1]
    · intro l hl
      rw [i2 l (fun p hp => hl p (by simp [hp]))]
      exact Disk.attrs_applyAll_ne _ _ (fun op hop => by
        rw [Disk.setValueOps_loc h1 op hop]; exact hl (k, o, v) (by simp))
    · intro p hp
      rcases List.mem_cons.1 hp with rfl | hp
      · refine ⟨by rw [ha]; exact hb, fun hn => by rw [ha]; exact h2 hn, ?_⟩
        obtain ⟨w, h3, h4⟩ := h3
        exact ⟨w, by rw [Disk.get_congr ha]; exact h3, h4⟩
      · exact i3 p hp

/-- `hard_apply` when no delta is left over (always the case, see `Sim.deltas`). -/
theorem hardApply_eq {d : Driver} (n : Int) (hd : d.pendingDeltas = []) {disk' : Disk}
    (h : Driver.applyWrites d.disk n (d.pendingWrites.map fun kv => (kv.1, dget d.pendingReads kv.1, kv.2)) = (.ok (), disk')) :
    d.hardApply n = (.ok (), { d with
      disk := disk', cache := d.pendingWrites.foldl (fun c kv => Dict.set c kv.1 kv.2) d.cache,
      pendingReads := [], pendingWrites := [], pendingDeltas := [] }) := by
  unfold Driver.hardApply
  simp only [hd, Dict.set, Driver.sortDeltas, List.foldr, Driver.insertSorted, Driver.applyDeltas, h, if_true,
    List.foldl, Dict.erase]

theorem get?_foldl_set (ps : Dict Str PyVal) (hwf : Dict.WF ps) : ∀ (c : Dict Str PyVal) (k : Str),
    Dict.get? (ps.foldl (fun c kv => Dict.set c kv.1 kv.2) c) k =
      match Dict.get? ps k with
      | some v => some v
      | none => Dict.get? c k := by
  induction ps with
  | nil => intro c k; rfl
  | cons p ps ih =>
    intro c k
    obtain ⟨k0, v0⟩ := p
    simp only [Dict.WF, Dict.keys, List.map_cons, List.nodup_cons] at hwf
    rw [List.foldl_cons, ih hwf.2, Dict.get?_cons]
    by_cases h : k0 = k
    · subst h
      have : Dict.get? ps k0 = none := Dict.get?_eq_none_iff.2 hwf.1
      simp [this]
    · simp only [if_neg h, Dict.get?_set_ne _ _ h]

theorem wf_foldl_set (ps : Dict Str PyVal) : ∀ (c : Dict Str PyVal), Dict.WF c →
    Dict.WF (ps.foldl (fun c kv => Dict.set c kv.1 kv.2) c) := by
  induction ps with
  | nil => exact fun c h => h
  | cons p ps ih => exact fun c h => ih _ (h.set p.1 p.2)

theorem get?_filter_key (c : Dict Str PyVal) (keep : Str → Bool) (k : Str) {v : PyVal}
    (h : Dict.get? (c.filter fun kv => keep kv.1) k = some v) : Dict.get? c k = some v := by
  induction c with
  | nil => exact h
  | cons p c ih =>
    obtain ⟨k0, v0⟩ := p
    by_cases hk : keep k0 = true
    · rw [List.filter_cons_of_pos (by simpa using hk)] at h
      rw [Dict.get?_cons] at h ⊢
      by_cases he : k0 = k
      · rw [if_pos he] at h ⊢; exact h
      · rw [if_neg he] at h ⊢; exact ih h
    · rw [List.filter_cons_of_neg (by simpa using hk)] at h
      have := ih h
      rw [Dict.get?_cons]
      by_cases he : k0 = k
      · exfalso
        subst he
        -- no entry of the filtered list has key k0
        have hm := Dict.mem_of_get? h
        have := (List.mem_filter.1 hm).2
        simp only at this
        exact hk this
      · rw [if_neg he]; exact this

/-! ### Simulation -/

/-- Driver state and pair of maps describe the same situation. -/
structure Sim (d : Driver) (s : Maps) : Prop where
  bypass : d.bypass = false
  deltas : d.pendingDeltas = []
  wf : Dict.WF d.pendingWrites
  overlay : ∀ k, s.overlay k = Dict.get? d.pendingWrites k
  pend : ∀ k v, Dict.get? d.pendingWrites k = some v → PlainKey k ∧ Storable v
  readable : Readable d.disk
  disk : ∀ k, PlainKey k → ∃ w, d.disk.get (locOf k) = .ok w ∧ PyEq (s.committed k) w
  cache : ∀ k v, Dict.get? d.cache k = some v → v.isNone = false → PlainKey k ∧ PyEq (s.committed k) v
  cwf : Dict.WF d.cache
  reads : ∀ k u, PlainKey k → Dict.get? d.pendingReads k = some u → PyEq (s.committed k) u ∨ s.committed k = .none
  recorded : ∀ k v, Dict.get? d.pendingWrites k = some v → ∃ u, Dict.get? d.pendingReads k = some u

theorem Sim.init {disk : Disk} (h : Readable disk) : Sim (.open disk) (.ofDisk disk) where
  bypass := rfl
  deltas := rfl
  wf := Dict.WF.nil
  overlay := fun _ => rfl
  pend := fun _ _ h => by cases h
  readable := h
  disk := fun k _ => by
    obtain ⟨w, hw⟩ := h (locOf k)
    refine ⟨w, hw, ?_⟩
    simp only [Maps.ofDisk, hw]
    exact PyEq.refl w
  cache := fun _ _ h => by cases h
  cwf := Dict.WF.nil
  reads := fun _ _ _ h => by cases h
  recorded := fun _ _ h => by cases h

theorem dget_none {d : Dict Str PyVal} {k : Str} (h : (dget d k).isNone = true) :
    Dict.get? d k = none ∨ Dict.get? d k = some .none := by
  unfold dget at h
  cases hg : Dict.get? d k with
  | none => exact Or.inl rfl
  | some v =>
    rw [hg] at h
    cases v <;> simp only [Option.getD, PyVal.isNone] at h <;> first | exact Or.inr rfl | cases h

theorem dget_some {d : Dict Str PyVal} {k : Str} (h : ¬ (dget d k).isNone = true) :
    Dict.get? d k = some (dget d k) ∧ (dget d k).isNone = false := by
  unfold dget at h ⊢
  cases hg : Dict.get? d k with
  | none => rw [hg] at h; simp [PyVal.isNone] at h
  | some v => rw [hg] at h; simp only [Option.getD] at h ⊢; exact ⟨trivial, by simpa using h⟩

theorem isNone_iff {v : PyVal} : v.isNone = true ↔ v = .none := by
  cases v <;> simp [PyVal.isNone]

theorem readDeferred_some {s : Maps} {k : Str} {v : PyVal} (h : s.overlay k = some v) (hn : v.isNone = false) :
    s.readDeferred k = v := by
  unfold Maps.readDeferred; rw [h]
  cases v <;> first | rfl | cases hn

theorem readDeferred_committed {s : Maps} {k : Str} (h : s.overlay k = none ∨ s.overlay k = some .none) :
    s.readDeferred k = s.committed k := by
  unfold Maps.readDeferred
  rcases h with h | h <;> rw [h]

theorem Sim.find {d : Driver} {s : Maps} (h : Sim d s) {k : Str} (hk : PlainKey k) :
    ∃ w, d.find k = .ok w ∧ PyEq (s.readDeferred k) w := by
  unfold Driver.find
  simp only [h.bypass, Bool.false_eq_true, if_false]
  by_cases h1 : (dget d.pendingWrites k).isNone = true
  · rw [if_pos h1]
    have hc : s.readDeferred k = s.committed k :=
      readDeferred_committed (by rw [h.overlay]; exact dget_none h1)
    rw [hc]
    by_cases h2 : (dget d.cache k).isNone = true
    · rw [if_pos h2]; exact h.disk k hk
    · rw [if_neg h2]
      obtain ⟨e1, e2⟩ := dget_some h2
      exact ⟨_, rfl, (h.cache k _ e1 e2).2⟩
  · rw [if_neg h1, if_neg h1]
    obtain ⟨e1, e2⟩ := dget_some h1
    refine ⟨_, rfl, ?_⟩
    rw [readDeferred_some (by rw [h.overlay]; exact e1) e2]
    exact PyEq.refl _

theorem Sim.find_any {d : Driver} {s : Maps} (h : Sim d s) (k : Str) : ∃ w, d.find k = .ok w := by
  unfold Driver.find Driver.fromDisk
  simp only [h.bypass, Bool.false_eq_true, if_false]
  split
  · split
    · exact h.readable (locOf k)
    · exact ⟨_, rfl⟩
  · exact ⟨_, rfl⟩

/-- A recorded read keeps the simulation. -/
theorem Sim.record {d : Driver} {s : Maps} (h : Sim d s) {k : Str} {u : PyVal} (hf : d.find k = .ok u)
    (hr : (dget d.pendingReads k).isNone = true) :
    Sim { d with pendingReads := Dict.set d.pendingReads k u } s where
  bypass := h.bypass
  deltas := h.deltas
  wf := h.wf
  overlay := h.overlay
  pend := h.pend
  readable := h.readable
  disk := h.disk
  cache := h.cache
  cwf := h.cwf
  reads := fun k' u' hk' hu => by
    simp only [Dict.get?_set] at hu
    split at hu
    · rename_i he
      subst he; cases hu
      obtain ⟨w, hw, hp⟩ := h.find hk'
      rw [hf] at hw; cases hw
      cases ho : s.overlay k with
      | none => rw [readDeferred_committed (Or.inl ho)] at hp; exact Or.inl hp
      | some v =>
        rw [h.overlay] at ho
        obtain ⟨u', hu'⟩ := h.recorded k v ho
        rcases h.reads k u' hk' hu' with h1 | h1
        · rcases dget_none hr with h2 | h2
          · rw [h2] at hu'; cases hu'
          · rw [h2] at hu'; cases hu'; exact Or.inr h1.eq_none
        · exact Or.inr h1
    · exact h.reads k' u' hk' hu
  recorded := fun k' v hv => by
    obtain ⟨u', hu'⟩ := h.recorded k' v hv
    simp only [Dict.get?_set]
    split
    · exact ⟨u, rfl⟩
    · exact ⟨u', hu'⟩

theorem Sim.get {d : Driver} {s : Maps} (h : Sim d s) (k : Str) : Sim (d.get k).2 s := by
  unfold Driver.get
  obtain ⟨w, hw⟩ := h.find_any k
  rw [hw]
  simp only
  split
  · rename_i hr; exact h.record hw hr
  · exact h

theorem Sim.itemsFromDisk {s : Maps} (ks : List Str) : ∀ {d : Driver} (acc : Dict Str PyVal), Sim d s →
    Sim (d.itemsFromDisk acc ks).2 s := by
  induction ks with
  | nil => exact fun acc h => h
  | cons k ks ih =>
    intro d acc h
    unfold Driver.itemsFromDisk
    have h1 := h.get k
    rcases hg : d.get k with ⟨r, d'⟩
    rw [hg] at h1
    cases r with
    | error e => exact h1
    | ok v => exact ih _ h1

theorem Sim.write {d : Driver} {s : Maps} (h : Sim d s) {k : Str} {w : PyVal} (hk : PlainKey k) (hw : Storable w)
    (hrec : ∃ u, Dict.get? d.pendingReads k = some u) (tx : Dict Str PyVal) :
    Sim { d with pendingWrites := Dict.set d.pendingWrites k w, txWrites := tx } (s.write k w) where
  bypass := h.bypass
  deltas := h.deltas
  wf := h.wf.set k w
  overlay := fun k' => by
    simp only [Maps.write, Dict.get?_set]
    by_cases he : k' = k
    · subst he; simp
    · rw [if_neg he, if_neg (Ne.symm he)]; exact h.overlay k'
  pend := fun k' v hv => by
    simp only [Dict.get?_set] at hv
    split at hv
    · rename_i he; subst he; cases hv; exact ⟨hk, hw⟩
    · exact h.pend k' v hv
  readable := h.readable
  disk := h.disk
  cache := h.cache
  cwf := h.cwf
  reads := h.reads
  recorded := fun k' v hv => by
    simp only [Dict.get?_set] at hv
    split at hv
    · rename_i he; subst he; exact hrec
    · exact h.recorded k' v hv

theorem Sim.set {d : Driver} {s : Maps} (h : Sim d s) {m : Meter} {k : Str} {v : PyVal} {txn : Bool}
    (hk : PlainKey k) (hv : Storable v) :
    match d.set m k v txn with
    | (.ok _, _, d') => ∃ w, normValue v = .ok w ∧ Sim d' (s.write k w)
    | (.error _, _, d') => Sim d' s := by
  unfold Driver.set
  cases he : encode v with
  | error e => exact h
  | ok text =>
    simp only
    rcases hm : m.deductWrite (utf8Len k + text.length) with ⟨r, m1⟩
    cases r with
    | error e => exact h
    | ok u =>
      simp only
      by_cases hr : (dget d.pendingReads k).isNone = true
      · rw [if_pos hr]
        obtain ⟨u, hu⟩ := h.find_any k
        have hg : d.get k = (.ok u, { d with pendingReads := Dict.set d.pendingReads k u }) := by
          unfold Driver.get; rw [hu]; simp only [hr, if_true]
        rw [hg]
        simp only
        cases hn : normValue v with
        | error e => exact h.record hu hr
        | ok w => exact ⟨w, rfl, (h.record hu hr).write hk (normValue_storable hv hn) ⟨u, by simp⟩ _⟩
      · rw [if_neg hr]
        simp only
        cases hn : normValue v with
        | error e => exact h
        | ok w => exact ⟨w, rfl, h.write hk (normValue_storable hv hn) ⟨_, (dget_some hr).1⟩ _⟩

theorem Sim.pend_mem {d : Driver} {s : Maps} (h : Sim d s) : ∀ p ∈ d.pendingWrites, PlainKey p.1 ∧ Storable p.2 :=
  fun p hp => h.pend p.1 p.2 (Dict.get?_of_mem h.wf hp)

theorem read_eq {s : Maps} {k : Str} {v : PyVal} (h : s.overlay k = some v) : s.read k = v := by
  unfold Maps.read; rw [h]

theorem read_eq' {s : Maps} {k : Str} (h : s.overlay k = none) : s.read k = s.committed k := by
  unfold Maps.read; rw [h]

/-- Disk facts after the writes went out, in terms of the maps. -/
theorem Sim.persist_disk {d : Driver} {s : Maps} (h : Sim d s) {disk' : Disk}
    (h1 : ∀ l, (∀ p ∈ d.pendingWrites, locOf p.1 ≠ l) → disk'.attrs l = d.disk.attrs l)
    (h2 : ∀ p ∈ d.pendingWrites, ∃ w, disk'.get (locOf p.1) = .ok w ∧ PyEq p.2 w) :
    Readable disk' ∧ ∀ k, PlainKey k → ∃ w, disk'.get (locOf k) = .ok w ∧ PyEq (s.read k) w := by
  constructor
  · intro l
    by_cases hl : ∀ p ∈ d.pendingWrites, locOf p.1 ≠ l
    · rw [Disk.get_congr (h1 l hl)]; exact h.readable l
    · push Not at hl
      obtain ⟨p, hp, hl⟩ := hl
      obtain ⟨w, hw, _⟩ := h2 p hp
      exact ⟨w, by rw [← hl]; exact hw⟩
  · intro k hk
    cases ho : s.overlay k with
    | some v =>
      rw [read_eq ho]
      rw [h.overlay] at ho
      exact h2 (k, v) (Dict.mem_of_get? ho)
    | none =>
      rw [read_eq' ho]
      rw [h.overlay] at ho
      have hl : ∀ p ∈ d.pendingWrites, locOf p.1 ≠ locOf k := by
        intro p hp he
        have := locOf_inj (h.pend_mem p hp).1 hk he
        subst this
        rw [Dict.get?_of_mem h.wf (show (p.1, p.2) ∈ d.pendingWrites from hp)] at ho
        cases ho
      rw [Disk.get_congr (h1 _ hl)]
      exact h.disk k hk

theorem Sim.commit {d : Driver} {s : Maps} (h : Sim d s) :
    ∃ d', d.commit = (.ok (), d') ∧ Sim d' s.persist := by
  obtain ⟨disk', h1, h2, h3⟩ := commitLoop_ok d.pendingWrites d.disk h.pend_mem h.wf
  obtain ⟨r1, r2⟩ := h.persist_disk h2 (fun p hp => (h3 p hp).2)
  refine ⟨_, by unfold Driver.commit; rw [h1], ?_⟩
  exact { bypass := h.bypass, deltas := h.deltas, wf := Dict.WF.nil, overlay := fun _ => rfl,
          pend := fun _ _ h => (by cases h), readable := r1, disk := r2, cache := fun _ _ h => (by cases h), cwf := Dict.WF.nil,
          reads := fun _ _ _ h => (by cases h), recorded := fun _ _ h => (by cases h) }

theorem Sim.hardApply_disk {d : Driver} {s : Maps} (h : Sim d s) (n : Int) :
    ∃ disk', d.hardApply n = (.ok (), { d with
        disk := disk', cache := d.pendingWrites.foldl (fun c kv => Dict.set c kv.1 kv.2) d.cache,
        pendingReads := [], pendingWrites := [], pendingDeltas := [] }) ∧
      (∀ l, (∀ p ∈ d.pendingWrites, locOf p.1 ≠ l) → disk'.attrs l = d.disk.attrs l) ∧
      (∀ p ∈ d.pendingWrites, (disk'.attrs (locOf p.1)).block = some n ∧
        (p.2 = .none → (disk'.attrs (locOf p.1)).value = none) ∧
        ∃ w, disk'.get (locOf p.1) = .ok w ∧ PyEq p.2 w) := by
  obtain ⟨disk', h1, h2, h3⟩ := applyWrites_ok n
    (d.pendingWrites.map fun kv => (kv.1, dget d.pendingReads kv.1, kv.2)) d.disk
    (fun p hp => by
      obtain ⟨q, hq, rfl⟩ := List.mem_map.1 hp
      exact h.pend_mem q hq)
    (by
      unfold Dict.WF Dict.keys
      rw [List.map_map]
      exact h.wf)
  refine ⟨disk', hardApply_eq n h.deltas h1, ?_, ?_⟩
  · intro l hl
    refine h2 l (fun p hp => ?_)
    obtain ⟨q, hq, rfl⟩ := List.mem_map.1 hp
    exact hl q hq
  · intro p hp
    exact h3 (p.1, dget d.pendingReads p.1, p.2) (List.mem_map.2 ⟨p, hp, rfl⟩)

theorem Sim.hardApply {d : Driver} {s : Maps} (h : Sim d s) (n : Int) :
    ∃ d', d.hardApply n = (.ok (), d') ∧ Sim d' s.persist := by
  obtain ⟨disk', h1, h2, h3⟩ := h.hardApply_disk n
  obtain ⟨r1, r2⟩ := h.persist_disk h2 (fun p hp => (h3 p hp).2.2)
  refine ⟨_, h1, ?_⟩
  exact { bypass := h.bypass, deltas := rfl, wf := Dict.WF.nil, overlay := fun _ => rfl,
          pend := fun _ _ h => (by cases h), readable := r1, disk := r2,
          cache := fun k v hv hn => by
            simp only [get?_foldl_set _ h.wf] at hv
            cases hp : Dict.get? d.pendingWrites k with
            | some v' =>
              rw [hp] at hv; cases hv
              refine ⟨(h.pend k _ hp).1, ?_⟩
              simp only [Maps.persist]
              rw [read_eq (by rw [h.overlay]; exact hp)]
              exact PyEq.refl _
            | none =>
              rw [hp] at hv
              obtain ⟨c1, c2⟩ := h.cache k v hv hn
              refine ⟨c1, ?_⟩
              simp only [Maps.persist]
              rw [read_eq' (by rw [h.overlay]; exact hp)]
              exact c2
          cwf := wf_foldl_set _ _ h.cwf
          reads := fun _ _ _ h => (by cases h), recorded := fun _ _ h => (by cases h) }

theorem Sim.discard {d : Driver} {s : Maps} (h : Sim d s) (tx : Dict Str PyVal) (ev : List Event) :
    Sim { d with pendingWrites := [], pendingReads := [], pendingDeltas := [], txWrites := tx, events := ev, cache := [] }
      s.discard where
  bypass := h.bypass
  deltas := rfl
  wf := Dict.WF.nil
  overlay := fun _ => rfl
  pend := fun _ _ h => by cases h
  readable := h.readable
  disk := h.disk
  cache := fun _ _ h => by cases h
  cwf := Dict.WF.nil
  reads := fun _ _ _ h => by cases h
  recorded := fun _ _ h => by cases h

theorem rollbackTo_id {d : Driver} (h : d.pendingDeltas = []) (n : Int) : d.rollbackTo n = d := by
  unfold Driver.rollbackTo
  simp only [h, Driver.sortDeltas, List.foldr, List.reverse_nil, List.takeWhile_nil, List.foldl]
  rw [← h]

theorem Sim.evict {d : Driver} {s : Maps} (h : Sim d s) (keep : Str → Bool) : Sim (d.evict keep) s :=
  { bypass := h.bypass, deltas := h.deltas, wf := h.wf, overlay := h.overlay, pend := h.pend, readable := h.readable,
    disk := h.disk, cache := fun k v hv => h.cache k v (get?_filter_key d.cache keep k hv),
    cwf := (List.filter_sublist.map Prod.fst).nodup h.cwf, reads := h.reads,
    recorded := h.recorded }

theorem accepted_map {α : Type} (r : Except PyErr α) (d : Driver) (f : α → PyVal) :
    Spec.accepted (r.map f, d) = r.isOk := by
  cases r <;> rfl

theorem Sim.step {d : Driver} {s : Maps} (h : Sim d s) (c : Call) (hc : c.OK) :
    Sim (c.run d).2 (s.step (Spec.accepted (c.run d)) c) := by
  cases c with
  | set m k v txn =>
    have := h.set (m := m) (txn := txn) hc.1 hc.2
    simp only [Call.run, Maps.step, accepted_map, Except.isOk, Except.toBool]
    rcases hs : d.set m k v txn with ⟨r, m', d'⟩
    rw [hs] at this
    cases r with
    | error e => simpa using this
    | ok u =>
      obtain ⟨w, hw, hsim⟩ := this
      simp only [hw, if_true]; exact hsim
  | delete m k =>
    have := h.set (m := m) (v := .none) (txn := false) hc trivial
    simp only [Call.run, Maps.step, accepted_map, Driver.delete, Except.isOk, Except.toBool]
    rcases hs : d.set m k .none false with ⟨r, m', d'⟩
    rw [hs] at this
    cases r with
    | error e => simpa using this
    | ok u =>
      obtain ⟨w, hw, hsim⟩ := this
      cases hw
      simp only [if_true]; exact hsim
  | get k => exact h.get k
  | items p => exact Sim.itemsFromDisk _ _ h
  | commit =>
    obtain ⟨d', h1, h2⟩ := h.commit
    simp only [Call.run, Maps.step, h1]; exact h2
  | hardApply n =>
    obtain ⟨d', h1, h2⟩ := h.hardApply n
    simp only [Call.run, Maps.step, h1]; exact h2
  | rollback => exact h.discard _ _
  | rollbackTo n => simp only [Call.run, Maps.step, rollbackTo_id h.deltas]; exact h
  | flushCache => exact h.discard _ _
  | evict keep => exact h.evict keep

/-- Every reachable state simulates the maps of its history. -/
theorem Sim.after {d : Driver} {s : Maps} (h : Sim d s) (cs : List Call) (hc : ∀ c ∈ cs, c.OK) :
    Sim (Spec.after d cs) (s.after d cs) := by
  induction cs generalizing d s with
  | nil => exact h
  | cons c cs ih =>
    exact ih (h.step c (hc c (by simp))) (fun c' h' => hc c' (by simp [h']))

end Verif
