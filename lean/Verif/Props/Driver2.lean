import Verif.Props.Driver
import Verif.Proofs.Deltas
import Verif.Proofs.Listing
import Verif.Proofs.ValueEq
/-!
# C20, C21 with several pending deltas; C22 for any prefix; C68-C72
-/
namespace Verif
open Spec

/-! ## C21: order of application -/

/-- **C21, several deltas.** If deltas of earlier calls are still pending (an earlier `hard_apply` raised half-way),
`hard_apply(n)` applies those before `n` and the pending writes as of block `n`, oldest first: a pending write wins,
else the newest delta before `n` that has the key; deltas after `n` are kept, the others forgotten; nothing else on
disk changes. -/
theorem C21_ordered {d : Driver} (n : Int) (hwf : Dict.WF d.pendingDeltas) (hok : DeltasOk d.pendingDeltas)
    (hpw : Dict.WF d.pendingWrites) (hps : ∀ p ∈ d.pendingWrites, PlainKey p.1 ∧ Storable p.2) :
    ∃ d', d.hardApply n = (.ok (), d') ∧ d'.pendingWrites = [] ∧
      (∀ m, Dict.get? d'.pendingDeltas m = if n < m then Dict.get? d.pendingDeltas m else none) ∧
      (∀ k v, Dict.get? d.pendingWrites k = some v →
        d'.disk.getBlock (locOf k) = some n ∧ ∃ w, d'.disk.get (locOf k) = .ok w ∧ PyEq v w) ∧
      (∀ m delta k old v, m < n → Dict.get? d.pendingDeltas m = some delta → Dict.get? delta k = some (old, v) →
        Dict.get? d.pendingWrites k = none →
        (∀ m' delta', m < m' → m' < n → Dict.get? d.pendingDeltas m' = some delta' → Dict.get? delta' k = none) →
        d'.disk.getBlock (locOf k) = some n ∧ ∃ w, d'.disk.get (locOf k) = .ok w ∧ PyEq v w) ∧
      (∀ l, (∀ k v, Dict.get? d.pendingWrites k = some v → locOf k ≠ l) →
        (∀ m delta k p, m < n → Dict.get? d.pendingDeltas m = some delta → Dict.get? delta k = some p → locOf k ≠ l) →
        d'.disk.attrs l = d.disk.attrs l) := by
  let cur : Dict Str (PyVal × PyVal) := d.pendingWrites.map fun kv => (kv.1, dget d.pendingReads kv.1, kv.2)
  let ds := Dict.set d.pendingDeltas n cur
  have hcurwf : Dict.WF cur := by
    unfold Dict.WF Dict.keys
    rw [List.map_map]
    exact hpw
  have hdswf : Dict.WF ds := hwf.set n cur
  have hmem : ∀ p ∈ Driver.sortDeltas ds, Dict.get? ds p.1 = some p.2 := fun p hp =>
    Dict.get?_of_mem hdswf (mem_sortDeltas_iff.1 hp)
  have hmem' : ∀ m delta, Dict.get? ds m = some delta → (m, delta) ∈ Driver.sortDeltas ds := fun m delta h =>
    mem_sortDeltas_iff.2 (Dict.mem_of_get? h)
  have hcases : ∀ p ∈ Driver.sortDeltas ds, (p.1 = n ∧ p.2 = cur) ∨ (p.1 ≠ n ∧ Dict.get? d.pendingDeltas p.1 = some p.2) := by
    intro p hp
    have := hmem p hp
    rw [Dict.get?_set] at this
    split at this
    · rename_i he; exact .inl ⟨he.symm, (Option.some.inj this).symm⟩
    · rename_i he; exact .inr ⟨fun h => he h.symm, this⟩
  have hn : (n, cur) ∈ Driver.sortDeltas ds := hmem' n cur (Dict.get?_set_self _ _ _)
  have hds : DeltasOk (Driver.sortDeltas ds) := by
    intro p hp
    rcases hcases p hp with ⟨_, h2⟩ | ⟨_, h2⟩
    · rw [h2]
      refine ⟨hcurwf, fun q hq => ?_⟩
      obtain ⟨r, hr, rfl⟩ := List.mem_map.1 hq
      exact hps r hr
    · exact hok p (by have := Dict.mem_of_get? h2; exact this)
  obtain ⟨disk', ns, h1, h2, h3, h4⟩ := applyDeltas_ok n (Driver.sortDeltas ds) d.disk hds (sorted_sortDeltas hdswf) ⟨_, hn, rfl⟩
  have hcur : ∀ k, (∃ q ∈ cur, q.1 = k) → ∃ v, Dict.get? d.pendingWrites k = some v := by
    rintro k ⟨q, hq, rfl⟩
    obtain ⟨r, hr, rfl⟩ := List.mem_map.1 hq
    exact ⟨r.2, Dict.get?_of_mem hpw hr⟩
  have hrun : d.hardApply n = (.ok (), { d with
      cache := d.pendingWrites.foldl (fun c kv => Dict.set c kv.1 kv.2) d.cache,
      pendingReads := [], pendingWrites := [], disk := disk',
      pendingDeltas := ns.foldl (fun ds n => Dict.erase ds n) ds }) := by
    unfold Driver.hardApply
    simp only [show Driver.applyDeltas d.disk n (Driver.sortDeltas (Dict.set d.pendingDeltas n
      (d.pendingWrites.map fun kv => (kv.1, dget d.pendingReads kv.1, kv.2)))) = (.ok ns, disk') from h1]
    rfl
  refine ⟨_, hrun, rfl, ?_, ?_, ?_, ?_⟩
  · intro m
    show Dict.get? (ns.foldl (fun ds n => Dict.erase ds n) ds) m = _
    rw [get?_foldl_erase]
    by_cases hlt : n < m
    · have hm : m ∉ ns := fun h => by have := ((h2 m).1 h).1; omega
      rw [if_neg hm, if_pos hlt, Dict.get?_set, if_neg (by omega)]
    · rw [if_neg hlt]
      by_cases hm : m ∈ ns
      · rw [if_pos hm]
      · rw [if_neg hm]
        cases hg : Dict.get? ds m with
        | none => rfl
        | some delta => exact absurd ((h2 m).2 ⟨by omega, _, hmem' m delta hg, rfl⟩) hm
  · intro k v hv
    have hq : (k, dget d.pendingReads k, v) ∈ cur := List.mem_map.2 ⟨(k, v), Dict.mem_of_get? hv, rfl⟩
    obtain ⟨b1, _, b3⟩ := h4 (n, cur) hn (le_refl _) _ hq (fun p' _ h5 h6 => by simp only at h5; omega)
    exact ⟨b1, b3⟩
  · intro m delta k old v hm hd hk hnp hnew
    have hne : n ≠ m := by omega
    have hp : (m, delta) ∈ Driver.sortDeltas ds := hmem' m delta (by show Dict.get? (Dict.set _ _ _) _ = _; rw [Dict.get?_set_ne _ _ hne]; exact hd)
    obtain ⟨b1, _, b3⟩ := h4 (m, delta) hp (by simp only; omega) (k, old, v) (Dict.mem_of_get? hk) (by
      intro p' hp' h5 h6 q' hq' he
      simp only at h5 he
      rcases hcases p' hp' with ⟨_, e2⟩ | ⟨e1, e2⟩
      · rw [e2] at hq'
        obtain ⟨u, hu⟩ := hcur k ⟨q', hq', he⟩
        rw [hnp] at hu; cases hu
      · have := hnew p'.1 p'.2 h5 (by omega) e2
        rw [Dict.get?_eq_none_iff] at this
        exact this (List.mem_map.2 ⟨q', hq', he⟩))
    exact ⟨b1, b3⟩
  · intro l hl1 hl2
    refine h3 l fun p hp hle q hq => ?_
    rcases hcases p hp with ⟨_, e2⟩ | ⟨e1, e2⟩
    · rw [e2] at hq
      obtain ⟨r, hr, rfl⟩ := List.mem_map.1 hq
      exact hl1 r.1 r.2 (Dict.get?_of_mem hpw hr)
    · exact hl2 p.1 p.2 q.1 q.2 (by omega) e2 (Dict.get?_of_mem (hds p hp).1 hq)

/-- A case with two left-over deltas: of the deltas 3 (value 30), 5 (value 50) and 9 (value 90) of one key,
`hard_apply(7)` writes 50 and keeps the last. -/
example :
    let d : Driver := { pendingDeltas := [(9, [(kA, .none, .int 90)]), (5, [(kA, .none, .int 50)]), (3, [(kA, .none, .int 30)])] }
    let d' := (d.hardApply 7).2
    d'.disk.get (locOf kA) = .ok (.int 50) ∧ d'.pendingDeltas = [(9, [(kA, .none, .int 90)])] :=
  ⟨rfl, rfl⟩

/-! ## C20: rolling back deltas that are still pending -/

theorem get?_foldl_restore (us : List Delta) (hw : ∀ p ∈ us, Dict.WF p.2) : ∀ (c : Dict Str PyVal) (k : Str),
    ((∀ p ∈ us, Dict.get? p.2 k = none) →
      Dict.get? (us.foldl (fun c p => p.2.foldl (fun c kv => Dict.set c kv.1 kv.2.1) c) c) k = Dict.get? c k) ∧
    (∀ xs p ys old v, us = xs ++ p :: ys → Dict.get? p.2 k = some (old, v) → (∀ q ∈ ys, Dict.get? q.2 k = none) →
      Dict.get? (us.foldl (fun c p => p.2.foldl (fun c kv => Dict.set c kv.1 kv.2.1) c) c) k = some old) := by
  induction us with
  | nil =>
    refine fun c k => ⟨fun _ => rfl, ?_⟩
    intro xs p ys old v h
    cases xs <;> cases h
  | cons u us ih =>
    intro c k
    have ih := ih (fun p hp => hw p (by simp [hp]))
    constructor
    · intro h
      rw [List.foldl_cons, (ih _ k).1 (fun p hp => h p (by simp [hp])), get?_restore u.2 (hw u (by simp)), h u (by simp)]
    · intro xs p ys old v h hp hys
      rw [List.foldl_cons]
      cases xs with
      | nil =>
        cases h
        rw [(ih _ k).1 hys, get?_restore u.2 (hw u (by simp)), hp]
      | cons x xs =>
        cases h
        exact (ih _ k).2 xs p ys old v rfl hp hys

theorem takeWhile_of_sorted {n : Int} {xs : List Delta} (h : xs.Pairwise fun a b => b.1 < a.1) (p : Delta) :
    p ∈ xs.takeWhile (fun p => decide (n ≤ p.1)) ↔ p ∈ xs ∧ n ≤ p.1 := by
  induction xs with
  | nil => simp
  | cons a xs ih =>
    rw [List.pairwise_cons] at h
    rw [List.takeWhile_cons]
    by_cases ha : n ≤ a.1
    · simp only [ha, decide_true, if_true, List.mem_cons, ih h.2]
      constructor
      · rintro (rfl | ⟨h1, h2⟩)
        · exact ⟨.inl rfl, ha⟩
        · exact ⟨.inr h1, h2⟩
      · rintro ⟨rfl | h1, h2⟩
        · exact .inl rfl
        · exact .inr ⟨h1, h2⟩
    · simp only [ha, decide_false, Bool.false_eq_true, if_false, List.not_mem_nil, List.mem_cons, false_iff, not_and]
      rintro (rfl | h1) h2
      · exact ha h2
      · have := h.1 p h1; omega

/-- **C20, deltas still pending.** `rollback(n)` forgets exactly the pending deltas from `n` on; a key written
by one of them is put into the cache with the value it had before the oldest of them; other cache entries, pending writes and
the disk are unchanged. (Applied deltas are not pending any more, so nothing of this happens after a successful
`hard_apply`: `C20_noop`.) -/
theorem C20_pending {d : Driver} (n : Int) (hwf : Dict.WF d.pendingDeltas) (hw : ∀ p ∈ d.pendingDeltas, Dict.WF p.2) :
    (d.rollbackTo n).disk = d.disk ∧ (d.rollbackTo n).pendingWrites = d.pendingWrites ∧
    (∀ m, Dict.get? (d.rollbackTo n).pendingDeltas m = if n ≤ m then none else Dict.get? d.pendingDeltas m) ∧
    (∀ m delta k old v, n ≤ m → Dict.get? d.pendingDeltas m = some delta → Dict.get? delta k = some (old, v) →
      (∀ m' delta', n ≤ m' → m' < m → Dict.get? d.pendingDeltas m' = some delta' → Dict.get? delta' k = none) →
      Dict.get? (d.rollbackTo n).cache k = some old) ∧
    (∀ k, (∀ m delta, n ≤ m → Dict.get? d.pendingDeltas m = some delta → Dict.get? delta k = none) →
      Dict.get? (d.rollbackTo n).cache k = Dict.get? d.cache k) := by
  let us := ((Driver.sortDeltas d.pendingDeltas).reverse).takeWhile fun p => decide (n ≤ p.1)
  have hsort : ((Driver.sortDeltas d.pendingDeltas).reverse).Pairwise fun a b => b.1 < a.1 := by
    rw [List.pairwise_reverse]; exact sorted_sortDeltas hwf
  have hmem : ∀ p, p ∈ us ↔ Dict.get? d.pendingDeltas p.1 = some p.2 ∧ n ≤ p.1 := by
    intro p
    rw [takeWhile_of_sorted hsort, List.mem_reverse, mem_sortDeltas_iff]
    constructor
    · rintro ⟨h1, h2⟩; exact ⟨Dict.get?_of_mem hwf h1, h2⟩
    · rintro ⟨h1, h2⟩; exact ⟨Dict.mem_of_get? h1, h2⟩
  have huw : ∀ p ∈ us, Dict.WF p.2 := fun p hp => hw p (Dict.mem_of_get? ((hmem p).1 hp).1)
  have hus : us.Pairwise fun a b => b.1 < a.1 := hsort.sublist (List.takeWhile_sublist _)
  refine ⟨rfl, rfl, ?_, ?_, ?_⟩
  · intro m
    show Dict.get? (us.foldl (fun ds p => Dict.erase ds p.1) d.pendingDeltas) m = _
    have := get?_foldl_erase (us.map Prod.fst) d.pendingDeltas m
    rw [List.foldl_map] at this
    rw [this]
    by_cases hm : n ≤ m
    · rw [if_pos hm]
      cases hg : Dict.get? d.pendingDeltas m with
      | none => simp
      | some delta => rw [if_pos (List.mem_map.2 ⟨(m, delta), (hmem _).2 ⟨hg, hm⟩, rfl⟩)]
    · rw [if_neg hm, if_neg]
      intro h
      obtain ⟨p, hp, rfl⟩ := List.mem_map.1 h
      exact hm ((hmem p).1 hp).2
  · intro m delta k old v hm hd hk hold
    obtain ⟨xs, ys, he⟩ := List.append_of_mem ((hmem (m, delta)).2 ⟨hd, hm⟩)
    refine (get?_foldl_restore us huw d.cache k).2 xs (m, delta) ys old v he hk fun q hq => ?_
    have hq' := (hmem q).1 (by rw [he]; simp [hq])
    rw [he, List.pairwise_append, List.pairwise_cons] at hus
    exact hold q.1 q.2 hq'.2 (hus.2.1.1 q hq) hq'.1
  · intro k hk
    refine (get?_foldl_restore us huw d.cache k).1 fun p hp => ?_
    obtain ⟨h1, h2⟩ := (hmem p).1 hp
    exact hk p.1 p.2 h2 h1

example :
    let d : Driver := { pendingDeltas := [(9, [(kA, .int 50, .int 90)]), (5, [(kA, .int 30, .int 50)]), (3, [(kA, .none, .int 30)])] }
    let d' := d.rollbackTo 4
    Dict.get? d'.cache kA = some (.int 30) ∧ d'.pendingDeltas = [(3, [(kA, .none, .int 30)])] :=
  ⟨rfl, rfl⟩

/-! ## C22: listing with any prefix -/

/-- **C22, exactly, for any prefix.** In every reachable state a listing succeeds and changes only the record of reads.
A key without the prefix is not listed. A key with the prefix is listed with its cached value, if it has one; else with its
pending value, if it has one; else it is listed only if it is the bare name of a top-level group of the prefix's file,
with the value reading that bare name gives; so committed state keys are not listed. -/
theorem C22_listing {d : Driver} (hr : Spec.Reachable d) (p : Str) :
    ∃ r rd, d.items p = (.ok r, { d with pendingReads := rd }) ∧
      (∀ k, startsWith k p = false → Dict.get? r k = none) ∧
      ∀ k, startsWith k p = true →
        ((dget d.cache k).isNone = false → Dict.get? r k = some (dget d.cache k)) ∧
        ((dget d.cache k).isNone = true → (dget d.pendingWrites k).isNone = false → Dict.get? r k = some (dget d.pendingWrites k)) ∧
        ((dget d.cache k).isNone = true → (dget d.pendingWrites k).isNone = true →
          (TopGroup d.disk (fileOf p) k → ∃ v, (d.get k).1 = .ok v ∧ Dict.get? r k = some v) ∧
          (¬ TopGroup d.disk (fileOf p) k → Dict.get? r k = none)) := by
  obtain ⟨s, hs⟩ := hr.sim
  obtain ⟨r, rd, h1, h2, h3⟩ := items_ok hs.cwf hs.wf hs.find_any p
  refine ⟨r, rd, h1, h2, fun k hk => ?_⟩
  obtain ⟨a, b, c⟩ := h3 k hk
  refine ⟨a, b, fun e1 e2 => ⟨fun ht => ?_, (c e1 e2).2⟩⟩
  obtain ⟨v, hv, hg⟩ := (c e1 e2).1 ht
  exact ⟨v, by rw [(Driver.get_frame d k).2]; exact hv, hg⟩

/-- Two committed variables of one contract: listing the contract's name gives the bare group name `con_ab`, with no
value, and neither state key. -/
example : let d := Spec.after (.open []) [.set {} (py! "con_a.con_ab") (.int 1) true, .set {} (py! "con_a.x") (.int 2) true, .commit]
    (d.items (py! "con_a")).1 = .ok [(py! "con_ab", .none)] := by rfl

/-! ## C68: deleting a contract -/

theorem foldl_deleteContractKey (ks : List Str) : ∀ (d : Driver), d.bypass = false →
    let d' := ks.foldl Driver.deleteContractKey d
    d'.bypass = false ∧
    (∀ k, k ∉ ks → Dict.get? d'.pendingWrites k = Dict.get? d.pendingWrites k ∧ Dict.get? d'.cache k = Dict.get? d.cache k) ∧
    (∀ k ∈ ks, dget d'.pendingWrites k = .none ∧ dget d'.cache k = .none) ∧
    (∀ k, dget d.pendingWrites k = .none → dget d'.pendingWrites k = .none) ∧
    (∀ k, dget d.cache k = .none → dget d'.cache k = .none) ∧
    (∀ l, (∀ k ∈ ks, locOf k ≠ l) → d'.disk.attrs l = d.disk.attrs l) ∧
    (∀ l, (d.disk.attrs l).value = none → (d'.disk.attrs l).value = none) ∧
    (∀ k ∈ ks, (fileOf k).length < 255 → (d'.disk.attrs (locOf k)).value = none) := by
  induction ks with
  | nil =>
    intro d hb
    exact ⟨hb, fun _ _ => ⟨rfl, rfl⟩, by simp, fun _ h => h, fun _ h => h, fun _ _ => rfl, fun _ h => h, by simp⟩
  | cons a ks ih =>
    intro d hb
    -- one step
    have hpw : ∀ k, Dict.get? (d.deleteContractKey a).pendingWrites k =
        if a = k ∧ (dget d.pendingWrites a).isNone = false then none else Dict.get? d.pendingWrites k := by
      intro k
      unfold Driver.deleteContractKey Driver.deleteKeyFromDisk
      by_cases h1 : (dget d.cache a).isNone = true <;> by_cases h2 : (dget d.pendingWrites a).isNone = true <;>
        simp only [h1, h2, if_true, if_false, Bool.false_eq_true, Bool.true_eq_false, and_false] <;>
        split <;> simp [Dict.get?_erase]
    have hcache : ∀ k, Dict.get? (d.deleteContractKey a).cache k =
        if a = k ∧ (dget d.cache a).isNone = false then none else Dict.get? d.cache k := by
      intro k
      unfold Driver.deleteContractKey Driver.deleteKeyFromDisk
      by_cases h1 : (dget d.cache a).isNone = true <;> by_cases h2 : (dget d.pendingWrites a).isNone = true <;>
        simp only [h1, h2, if_true, if_false, Bool.false_eq_true, Bool.true_eq_false, and_false] <;>
        split <;> simp [Dict.get?_erase]
    have hdisk : (d.deleteContractKey a).disk =
        if (fileOf a).length < 255 then d.disk.applyAll (Disk.deleteOps d.disk (locOf a)) else d.disk := by
      unfold Driver.deleteContractKey Driver.deleteKeyFromDisk
      rw [← parseKey_file]
      by_cases h1 : (dget d.cache a).isNone = true <;> by_cases h2 : (dget d.pendingWrites a).isNone = true <;>
        simp only [h1, h2, if_true, if_false, Bool.false_eq_true] <;> split <;> rfl
    have hbyp : (d.deleteContractKey a).bypass = false := by
      unfold Driver.deleteContractKey Driver.deleteKeyFromDisk
      by_cases h1 : (dget d.cache a).isNone = true <;> by_cases h2 : (dget d.pendingWrites a).isNone = true <;>
        simp only [h1, h2, if_true, if_false, Bool.false_eq_true] <;> split <;> exact hb
    have hself : ∀ (x y : Dict Str PyVal), (∀ k, Dict.get? y k = if a = k ∧ (dget x a).isNone = false then none else Dict.get? x k) →
        dget y a = .none ∧ (∀ k, dget x k = .none → dget y k = .none) := by
      intro x y h
      constructor
      · unfold dget
        rw [h a]
        cases hn : (dget x a).isNone with
        | true =>
          rw [if_neg (by simp)]
          exact isNone_iff.1 hn
        | false => rw [if_pos ⟨rfl, rfl⟩]; rfl
      · intro k hk
        unfold dget
        rw [h k]
        split
        · rfl
        · exact hk
    have hdv : ∀ l, (d.disk.attrs l).value = none → ((d.deleteContractKey a).disk.attrs l).value = none := by
      intro l hl
      rw [hdisk]
      split
      · by_cases he : locOf a = l
        · subst he; exact Disk.attrs_deleteOps _ _
        · rw [Disk.attrs_applyAll_ne _ _ (fun op hop => by rw [Disk.deleteOps_loc op hop]; exact he)]; exact hl
      · exact hl
    obtain ⟨i0, i1, i2, i3, i4, i5, i6, i7⟩ := ih (d.deleteContractKey a) hbyp
    show _ ∧ _
    refine ⟨i0, ?_, ?_, ?_, ?_, ?_, ?_, ?_⟩
    · intro k hk
      simp only [List.mem_cons, not_or] at hk
      obtain ⟨j1, j2⟩ := i1 k hk.2
      refine ⟨j1.trans ?_, j2.trans ?_⟩
      · rw [hpw k, if_neg (fun h => hk.1 h.1.symm)]
      · rw [hcache k, if_neg (fun h => hk.1 h.1.symm)]
    · intro k hk
      rcases List.mem_cons.1 hk with rfl | hk
      · exact ⟨i3 _ (hself _ _ hpw).1, i4 _ (hself _ _ hcache).1⟩
      · exact i2 k hk
    · exact fun k hk => i3 k ((hself _ _ hpw).2 k hk)
    · exact fun k hk => i4 k ((hself _ _ hcache).2 k hk)
    · intro l hl
      refine (i5 l (fun k hk => hl k (by simp [hk]))).trans ?_
      rw [hdisk]
      split
      · exact Disk.attrs_applyAll_ne _ _ (fun op hop => by rw [Disk.deleteOps_loc op hop]; exact hl a (by simp))
      · rfl
    · exact fun l hl => i6 l (hdv l hl)
    · intro k hk hlen
      rcases List.mem_cons.1 hk with rfl | hk
      · refine i6 _ ?_
        rw [hdisk, if_pos hlen]
        exact Disk.attrs_deleteOps _ _
      · exact i7 k hk hlen

/-- The key has an uncommitted or cached value. -/
def Spec.InMemory (d : Driver) (k : Str) : Prop := dget d.cache k ≠ .none ∨ dget d.pendingWrites k ≠ .none

theorem isNone_false {v : PyVal} (h : v ≠ .none) : v.isNone = false := by
  cases hn : v.isNone with
  | false => rfl
  | true => exact absurd (isNone_iff.1 hn) h

theorem find_none {d : Driver} {k : Str} (hb : d.bypass = false) (h1 : dget d.pendingWrites k = .none) (h2 : dget d.cache k = .none)
    (h3 : (d.disk.attrs (locOf k)).value = none) : d.find k = .ok .none := by
  unfold Driver.find Driver.fromDisk
  simp [hb, h1, h2, PyVal.isNone, Disk.get, h3]

theorem find_eq {d d' : Driver} {k : Str} (hb : d.bypass = d'.bypass) (h1 : Dict.get? d.pendingWrites k = Dict.get? d'.pendingWrites k)
    (h2 : Dict.get? d.cache k = Dict.get? d'.cache k) (h3 : d.disk.attrs (locOf k) = d'.disk.attrs (locOf k)) :
    d.find k = d'.find k := by
  unfold Driver.find Driver.fromDisk dget
  rw [hb, h1, h2, Disk.get_congr h3]

/-- **C68.** What `delete_contract(name)` does, in every reachable state, to every key. It removes the keys that
begin with `name` and have an uncommitted or cached value, also from disk; every other key that begins with `name` keeps its
value, except that a key `g.g` is removed if the file of `name` has a top-level group `g` that begins with `name`; keys that
do not begin with `name` keep theirs. -/
theorem C68_effect {disk : Disk} (h : Readable disk) (hp : PlainDisk disk) (cs : List Call) (hc : ∀ c ∈ cs, c.OK) (name : Str) :
    let d := Spec.after (.open disk) cs
    ∃ d', d.deleteContract name = (.ok (), d') ∧
      (∀ k, startsWith k name = true → InMemory d k → (fileOf k).length < 255 → (d'.get k).1 = .ok .none) ∧
      (∀ k, PlainKey k → startsWith k name = true → ¬ InMemory d k →
        ((∃ g, k = g ++ '.' :: g ∧ startsWith g name = true ∧ TopGroup d.disk (fileOf name) g) →
          (fileOf k).length < 255 → (d'.get k).1 = .ok .none) ∧
        ((¬ ∃ g, k = g ++ '.' :: g ∧ startsWith g name = true ∧ TopGroup d.disk (fileOf name) g) →
          (d'.get k).1 = (d.get k).1)) ∧
      (∀ k, PlainKey k → startsWith k name = false → (d'.get k).1 = (d.get k).1) := by
  intro d
  have hs := (Sim.init h).after cs hc
  have hpd := after_plainDisk (Sim.init h) hp cs hc
  obtain ⟨r, rd, h1, h2, h3⟩ := items_ok hs.cwf hs.wf hs.find_any name
  let d1 : Driver := { d with pendingReads := rd }
  obtain ⟨f0, f1, f2, f3, f4, f5, f6, f7⟩ := foldl_deleteContractKey (Dict.keys r) d1 hs.bypass
  have hdel : d.deleteContract name = (.ok (), (Dict.keys r).foldl Driver.deleteContractKey d1) := by
    unfold Driver.deleteContract
    rw [show d.items name = (.ok r, d1) from h1]
  -- what is listed
  have hkeys : ∀ j ∈ Dict.keys r, startsWith j name = true ∧
      (InMemory d j ∧ PlainKey j ∨ Plain j ∧ locOf j = (j, [j]) ∧ TopGroup d.disk (fileOf name) j) := by
    intro j hj
    have hsome := Dict.get?_isSome_iff.2 hj
    have hsw : startsWith j name = true := by
      cases hb : startsWith j name with
      | true => rfl
      | false => rw [h2 j hb] at hsome; cases hsome
    refine ⟨hsw, ?_⟩
    obtain ⟨a, b, c⟩ := h3 j hsw
    cases hc1 : (dget d.cache j).isNone with
    | false =>
      left
      have hne : dget d.cache j ≠ .none := fun he => by rw [he] at hc1; cases hc1
      obtain ⟨e1, e2⟩ := dget_some (by rw [hc1]; simp : ¬ (dget d.cache j).isNone = true)
      exact ⟨.inl hne, (hs.cache j _ e1 hc1).1⟩
    | true =>
      cases hc2 : (dget d.pendingWrites j).isNone with
      | false =>
        left
        have hne : dget d.pendingWrites j ≠ .none := fun he => by rw [he] at hc2; cases hc2
        obtain ⟨e1, e2⟩ := dget_some (by rw [hc2]; simp : ¬ (dget d.pendingWrites j).isNone = true)
        exact ⟨.inr hne, (hs.pend j _ e1).1⟩
      | true =>
        right
        obtain ⟨c1, c2⟩ := c hc1 hc2
        by_cases ht : TopGroup d.disk (fileOf name) j
        · have ht' := ht
          obtain ⟨rest, at_, hm⟩ := ht
          obtain ⟨k, ⟨c, n, comps, pc, pn, px, rfl⟩, hl⟩ := hpd _ (List.mem_map.2 ⟨_, hm, rfl⟩)
          rw [locOf_stateKey pc pn px] at hl
          cases hl
          refine ⟨pn, ?_, ht'⟩
          unfold locOf parseKey
          rw [splitFirst_none pn.2.1]
          simp only [splitFirst_none pn.2.2.1]
          unfold groupPath
          rw [replaceC_none pn.2.2.1]
          have := splitOnC_flat (c := '/') [] pn.2.2.2 (by simp)
          simp only [List.flatMap_nil, List.append_nil] at this
          rw [this]
          have hn2 : j ≠ ['.'] := fun he => pn.2.1 (by rw [he]; simp)
          simp [pn.1, hn2]
        · rw [c2 ht] at hsome; cases hsome
  have hloc : ∀ k, PlainKey k → k ∉ Dict.keys r →
      (∀ g, Plain g → startsWith g name = true → TopGroup d.disk (fileOf name) g → k ≠ g ++ '.' :: g) → ∀ j ∈ Dict.keys r, locOf j ≠ locOf k := by
    intro k hk hn hg j hj he
    obtain ⟨j1, j2 | ⟨j2, j3, j4⟩⟩ := hkeys j hj
    · have := locOf_inj j2.2 hk he
      subst this
      exact hn hj
    · obtain ⟨c, n, comps, pc, pn, px, rfl⟩ := hk
      rw [j3, locOf_stateKey pc pn px] at he
      cases he
      exact hg j j2 j1 j4 (by simp [stateKey])
  refine ⟨_, hdel, ?_, ?_, ?_⟩
  · intro k hk hm hlen
    have hin : k ∈ Dict.keys r := by
      rw [← Dict.get?_isSome_iff]
      obtain ⟨a, b, c⟩ := h3 k hk
      cases hc1 : (dget d.cache k).isNone with
      | false => rw [a hc1]; rfl
      | true =>
        rcases hm with hm | hm
        · rw [isNone_false hm] at hc1; cases hc1
        · rw [b hc1 (isNone_false hm)]; rfl
    rw [(Driver.get_frame _ k).2]
    exact find_none f0 (f2 k hin).1 (f2 k hin).2 (f7 k hin hlen)
  · intro k hpk hk hm
    have hnot : k ∉ Dict.keys r := by
      intro hin
      obtain ⟨_, j2 | ⟨j2, _⟩⟩ := hkeys k hin
      · exact hm j2.1
      · obtain ⟨c, n, comps, _, _, _, rfl⟩ := hpk
        exact j2.2.1 (by simp [stateKey])
    refine ⟨?_, fun hg => ?_⟩
    · rintro ⟨g, rfl, hgs, hgt⟩ hlen
      -- the bare name is listed, and its place is that of the key
      have hpg : Plain g := by
        obtain ⟨rest, at_, hmm⟩ := hgt
        obtain ⟨k', ⟨c, n, comps, pc, pn, px, rfl⟩, hl⟩ := hpd _ (List.mem_map.2 ⟨_, hmm, rfl⟩)
        rw [locOf_stateKey pc pn px] at hl
        cases hl
        exact pn
      have hnp : ¬ PlainKey g := by
        rintro ⟨c, n, comps, _, _, _, rfl⟩
        exact hpg.2.1 (by simp [stateKey])
      have hin : g ∈ Dict.keys r := by
        rw [← Dict.get?_isSome_iff]
        obtain ⟨a, b, c⟩ := h3 g hgs
        cases hc1 : (dget d.cache g).isNone with
        | false =>
          obtain ⟨e1, e2⟩ := dget_some (by rw [hc1]; simp : ¬ (dget d.cache g).isNone = true)
          exact absurd (hs.cache g _ e1 hc1).1 hnp
        | true =>
          cases hc2 : (dget d.pendingWrites g).isNone with
          | false =>
            obtain ⟨e1, e2⟩ := dget_some (by rw [hc2]; simp : ¬ (dget d.pendingWrites g).isNone = true)
            exact absurd (hs.pend g _ e1).1 hnp
          | true =>
            obtain ⟨v, _, hv⟩ := (c hc1 hc2).1 hgt
            rw [hv]; rfl
      have hl1 : locOf g = (g, [g]) := by
        obtain ⟨_, j2 | ⟨_, j3, _⟩⟩ := hkeys g hin
        · exact absurd j2.2 hnp
        · exact j3
      have hl2 : locOf (g ++ '.' :: g) = (g, [g]) := by
        have := locOf_stateKey hpg hpg (comps := []) (by simp)
        simpa [stateKey] using this
      have hf1 : fileOf g = fileOf (g ++ '.' :: g) := by
        rw [← parseKey_file, ← parseKey_file]
        exact (congrArg Prod.fst hl1).trans (congrArg Prod.fst hl2).symm
      have hval := f7 g hin (by rw [hf1]; exact hlen)
      rw [hl1, ← hl2] at hval
      rw [(Driver.get_frame _ _).2]
      have hm1 : dget d.pendingWrites (g ++ '.' :: g) = .none := by
        by_contra hne; exact hm (.inr hne)
      have hm2 : dget d.cache (g ++ '.' :: g) = .none := by
        by_contra hne; exact hm (.inl hne)
      exact find_none f0 (f3 _ hm1) (f4 _ hm2) hval
    · rw [(Driver.get_frame _ k).2, (Driver.get_frame _ k).2]
      exact find_eq (f0.trans hs.bypass.symm) (f1 k hnot).1 (f1 k hnot).2
        (f5 _ (hloc k hpk hnot (fun g _ hgs hgt he => hg ⟨g, he, hgs, hgt⟩)))
  · intro k hpk hk
    have hnot : k ∉ Dict.keys r := by
      intro hin
      rw [(hkeys k hin).1] at hk; cases hk
    rw [(Driver.get_frame _ k).2, (Driver.get_frame _ k).2]
    refine find_eq (f0.trans hs.bypass.symm) (f1 k hnot).1 (f1 k hnot).2 (f5 _ (hloc k hpk hnot ?_))
    rintro g _ hgs _ rfl
    have : startsWith (g ++ '.' :: g) name = true := by
      unfold startsWith at hgs ⊢
      rw [List.isPrefixOf_iff_prefix] at hgs ⊢
      exact hgs.trans (List.prefix_append _ _)
    rw [this] at hk; cases hk

/-- **C68 refuted.** (1) A committed contract is still there after `delete_contract`. (2) Deleting `con_a` deletes an
applied (on disk) value of the contract `con_ab`. -/
theorem C68_refuted :
    (let d := Spec.after (.open []) [.set {} (py! "con_a.__code__") (.str (py! "c")) false, .commit]
     let r := d.deleteContract (py! "con_a")
     r.1 = .ok () ∧ (r.2.get (py! "con_a.__code__")).1 = .ok (.str (py! "c"))) ∧
    (let d := Spec.after (.open []) [.set {} (py! "con_ab.x") (.int 5) false, .hardApply 1]
     let r := d.deleteContract (py! "con_a")
     (d.get (py! "con_ab.x")).1 = .ok (.int 5) ∧ r.1 = .ok () ∧ (r.2.rollback.get (py! "con_ab.x")).1 = .ok .none) := by
  refine ⟨⟨rfl, rfl⟩, ⟨rfl, rfl, rfl⟩⟩

/-- A non-trivial case of `C68_effect`: one applied and one committed value of the contract, and another
contract. -/
example :
    let d := Spec.after (.open []) [.set {} (py! "con_a.x") (.int 1) false, .set {} (py! "con_b.x") (.int 2) false, .commit,
      .set {} (py! "con_a.y") (.int 3) false, .hardApply 1]
    let d' := (d.deleteContract (py! "con_a")).2
    (d'.get (py! "con_a.x")).1 = .ok (.int 1) ∧ (d'.get (py! "con_b.x")).1 = .ok (.int 2) ∧ (d'.get (py! "con_a.y")).1 = .ok .none := by
  refine ⟨rfl, rfl, rfl⟩

/-! ## C69: the whole contract state -/

theorem joinColon_cons (n : Str) (comps : List Str) :
    Driver.allKeysFromFile.joinColon (n :: comps) = n ++ comps.flatMap fun c => ':' :: c := by
  simp [Driver.allKeysFromFile.joinColon, List.flatMap_def]

/-- The keys `get_all_contract_state` reads: those of the groups on the way to a place on disk. -/
theorem mem_allKeys {disk : Disk} (hp : PlainDisk disk) {k : Str} :
    k ∈ ((Driver.contractFiles disk).flatMap fun f => (Driver.allKeysFromFile disk f).map fun x => f ++ '.' :: x) ↔
    ∃ c n comps rest a, Plain c ∧ Plain n ∧ (∀ x ∈ comps, Plain x) ∧ startsWith c (py! "__") = false ∧
      k = stateKey c n comps ∧ ((c, n :: comps ++ rest), a) ∈ disk := by
  constructor
  · intro h
    obtain ⟨f, hf, hk⟩ := List.mem_flatMap.1 h
    obtain ⟨x, hx, rfl⟩ := List.mem_map.1 hk
    unfold Driver.contractFiles at hf
    rw [List.mem_filter] at hf
    unfold Driver.allKeysFromFile at hx
    rw [List.mem_dedup] at hx
    obtain ⟨q, hq, hx⟩ := List.mem_flatMap.1 hx
    obtain ⟨g, hg, rfl⟩ := List.mem_map.1 hx
    rw [List.mem_filter] at hq hg
    obtain ⟨hq1, hq2⟩ := hq
    simp only [decide_eq_true_eq] at hq2
    obtain ⟨hg1, hg2⟩ := hg
    rw [List.mem_inits] at hg1
    simp only [ne_eq, decide_eq_true_eq] at hg2
    obtain ⟨⟨f', path⟩, a⟩ := q
    simp only at hq2 hg1
    subst hq2
    obtain ⟨k, ⟨c, n, comps, pc, pn, px, rfl⟩, hl⟩ := hp _ (List.mem_map.2 ⟨_, hq1, rfl⟩)
    rw [locOf_stateKey pc pn px] at hl
    cases hl
    obtain ⟨rest, hrest⟩ := hg1
    cases g with
    | nil => exact absurd rfl hg2
    | cons n' comps' =>
      cases hrest
      refine ⟨f', _, comps', rest, a, pc, pn, fun x hx => px x (List.mem_append_left _ hx), by simpa using hf.2, ?_, hq1⟩
      rw [joinColon_cons]; rfl
  · rintro ⟨c, n, comps, rest, a, pc, pn, px, hu, rfl, hm⟩
    refine List.mem_flatMap.2 ⟨c, ?_, List.mem_map.2 ⟨_, ?_, rfl⟩⟩
    · unfold Driver.contractFiles
      rw [List.mem_filter, List.mem_dedup]
      exact ⟨List.mem_map.2 ⟨_, List.mem_map.2 ⟨_, hm, rfl⟩, rfl⟩, by simpa using hu⟩
    · unfold Driver.allKeysFromFile
      rw [List.mem_dedup]
      refine List.mem_flatMap.2 ⟨_, List.mem_filter.2 ⟨hm, by simp⟩, List.mem_map.2 ⟨n :: comps, ?_, ?_⟩⟩
      · rw [List.mem_filter, List.mem_inits]
        exact ⟨List.prefix_append _ _, by simp⟩
      · rw [joinColon_cons]

/-- **C69.** In every reachable state `get_all_contract_state` succeeds and changes only the record of reads. It
lists exactly the keys of contracts that have a group on disk (so every key with a committed value, and none that is only
pending), each with what a read of the key gives; when nothing is pending or cached the values other than `None`
are exactly the committed state of the contracts. -/
theorem C69_state {disk : Disk} (h : Readable disk) (hp : PlainDisk disk) (cs : List Call) (hc : ∀ c ∈ cs, c.OK) :
    let d := Spec.after (.open disk) cs
    ∃ r rd, d.getAllContractState = (.ok r, { d with pendingReads := rd }) ∧
      (∀ k v, Dict.get? r k = some v ↔
        (PlainKey k ∧ startsWith k (py! "__") = false ∧ ∃ l ∈ Dict.keys d.disk, l.1 = (locOf k).1 ∧ (locOf k).2 <+: l.2) ∧
        (d.get k).1 = .ok v) ∧
      (∀ k, PlainKey k → startsWith k (py! "__") = false → (d.disk.attrs (locOf k)).value ≠ none → ∃ v, Dict.get? r k = some v) ∧
      (d.cache = [] → d.pendingWrites = [] → ∀ k v, v ≠ .none →
        (Dict.get? r k = some v ↔ PlainKey k ∧ startsWith k (py! "__") = false ∧ d.disk.get (locOf k) = .ok v)) := by
  intro d
  have hs := (Sim.init h).after cs hc
  have hpd := after_plainDisk (Sim.init h) hp cs hc
  obtain ⟨r, rd, h1, h2, h3⟩ := itemsFromDisk_ok
    ((Driver.contractFiles d.disk).flatMap fun f => (Driver.allKeysFromFile d.disk f).map fun x => f ++ '.' :: x) d []
    (fun k _ => hs.find_any k)
  have hus : ∀ {c n : Str} {comps : List Str}, Plain c → startsWith (stateKey c n comps) (py! "__") = startsWith c (py! "__") := by
    intro c n comps pc
    match c, pc with
    | [], pc => exact absurd rfl pc.1
    | [a], pc =>
      simp [stateKey, startsWith, List.isPrefixOf]
    | a :: b :: c, pc => simp [stateKey, startsWith, List.isPrefixOf]
  have hsound : ∀ k v, Dict.get? r k = some v → PlainKey k ∧ startsWith k (py! "__") = false ∧ (d.get k).1 = .ok v := by
    intro k v hv
    by_cases hk : k ∈ ((Driver.contractFiles d.disk).flatMap fun f => (Driver.allKeysFromFile d.disk f).map fun x => f ++ '.' :: x)
    · obtain ⟨u, hu, hg⟩ := h3 k hk
      rw [hv] at hg
      cases hg
      obtain ⟨c, n, comps, rest, a, pc, pn, px, hu2, rfl, _⟩ := (mem_allKeys hpd).1 hk
      exact ⟨⟨c, n, comps, pc, pn, px, rfl⟩, by rw [hus pc]; exact hu2, by rw [(Driver.get_frame _ _).2]; exact hu⟩
    · rw [h2 k hk] at hv; cases hv
  have hcomplete : ∀ k, PlainKey k → startsWith k (py! "__") = false → (d.disk.attrs (locOf k)).value ≠ none →
      ∃ v, Dict.get? r k = some v := by
    rintro k ⟨c, n, comps, pc, pn, px, rfl⟩ hu hval
    have hin : stateKey c n comps ∈ ((Driver.contractFiles d.disk).flatMap fun f =>
        (Driver.allKeysFromFile d.disk f).map fun x => f ++ '.' :: x) := by
      rw [locOf_stateKey pc pn px] at hval
      rw [mem_allKeys hpd]
      cases hg : Dict.get? d.disk (c, n :: comps) with
      | none => unfold Disk.attrs at hval; rw [hg] at hval; exact absurd rfl hval
      | some a =>
        refine ⟨c, n, comps, [], a, pc, pn, px, by rw [← hus pc (n := n) (comps := comps)]; exact hu, rfl, ?_⟩
        rw [List.append_nil]
        exact Dict.mem_of_get? hg
    obtain ⟨v, _, hv⟩ := h3 _ hin
    exact ⟨v, hv⟩
  have hexact : ∀ k v, Dict.get? r k = some v ↔
        (PlainKey k ∧ startsWith k (py! "__") = false ∧ ∃ l ∈ Dict.keys d.disk, l.1 = (locOf k).1 ∧ (locOf k).2 <+: l.2) ∧
        (d.get k).1 = .ok v := by
    intro k v
    constructor
    · intro hv
      obtain ⟨e1, e2, e3⟩ := hsound k v hv
      refine ⟨⟨e1, e2, ?_⟩, e3⟩
      by_cases hk : k ∈ ((Driver.contractFiles d.disk).flatMap fun f => (Driver.allKeysFromFile d.disk f).map fun x => f ++ '.' :: x)
      · obtain ⟨c, n, comps, rest, a, pc, pn, px, hu2, rfl, hm⟩ := (mem_allKeys hpd).1 hk
        rw [locOf_stateKey pc pn px]
        exact ⟨_, List.mem_map.2 ⟨_, hm, rfl⟩, rfl, ⟨rest, rfl⟩⟩
      · rw [h2 k hk] at hv; cases hv
    · rintro ⟨⟨⟨c, n, comps, pc, pn, px, rfl⟩, e2, l, hl, hl1, rest, hl2⟩, e3⟩
      rw [locOf_stateKey pc pn px] at hl1 hl2
      obtain ⟨p, hp1, rfl⟩ := List.mem_map.1 hl
      have hin : stateKey c n comps ∈ ((Driver.contractFiles d.disk).flatMap fun f =>
          (Driver.allKeysFromFile d.disk f).map fun x => f ++ '.' :: x) := by
        rw [mem_allKeys hpd]
        refine ⟨c, n, comps, rest, p.2, pc, pn, px, by rw [← hus pc (n := n) (comps := comps)]; exact e2, rfl, ?_⟩
        obtain ⟨⟨f, g⟩, at_⟩ := p
        simp only at hl1 hl2
        subst hl1
        rw [← hl2] at hp1
        exact hp1
      obtain ⟨u, hu, hv⟩ := h3 _ hin
      rw [(Driver.get_frame _ _).2, hu] at e3
      cases e3
      exact hv
  refine ⟨r, rd, h1, hexact, hcomplete, ?_⟩
  intro hcache hpw k v hv
  have hget : (d.get k).1 = d.disk.get (locOf k) := by
    rw [(Driver.get_frame _ _).2]
    unfold Driver.find Driver.fromDisk dget
    simp [hcache, hpw, PyVal.isNone]
  constructor
  · intro hr
    obtain ⟨e1, e2, e3⟩ := hsound k v hr
    exact ⟨e1, e2, by rw [← hget]; exact e3⟩
  · rintro ⟨e1, e2, e3⟩
    obtain ⟨u, hu⟩ := hcomplete k e1 e2 (by
      intro hn
      unfold Disk.get at e3
      rw [hn] at e3
      cases e3
      exact hv rfl)
    obtain ⟨_, _, e4⟩ := hsound k u hu
    rw [hget, e3] at e4
    cases e4
    exact hu

/-- **C69 refuted.** A transfer is pending: the sender's committed balance 10 becomes 4, the receiver, new, gets 6. The
state listed has the sender's new balance and nothing for the receiver. -/
theorem C69_refuted :
    let d := Spec.after (.open []) [.set {} (py! "currency.balances:a") (.int 10) true, .commit,
      .set {} (py! "currency.balances:a") (.int 4) true, .set {} (py! "currency.balances:b") (.int 6) true]
    d.getAllContractState.1 = .ok [(py! "currency.balances", .none), (py! "currency.balances:a", .int 4)] := by
  decide +kernel

example : let d := Spec.after (.open []) [.set {} (py! "currency.balances:a") (.int 10) true, .set {} (py! "con_b.x") (.int 2) true, .commit]
    d.cache = [] ∧ d.pendingWrites = [] ∧ d.getAllContractState.1 =
      .ok [(py! "currency.balances", .none), (py! "currency.balances:a", .int 10), (py! "con_b.x", .int 2)] := by
  decide +kernel

/-! ## C70: listing the contracts -/

theorem removeAll_code (c : Str) (h : '.' ∉ c) : Driver.removeAll (py! ".__code__") (c ++ py! ".__code__") = c := by
  induction c with
  | nil =>
    rw [List.nil_append, Driver.removeAll, if_pos (by decide)]
    rw [show (List.drop ((py! ".__code__").length - 1) (py! "__code__")) = [] from rfl, Driver.removeAll]
  | cons a c ih =>
    simp only [List.mem_cons, not_or] at h
    rw [List.cons_append, Driver.removeAll, if_neg, ih h.2]
    rintro ⟨_, h2⟩
    unfold startsWith at h2
    rw [List.isPrefixOf_iff_prefix] at h2
    obtain ⟨t, ht⟩ := h2
    injection ht with h3
    exact h.1 h3

theorem code_suffix {c n : Str} {comps : List Str} (hc : Plain c) (hn : Plain n) (hx : ∀ x ∈ comps, Plain x)
    (h : endsWith (stateKey c n comps) (py! ".__code__") = true) : stateKey c n comps = c ++ py! ".__code__" := by
  unfold endsWith at h
  rw [List.isSuffixOf_iff_suffix] at h
  obtain ⟨t, ht⟩ := h
  have hnd : '.' ∉ n ++ comps.flatMap fun c => ':' :: c := by
    rw [List.mem_append, List.mem_flatMap]
    rintro (h | ⟨x, hx', hm⟩)
    · exact hn.2.1 h
    · rcases List.mem_cons.1 hm with hm | hm
      · cases hm
      · exact (hx x hx').2.1 hm
  have hu : py! "__code__" = n ++ comps.flatMap fun c => ':' :: c := by
    have e : t ++ '.' :: py! "__code__" = c ++ '.' :: (n ++ comps.flatMap fun c => ':' :: c) := ht
    have hsplit := splitFirst_append hc.2.1 (n ++ comps.flatMap fun c => ':' :: c)
    rw [← e] at hsplit
    by_cases htd : '.' ∈ t
    · exfalso
      -- the first dot is in `t`, so the rest contains another one
      obtain ⟨u, v, huv, hun⟩ : ∃ u v, t = u ++ '.' :: v ∧ '.' ∉ u := List.eq_append_cons_of_mem htd
      rw [huv, List.append_assoc, List.cons_append, splitFirst_append hun] at hsplit
      have := Option.some.inj (congrArg Prod.snd hsplit)
      exact hnd (by rw [← this]; simp)
    · rw [splitFirst_append htd] at hsplit
      exact Option.some.inj (congrArg Prod.snd hsplit)
  unfold stateKey
  rw [← hu]

/-- **C70.** In every reachable state `get_contracts` lists exactly the names whose code is pending or cached (so none
whose code is only on disk, that is, none after a commit or a restart). -/
theorem C70_listed {disk : Disk} (h : Readable disk) (hp : PlainDisk disk) (cs : List Call) (hc : ∀ c ∈ cs, c.OK) :
    let d := Spec.after (.open disk) cs
    ∃ r rd, d.getContracts = (.ok r, { d with pendingReads := rd }) ∧
      ∀ c, c ∈ r ↔ Plain c ∧ InMemory d (c ++ py! ".__code__") := by
  intro d
  have hs := (Sim.init h).after cs hc
  have hpd := after_plainDisk (Sim.init h) hp cs hc
  obtain ⟨r, rd, h1, _, h3⟩ := items_ok hs.cwf hs.wf hs.find_any []
  have hnt : ∀ k, ¬ TopGroup d.disk (fileOf []) k := by
    rintro k ⟨rest, a, hm⟩
    obtain ⟨k', ⟨c, n, comps, pc, pn, px, rfl⟩, hl⟩ := hpd _ (List.mem_map.2 ⟨_, hm, rfl⟩)
    rw [locOf_stateKey pc pn px] at hl
    cases hl
    exact pc.1 rfl
  have hmem : ∀ k, k ∈ Dict.keys r ↔ InMemory d k := by
    intro k
    rw [← Dict.get?_isSome_iff]
    obtain ⟨a, b, c⟩ := h3 k rfl
    unfold InMemory
    cases hc1 : (dget d.cache k).isNone with
    | false =>
      rw [a hc1]
      exact ⟨fun _ => .inl fun he => (by rw [he] at hc1; cases hc1), fun _ => rfl⟩
    | true =>
      cases hc2 : (dget d.pendingWrites k).isNone with
      | false =>
        rw [b hc1 hc2]
        exact ⟨fun _ => .inr fun he => (by rw [he] at hc2; cases hc2), fun _ => rfl⟩
      | true =>
        rw [(c hc1 hc2).2 (hnt k)]
        refine ⟨fun h => by (cases h), fun h => ?_⟩
        rcases h with h | h
        · exact absurd (isNone_iff.1 hc1) h
        · exact absurd (isNone_iff.1 hc2) h
  have hplain : ∀ k, InMemory d k → PlainKey k := by
    rintro k (hk | hk)
    · have hn := isNone_false hk
      obtain ⟨e1, _⟩ := dget_some (by rw [hn]; simp : ¬ (dget d.cache k).isNone = true)
      exact (hs.cache k _ e1 hn).1
    · have hn := isNone_false hk
      obtain ⟨e1, _⟩ := dget_some (by rw [hn]; simp : ¬ (dget d.pendingWrites k).isNone = true)
      exact (hs.pend k _ e1).1
  refine ⟨((Dict.keys r).filter fun k => endsWith k (py! ".__code__")).map (Driver.removeAll (py! ".__code__")), rd, ?_, ?_⟩
  · unfold Driver.getContracts
    rw [show d.items [] = (.ok r, { d with pendingReads := rd }) from h1]
  · intro c
    rw [List.mem_map]
    constructor
    · rintro ⟨k, hk, rfl⟩
      rw [List.mem_filter, hmem] at hk
      obtain ⟨c, n, comps, pc, pn, px, rfl⟩ := hplain k hk.1
      have he := code_suffix pc pn px hk.2
      rw [he, removeAll_code c pc.2.1]
      rw [he] at hk
      exact ⟨pc, hk.1⟩
    · rintro ⟨pc, hm⟩
      refine ⟨c ++ py! ".__code__", List.mem_filter.2 ⟨(hmem _).2 hm, ?_⟩, removeAll_code c pc.2.1⟩
      unfold endsWith
      rw [List.isSuffixOf_iff_suffix]
      exact List.suffix_append _ _

/-- **C70 refuted**: after the commit that makes a deployment durable the contract is no longer listed, though its code
can be read. -/
theorem C70_refuted :
    let d := Spec.after (.open []) [.set {} (py! "con_a.__code__") (.str (py! "c")) false]
    d.getContracts.1 = .ok [py! "con_a"] ∧ d.commit.2.getContracts.1 = .ok [] ∧
    (d.commit.2.get (py! "con_a.__code__")).1 = .ok (.str (py! "c")) := by
  refine ⟨by decide +kernel, by decide +kernel, rfl⟩

/-! ## C71: flushing -/

/-- **C71.** After `flush_full`, in any state, every key reads `None` (also from a fresh driver), every listing is
empty, and no pending write, transaction write, event or delta is left. -/
theorem C71_full (d : Driver) :
    (∀ k, (d.flushFull.get k).1 = .ok .none ∧ ((Driver.open d.flushFull.disk).get k).1 = .ok .none) ∧
    (∀ p, (d.flushFull.items p).1 = .ok []) ∧ d.flushFull.getContracts.1 = .ok [] ∧ d.flushFull.getAllContractState.1 = .ok [] ∧
    d.flushFull.pendingWrites = [] ∧ d.flushFull.txWrites = [] ∧ d.flushFull.events = [] ∧ d.flushFull.pendingDeltas = [] := by
  have hg : ∀ k, d.flushFull.find k = .ok .none := by
    intro k
    unfold Driver.find Driver.fromDisk
    cases d.flushFull.bypass <;> rfl
  refine ⟨fun k => ⟨by rw [(Driver.get_frame _ k).2, hg k], by rw [(Driver.get_frame _ k).2]; rfl⟩, fun p => rfl, rfl, rfl,
    rfl, rfl, rfl, rfl⟩

/-- **C71, one file.** `flush_file(f)` removes the committed values of all keys of file `f` and of no other; memory is
untouched. -/
theorem C71_file (d : Driver) (f : Str) :
    (∀ k, fileOf k = f → ((Driver.open (d.flushFile f).disk).get k).1 = .ok .none) ∧
    (∀ k, fileOf k ≠ f → ((Driver.open (d.flushFile f).disk).get k).1 = ((Driver.open d.disk).get k).1) ∧
    (d.flushFile f).pendingWrites = d.pendingWrites ∧ (d.flushFile f).cache = d.cache := by
  have hget : ∀ (disk : Disk) (l : Loc), Dict.get? (disk.filter fun p => decide (p.1.1 ≠ f)) l =
      if l.1 = f then none else Dict.get? disk l := by
    intro disk l
    induction disk with
    | nil => simp
    | cons p disk ih =>
      obtain ⟨l', a⟩ := p
      by_cases hf : l'.1 = f
      · rw [List.filter_cons_of_neg (by simpa using hf), ih, Dict.get?_cons]
        by_cases he : l' = l
        · subst he; simp [hf]
        · rw [if_neg he]
      · rw [List.filter_cons_of_pos (by simpa using hf), Dict.get?_cons, Dict.get?_cons, ih]
        by_cases he : l' = l
        · subst he; simp [hf]
        · simp [he]
  have hfind : ∀ (disk : Disk) (k : Str), ((Driver.open disk).get k).1 = disk.get (locOf k) := fun disk k => by
    rw [(Driver.get_frame _ k).2]; rfl
  have hfile : ∀ k, (locOf k).1 = fileOf k := parseKey_file
  refine ⟨fun k hk => ?_, fun k hk => ?_, rfl, rfl⟩
  · rw [hfind]
    unfold Disk.get Disk.attrs Driver.flushFile
    simp only [hget, hfile, hk, if_true, Option.getD_none]
  · rw [hfind, hfind]
    unfold Disk.get Disk.attrs Driver.flushFile
    simp only [hget, hfile, if_neg hk]

/-! ## C72: the submission contract of a client -/

/-- An empty driver apart from what is pending. -/
def pendingOnly (rd pw : Dict Str PyVal) : Driver := { pendingReads := rd, pendingWrites := pw }

theorem pendingOnly_find (rd pw : Dict Str PyVal) (k : Str) : ∃ u, (pendingOnly rd pw).find k = .ok u := by
  unfold Driver.find pendingOnly Driver.fromDisk
  simp only [Bool.false_eq_true, if_false]
  split
  · exact ⟨_, rfl⟩
  · exact ⟨_, rfl⟩

theorem pendingOnly_setMany (ps : List (Str × PyVal)) (hs : ∀ p ∈ ps, Storable p.2 ∧ normValue p.2 = .ok p.2) : ∀ (rd pw : Dict Str PyVal),
    ∃ rd', (pendingOnly rd pw).setMany ps = (.ok (), pendingOnly rd' (ps.foldl (fun c p => Dict.set c p.1 p.2) pw)) := by
  induction ps with
  | nil => exact fun rd pw => ⟨rd, rfl⟩
  | cons p ps ih =>
    intro rd pw
    obtain ⟨k, v⟩ := p
    obtain ⟨h1, h2⟩ := hs (k, v) (by simp)
    simp only at h1 h2
    obtain ⟨j, hj, _⟩ := good_encode h1
    obtain ⟨u, hu⟩ := pendingOnly_find rd pw k
    have hset : ∃ rd1, (pendingOnly rd pw).set {} k v false = (.ok (), {}, pendingOnly rd1 (Dict.set pw k v)) := by
      unfold Driver.set
      have he : encode v = .ok j.print := by unfold encode; rw [hj]; rfl
      have hm : ∀ n, Meter.deductWrite {} n = (.ok (), {}) := fun n => rfl
      simp only [he, hm, h2]
      by_cases hr : (dget (pendingOnly rd pw).pendingReads k).isNone = true
      · simp only [hr, if_true, Driver.get, hu]
        exact ⟨_, rfl⟩
      · simp only [hr, if_false, Bool.false_eq_true]
        exact ⟨rd, rfl⟩
    obtain ⟨rd1, hset⟩ := hset
    obtain ⟨rd', hih⟩ := ih (fun q hq => hs q (by simp [hq])) rd1 (Dict.set pw k v)
    exact ⟨rd', by rw [Driver.setMany, hset]; exact hih⟩

/-- **C72, fresh start.** `client.flush()`, in any state of the storage, leaves exactly the submission contract:
its code is the given text, and every other key reads `None`, for the client and for a fresh driver on the directory. -/
theorem C72_flush (T : Toolchain) (parses : PyVal → Bool) (d : Driver) (hb : d.bypass = false) (text : Str)
    (blob : List (Fin 256)) (ht : T.marshal text = .ok blob) (t : DateTime) (htime : T.importTime = .time t) (hts : Storable (.time t))
    (hp1 : parses .none = true) (hp2 : parses (.str text) = true) :
    ∃ d', d.clientFlush T parses text = (.ok (), d') ∧
      ∀ k, PlainKey k → ((Driver.open d'.disk).get k).1 = (d'.get k).1 ∧ ∃ w, (d'.get k).1 = .ok w ∧
        PyEq (if k = py! "submission.__code__" then .str text
              else if k = py! "submission.__compiled__" then .bytes blob
              else if k = py! "submission.__submitted__" then .time t else .none) w := by
  have h0 : d.flushFull.flushCache = pendingOnly [] [] := by
    unfold Driver.flushFull Driver.flushDisk Driver.flushCache pendingOnly
    simp only [hb]
  unfold Driver.clientFlush
  rw [h0]
  have hget : (pendingOnly [] []).get (codeKey (py! "submission")) =
      (.ok .none, pendingOnly [(codeKey (py! "submission"), .none)] []) := rfl
  have hdel : (pendingOnly [(codeKey (py! "submission"), .none)] []).deleteContract (py! "submission") =
      (.ok (), pendingOnly [(codeKey (py! "submission"), .none)] []) := rfl
  have hget2 : (pendingOnly [(codeKey (py! "submission"), .none)] []).get (codeKey (py! "submission")) =
      (.ok .none, pendingOnly [(codeKey (py! "submission"), .none)] []) := rfl
  let ps : List (Str × PyVal) := [(codeKey (py! "submission"), .str text), (compiledKey (py! "submission"), .bytes blob),
    (ownerKey (py! "submission"), .none), (timeKey (py! "submission"), .time t), (developerKey (py! "submission"), .none)]
  have hstor : ∀ p ∈ ps, Storable p.2 ∧ normValue p.2 = .ok p.2 := by
    intro p hp
    simp only [ps, List.mem_cons, List.not_mem_nil, or_false] at hp
    rcases hp with rfl | rfl | rfl | rfl | rfl
    · exact ⟨trivial, rfl⟩
    · exact ⟨trivial, rfl⟩
    · exact ⟨trivial, rfl⟩
    · exact ⟨hts, rfl⟩
    · exact ⟨trivial, rfl⟩
  obtain ⟨rd', hmany⟩ := pendingOnly_setMany ps hstor [(codeKey (py! "submission"), .none)] []
  have hfold : ps.foldl (fun c p => Dict.set c p.1 p.2) ([] : Dict Str PyVal) = ps := rfl
  rw [hfold] at hmany
  have hplain : ∀ p ∈ ps, PlainKey p.1 := by
    intro p hp
    simp only [ps, List.mem_cons, List.not_mem_nil, or_false] at hp
    rcases hp with rfl | rfl | rfl | rfl | rfl
    · exact ⟨py! "submission", py! "__code__", [], by decide, by decide, by simp, rfl⟩
    · exact ⟨py! "submission", py! "__compiled__", [], by decide, by decide, by simp, rfl⟩
    · exact ⟨py! "submission", py! "__owner__", [], by decide, by decide, by simp, rfl⟩
    · exact ⟨py! "submission", py! "__submitted__", [], by decide, by decide, by simp, rfl⟩
    · exact ⟨py! "submission", py! "__developer__", [], by decide, by decide, by simp, rfl⟩
  have hwf : Dict.WF ps := by
    show [codeKey (py! "submission"), compiledKey (py! "submission"), ownerKey (py! "submission"), timeKey (py! "submission"),
      developerKey (py! "submission")].Nodup
    decide
  obtain ⟨disk', c1, c2, c3⟩ := commitLoop_ok ps [] (fun p hp => ⟨hplain p hp, (hstor p hp).1⟩) hwf
  have hcommit : (pendingOnly rd' ps).commit = (.ok (), { disk := disk' }) := by
    unfold Driver.commit
    rw [show (pendingOnly rd' ps).disk = [] from rfl, show (pendingOnly rd' ps).pendingWrites = ps from rfl, c1]
    rfl
  have hread : ∀ k, PlainKey k → ∃ w, disk'.get (locOf k) = .ok w ∧
        PyEq (if k = py! "submission.__code__" then .str text
              else if k = py! "submission.__compiled__" then .bytes blob
              else if k = py! "submission.__submitted__" then .time t else .none) w := by
    intro k hk
    by_cases hin : ∃ p ∈ ps, p.1 = k
    · obtain ⟨p, hp, rfl⟩ := hin
      obtain ⟨_, w, hw, he⟩ := c3 p hp
      refine ⟨w, hw, ?_⟩
      simp only [ps, List.mem_cons, List.not_mem_nil, or_false] at hp
      rcases hp with rfl | rfl | rfl | rfl | rfl <;> exact he
    · have hne : ∀ p ∈ ps, locOf p.1 ≠ locOf k := fun p hp he => hin ⟨p, hp, locOf_inj (hplain p hp) hk he⟩
      have hk' : ∀ p ∈ ps, k ≠ p.1 := fun p hp he => hin ⟨p, hp, he.symm⟩
      refine ⟨.none, ?_, ?_⟩
      · have ha := c2 _ hne
        unfold Disk.get
        rw [ha]
        rfl
      · rw [if_neg (show ¬ k = py! "submission.__code__" from hk' (codeKey (py! "submission"), .str text) (by simp [ps])),
          if_neg (show ¬ k = py! "submission.__compiled__" from hk' (compiledKey (py! "submission"), .bytes blob) (by simp [ps])),
          if_neg (show ¬ k = py! "submission.__submitted__" from hk' (timeKey (py! "submission"), .time t) (by simp [ps]))]
        exact PyEq.refl _
  have hcodep : PlainKey (codeKey (py! "submission")) := hplain (codeKey (py! "submission"), .str text) (by simp [ps])
  obtain ⟨w, hw, he⟩ := hread (codeKey (py! "submission")) hcodep
  rw [if_pos (show codeKey (py! "submission") = py! "submission.__code__" from rfl)] at he
  have hwt : w = .str text := by cases w <;> simp only [PyEq] at he <;> first | (cases he; done) | (cases he; rfl)
  subst hwt
  have hfin : ({ disk := disk' } : Driver).get (codeKey (py! "submission")) =
      (.ok (.str text), { disk := disk', pendingReads := [(codeKey (py! "submission"), .str text)] }) := by
    have : ({ disk := disk' } : Driver).find (codeKey (py! "submission")) = .ok (.str text) := hw
    unfold Driver.get
    rw [this]
    rfl
  refine ⟨{ disk := disk', pendingReads := [(codeKey (py! "submission"), .str text)] }, ?_, ?_⟩
  · unfold Driver.setSubmissionContract
    simp only [hget, hp1, Bool.true_eq_false, if_false, hdel]
    unfold Driver.setContractDefault
    simp only [hget2, PyVal.isNone, if_true, ht, htime]
    have hmany' : Driver.setMany (pendingOnly [(codeKey (py! "submission"), .none)] [])
        [(codeKey (py! "submission"), .str text), (compiledKey (py! "submission"), .bytes blob),
         (ownerKey (py! "submission"), .none), (timeKey (py! "submission"), .time t),
         (developerKey (py! "submission"), .none)] = (.ok (), pendingOnly rd' ps) := hmany
    simp only [hmany']
    simp only [hcommit, hfin, hp2, Bool.true_eq_false, if_false]
  · intro k hk
    obtain ⟨w, hw, he⟩ := hread k hk
    have h1 : ({ disk := disk', pendingReads := [(codeKey (py! "submission"), .str text)] } : Driver).find k = .ok w := hw
    refine ⟨?_, w, ?_, he⟩
    · rw [(Driver.get_frame _ k).2, (Driver.get_frame _ k).2]; rfl
    · rw [(Driver.get_frame _ k).2]; exact h1

theorem setMany_ok (ps : List (Str × PyVal)) (hs : ∀ p ∈ ps, Storable p.2 ∧ normValue p.2 = .ok p.2) : ∀ (d : Driver),
    Readable d.disk → ∃ rd, d.setMany ps =
      (.ok (), { d with pendingReads := rd, pendingWrites := ps.foldl (fun c p => Dict.set c p.1 p.2) d.pendingWrites }) := by
  induction ps with
  | nil => exact fun d _ => ⟨d.pendingReads, rfl⟩
  | cons p ps ih =>
    intro d hr
    obtain ⟨k, v⟩ := p
    obtain ⟨h1, h2⟩ := hs (k, v) (by simp)
    simp only at h1 h2
    obtain ⟨j, hj, _⟩ := good_encode h1
    have hfind : ∃ u, d.find k = .ok u := by
      unfold Driver.find Driver.fromDisk
      obtain ⟨w, hw⟩ := hr (locOf k)
      split
      · exact ⟨w, hw⟩
      · simp only
        split
        · split
          · exact ⟨w, hw⟩
          · exact ⟨_, rfl⟩
        · exact ⟨_, rfl⟩
    obtain ⟨u, hu⟩ := hfind
    have hset : ∃ rd1, d.set {} k v false =
        (.ok (), {}, { d with pendingReads := rd1, pendingWrites := Dict.set d.pendingWrites k v }) := by
      unfold Driver.set
      have he : encode v = .ok j.print := by unfold encode; rw [hj]; rfl
      have hm : ∀ n, Meter.deductWrite {} n = (.ok (), {}) := fun n => rfl
      simp only [he, hm, h2]
      by_cases hr : (dget d.pendingReads k).isNone = true
      · simp only [hr, if_true, Driver.get, hu]
        exact ⟨_, rfl⟩
      · simp only [hr, if_false, Bool.false_eq_true]
        exact ⟨d.pendingReads, rfl⟩
    obtain ⟨rd1, hset⟩ := hset
    obtain ⟨rd', hih⟩ := ih (fun q hq => hs q (by simp [hq])) _ (show Readable ({ d with pendingReads := rd1, pendingWrites := Dict.set d.pendingWrites k v } : Driver).disk from hr)
    exact ⟨rd', by rw [Driver.setMany, hset]; exact hih⟩

theorem foldl_deleteContractKey_inv (ks : List Str) : ∀ (d : Driver), Readable d.disk → Dict.WF d.pendingWrites →
    (∀ p ∈ d.pendingWrites, PlainKey p.1 ∧ Storable p.2) →
    Readable (ks.foldl Driver.deleteContractKey d).disk ∧ Dict.WF (ks.foldl Driver.deleteContractKey d).pendingWrites ∧
    (∀ p ∈ (ks.foldl Driver.deleteContractKey d).pendingWrites, PlainKey p.1 ∧ Storable p.2) := by
  induction ks with
  | nil => exact fun d h1 h2 h3 => ⟨h1, h2, h3⟩
  | cons k ks ih =>
    intro d h1 h2 h3
    rw [List.foldl_cons]
    have hdel : Readable (d.disk.applyAll (Disk.deleteOps d.disk (locOf k))) := by
      intro l
      by_cases hl : locOf k = l
      · subst hl
        refine ⟨.none, ?_⟩
        unfold Disk.get
        rw [Disk.attrs_deleteOps]
      · rw [Disk.get_congr (Disk.attrs_applyAll_ne d.disk _ (fun op hop => by rw [Disk.deleteOps_loc op hop]; exact hl))]
        exact h1 l
    refine ih _ ?_ ?_ ?_ <;> unfold Driver.deleteContractKey Driver.deleteKeyFromDisk <;>
      by_cases c1 : (dget d.cache k).isNone = true <;> by_cases c2 : (dget d.pendingWrites k).isNone = true <;>
      simp only [c1, c2, if_true, if_false, Bool.false_eq_true] <;> split
    all_goals first
      | exact hdel
      | exact h1
      | exact h2
      | exact h2.erase k
      | exact h3
      | exact fun p hp => h3 p (Dict.mem_of_get? (by
          have hg := Dict.get?_of_mem (h2.erase k) hp
          rw [Dict.get?_erase] at hg
          split at hg
          · cases hg
          · exact hg))

/-- **C72, installing.** In every reachable state in which the submission contract is absent, or is in memory (pending
or cached), `set_submission_contract` installs the given text, durably. -/
theorem C72_set {disk : Disk} (h : Readable disk) (hp : PlainDisk disk) (cs : List Call) (hc : ∀ c ∈ cs, c.OK)
    (T : Toolchain) (parses : PyVal → Bool) (text : Str)
    (blob : List (Fin 256)) (ht : T.marshal text = .ok blob) (t : DateTime) (htime : T.importTime = .time t) (hts : Storable (.time t))
    (hp2 : parses (.str text) = true) :
    let d := Spec.after (.open disk) cs
    ∀ v, (d.get (py! "submission.__code__")).1 = .ok v → parses v = true →
      (v = .none ∨ InMemory d (py! "submission.__code__")) →
      ∃ d', d.setSubmissionContract T parses text true = (.ok (), d') ∧
        (d'.get (py! "submission.__code__")).1 = .ok (.str text) ∧
        ((Driver.open d'.disk).get (py! "submission.__code__")).1 = .ok (.str text) := by
  intro d v hg hpv hcase
  let cs' := cs ++ [Call.get (py! "submission.__code__")]
  have hc' : ∀ c ∈ cs', c.OK := fun c hcm => by
    rcases List.mem_append.1 hcm with hcm | hcm
    · exact hc c hcm
    · simp only [List.mem_singleton] at hcm; subst hcm; trivial
  have hafter : ∀ (cs : List Call) (d0 : Driver) (k : Str), Spec.after d0 (cs ++ [.get k]) = ((Spec.after d0 cs).get k).2 := by
    intro cs
    induction cs with
    | nil => intro d0 k; rfl
    | cons c cs ih => intro d0 k; exact ih _ k
  have hd1 : Spec.after (.open disk) cs' = (d.get (py! "submission.__code__")).2 := hafter cs _ _
  have hs := (Sim.init h).after cs' hc'
  rw [hd1] at hs
  have hfr := Driver.get_frame d (py! "submission.__code__")
  generalize hde : (d.get (py! "submission.__code__")).2 = d1 at *
  obtain ⟨d2, e1, e2, e3, _⟩ := C68_effect h hp cs' hc' (py! "submission")
  simp only [hd1] at e1 e2 e3
  have hplain : PlainKey (py! "submission.__code__") :=
    ⟨py! "submission", py! "__code__", [], by decide, by decide, by simp, rfl⟩
  have hnone : (d2.get (py! "submission.__code__")).1 = .ok .none := by
    by_cases hm : InMemory d1 (py! "submission.__code__")
    · exact e2 _ (by decide) hm (by decide)
    · have hm0 : ¬ InMemory d (py! "submission.__code__") := by
        intro hm0; apply hm; rw [hfr.1]; exact hm0
      have hvn : v = .none := by
        rcases hcase with h | h
        · exact h
        · exact absurd h hm0
      by_cases hx : ∃ g, (py! "submission.__code__") = g ++ '.' :: g ∧ startsWith g (py! "submission") = true ∧
          TopGroup d1.disk (fileOf (py! "submission")) g
      · exact (e3 _ hplain (by decide) hm).1 hx (by decide)
      · rw [(e3 _ hplain (by decide) hm).2 hx, (Driver.get_frame _ _).2, hfr.1, find_of_reads, ← hfr.2, hg, hvn]
  obtain ⟨inv1, inv2, inv3⟩ : Readable d2.disk ∧ Dict.WF d2.pendingWrites ∧ ∀ p ∈ d2.pendingWrites, PlainKey p.1 ∧ Storable p.2 := by
    obtain ⟨r, rd, h1, _, _⟩ := items_ok hs.cwf hs.wf hs.find_any (py! "submission")
    unfold Driver.deleteContract at e1
    rw [h1] at e1
    cases e1
    exact foldl_deleteContractKey_inv _ _ hs.readable hs.wf hs.pend_mem
  let ps : List (Str × PyVal) := [(codeKey (py! "submission"), .str text), (compiledKey (py! "submission"), .bytes blob),
    (ownerKey (py! "submission"), .none), (timeKey (py! "submission"), .time t), (developerKey (py! "submission"), .none)]
  have hstor : ∀ p ∈ ps, Storable p.2 ∧ normValue p.2 = .ok p.2 := by
    intro p hp
    simp only [ps, List.mem_cons, List.not_mem_nil, or_false] at hp
    rcases hp with rfl | rfl | rfl | rfl | rfl
    · exact ⟨trivial, rfl⟩
    · exact ⟨trivial, rfl⟩
    · exact ⟨trivial, rfl⟩
    · exact ⟨hts, rfl⟩
    · exact ⟨trivial, rfl⟩
  have hplains : ∀ p ∈ ps, PlainKey p.1 := by
    intro p hp
    simp only [ps, List.mem_cons, List.not_mem_nil, or_false] at hp
    rcases hp with rfl | rfl | rfl | rfl | rfl
    · exact ⟨py! "submission", py! "__code__", [], by decide, by decide, by simp, rfl⟩
    · exact ⟨py! "submission", py! "__compiled__", [], by decide, by decide, by simp, rfl⟩
    · exact ⟨py! "submission", py! "__owner__", [], by decide, by decide, by simp, rfl⟩
    · exact ⟨py! "submission", py! "__submitted__", [], by decide, by decide, by simp, rfl⟩
    · exact ⟨py! "submission", py! "__developer__", [], by decide, by decide, by simp, rfl⟩
  have hget2 := Driver.get_frame d2 (py! "submission.__code__")
  rcases hg2 : d2.get (py! "submission.__code__") with ⟨r2, d3⟩
  rw [hg2] at hget2 hnone
  simp only at hget2 hnone
  subst hnone
  obtain ⟨rd, hmany⟩ := setMany_ok ps hstor d3 (by rw [hget2.1]; exact inv1)
  have hpend : d3.pendingWrites = d2.pendingWrites := by rw [hget2.1]
  have hdisk3 : d3.disk = d2.disk := by rw [hget2.1]
  let pw := ps.foldl (fun c p => Dict.set c p.1 p.2) d3.pendingWrites
  have hfold : ∀ (ps : List (Str × PyVal)) (c : Dict Str PyVal), Dict.WF c → (∀ p ∈ c, PlainKey p.1 ∧ Storable p.2) →
      (∀ p ∈ ps, PlainKey p.1 ∧ Storable p.2) →
      Dict.WF (ps.foldl (fun c p => Dict.set c p.1 p.2) c) ∧
        ∀ p ∈ ps.foldl (fun c p => Dict.set c p.1 p.2) c, PlainKey p.1 ∧ Storable p.2 := by
    intro ps
    induction ps with
    | nil => exact fun c h1 h2 _ => ⟨h1, h2⟩
    | cons q ps ih =>
      intro c h1 h2 h3
      refine ih _ (h1.set _ _) (fun p hp => ?_) (fun p hp => h3 p (by simp [hp]))
      have hg := Dict.get?_of_mem (h1.set q.1 q.2) hp
      rw [Dict.get?_set] at hg
      split at hg
      · rename_i he
        have := h3 q (by simp)
        rw [← he, ← Option.some.inj hg]; exact this
      · exact h2 p (Dict.mem_of_get? hg)
  obtain ⟨w1, w2⟩ := hfold ps d3.pendingWrites (by rw [hpend]; exact inv2) (by rw [hpend]; exact inv3)
    (fun p hp => ⟨hplains p hp, (hstor p hp).1⟩)
  obtain ⟨disk', c1, _, c3⟩ := commitLoop_ok pw d3.disk w2 w1
  have hcode : Dict.get? pw (py! "submission.__code__") = some (.str text) := by
    have hl : ∀ c : Dict Str PyVal, Dict.get? (ps.foldl (fun c p => Dict.set c p.1 p.2) c) (py! "submission.__code__") = some (.str text) := by
      intro c
      simp only [ps, List.foldl_cons, List.foldl_nil]
      rw [Dict.get?_set_ne _ _ (by decide), Dict.get?_set_ne _ _ (by decide), Dict.get?_set_ne _ _ (by decide),
        Dict.get?_set_ne _ _ (by decide), show (py! "submission.__code__") = codeKey (py! "submission") from rfl, Dict.get?_set_self]
    exact hl _
  obtain ⟨_, w, hw, he⟩ := c3 _ (Dict.mem_of_get? hcode)
  have hwt : w = .str text := by
    simp only at he
    cases w <;> simp only [PyEq] at he <;> first | (cases he; done) | (cases he; rfl)
  subst hwt
  simp only at hw
  have hb : d3.bypass = false := by
    rw [hget2.1]
    obtain ⟨r, rd, h1, _, _⟩ := items_ok hs.cwf hs.wf hs.find_any (py! "submission")
    unfold Driver.deleteContract at e1
    rw [h1] at e1
    cases e1
    exact (foldl_deleteContractKey (Dict.keys r) { d1 with pendingReads := rd } hs.bypass).1
  let d4 : Driver := { d3 with pendingReads := rd, pendingWrites := pw }
  let d5 : Driver := { d4 with disk := disk', cache := [], pendingWrites := [], pendingReads := [] }
  have hcommit : d4.commit = (.ok (), d5) := by
    unfold Driver.commit
    rw [show d4.disk = d3.disk from rfl, show d4.pendingWrites = pw from rfl, c1]
  have hf5 : d5.find (py! "submission.__code__") = .ok (.str text) := by
    show (if d3.bypass then _ else _) = _
    rw [hb]
    exact hw
  have hg5 : d5.get (py! "submission.__code__") = (.ok (.str text), (d5.get (py! "submission.__code__")).2) := by
    rw [← hf5, ← (Driver.get_frame d5 _).2]
  refine ⟨(d5.get (py! "submission.__code__")).2, ?_, ?_, ?_⟩
  · unfold Driver.setSubmissionContract
    have hd : d.get (codeKey (py! "submission")) = (.ok v, d1) := by
      rw [show codeKey (py! "submission") = py! "submission.__code__" from rfl, ← hg, ← hde]
    rw [hd]
    simp only [hpv, Bool.true_eq_false, if_false, e1]
    unfold Driver.setContractDefault
    rw [show codeKey (py! "submission") = py! "submission.__code__" from rfl, hg2]
    simp only [PyVal.isNone, if_true, ht, htime]
    have hmany' : d3.setMany [(py! "submission.__code__", .str text), (compiledKey (py! "submission"), .bytes blob),
        (ownerKey (py! "submission"), .none), (timeKey (py! "submission"), .time t), (developerKey (py! "submission"), .none)] =
        (.ok (), d4) := hmany
    rw [hmany']
    simp only [hcommit]
    rw [hg5]
    simp only [hp2, Bool.true_eq_false, if_false]
  · rw [(Driver.get_frame _ _).2, (Driver.get_frame d5 _).1, find_of_reads]; exact hf5
  · rw [(Driver.get_frame _ _).2, (Driver.get_frame d5 _).1]
    exact hw

/-- **C72, an installed submission contract stays.** In every reachable state in which the submission contract is
committed and not in memory, `set_submission_contract` (here without its final commit) with any file leaves the code as it was. -/
theorem C72_kept {disk : Disk} (h : Readable disk) (hp : PlainDisk disk) (cs : List Call) (hc : ∀ c ∈ cs, c.OK)
    (T : Toolchain) (parses : PyVal → Bool) (text : Str) :
    let d := Spec.after (.open disk) cs
    ∀ v, v ≠ .none → ¬ InMemory d (py! "submission.__code__") → (d.get (py! "submission.__code__")).1 = .ok v →
      (((d.setSubmissionContract T parses text false).2).get (py! "submission.__code__")).1 = .ok v := by
  intro d v hv hm hg
  obtain ⟨d', h1, _, h2, _⟩ := C68_effect h hp (cs ++ [.get (py! "submission.__code__")])
    (fun c hcm => by
      rcases List.mem_append.1 hcm with hcm | hcm
      · exact hc c hcm
      · simp only [List.mem_singleton] at hcm; subst hcm; trivial) (py! "submission")
  have hplain : PlainKey (py! "submission.__code__") :=
    ⟨py! "submission", py! "__code__", [], by decide, by decide, by simp, rfl⟩
  have hafter : ∀ (cs : List Call) (d0 : Driver) (k : Str), Spec.after d0 (cs ++ [.get k]) = ((Spec.after d0 cs).get k).2 := by
    intro cs
    induction cs with
    | nil => intro d0 k; rfl
    | cons c cs ih => intro d0 k; exact ih _ k
  have hd1 : Spec.after (.open disk) (cs ++ [.get (py! "submission.__code__")]) = (d.get (py! "submission.__code__")).2 := hafter _ _ _
  rw [hd1] at h1 h2
  have hfr := Driver.get_frame d (py! "submission.__code__")
  have hm1 : ¬ InMemory (d.get (py! "submission.__code__")).2 (py! "submission.__code__") := by
    rw [hfr.1]; exact hm
  have hng : ∀ g : Str, py! "submission.__code__" ≠ g ++ '.' :: g := by
    intro g he
    have hl := congrArg List.length he
    have hl : g.length = 9 := by
      have h19 : 19 = (g ++ '.' :: g).length := hl
      rw [List.length_append, List.length_cons] at h19
      omega
    have h9 := congrArg (List.take 9) he
    rw [List.take_append_of_le_length (by omega), List.take_of_length_le (l := g) (by omega)] at h9
    subst h9
    exact absurd he (by decide)
  have hget1 : ((d.get (py! "submission.__code__")).2.get (py! "submission.__code__")).1 = .ok v := by
    rw [(Driver.get_frame _ _).2, hfr.1, find_of_reads, ← hfr.2]; exact hg
  have h3 := (h2 _ hplain (by decide) hm1).2 (fun ⟨g, he, _⟩ => hng g he)
  rw [hget1] at h3
  have hgd' : d'.get (py! "submission.__code__") = (.ok v, (d'.get (py! "submission.__code__")).2) := by
    rw [← h3]
  have hagain : ∀ e : Driver, ((e.get (py! "submission.__code__")).2.get (py! "submission.__code__")).1 = (e.get (py! "submission.__code__")).1 := by
    intro e
    have he := Driver.get_frame e (py! "submission.__code__")
    rw [(Driver.get_frame _ _).2, he.1, find_of_reads, ← he.2]
  have hset : d'.setContractDefault T (py! "submission") text = (.ok (), (d'.get (py! "submission.__code__")).2) := by
    unfold Driver.setContractDefault
    rw [show codeKey (py! "submission") = py! "submission.__code__" from rfl, hgd']
    simp only [isNone_false hv, Bool.false_eq_true, if_false]
  have hd : d.get (py! "submission.__code__") = (.ok v, (d.get (py! "submission.__code__")).2) := by rw [← hg]
  unfold Driver.setSubmissionContract
  rw [show codeKey (py! "submission") = py! "submission.__code__" from rfl, hd]
  simp only
  split
  · exact hget1
  · rw [h1]
    simp only [hset, Bool.false_eq_true, if_false]
    have h4 : ((d'.get (py! "submission.__code__")).2.get (py! "submission.__code__")).1 = .ok v := by rw [hagain, h3]
    have h5 : (d'.get (py! "submission.__code__")).2.get (py! "submission.__code__") =
        (.ok v, ((d'.get (py! "submission.__code__")).2.get (py! "submission.__code__")).2) := by rw [← h4]
    rw [h5]
    simp only
    split <;> (rw [hagain]; exact h4)

/-- **C72 refuted.** A node starts on a directory with submission contract `old` and sets the one in its file, `new`: the
call succeeds and commits, and the code is still `old`. -/
theorem C72_refuted :
    let T : Toolchain := { parse := fun _ c => .ok c, marshal := fun _ => .ok [], importTime := .none }
    let d := Spec.after (.open []) [.set {} (py! "submission.__code__") (.str (py! "old")) false, .commit]
    let r := d.setSubmissionContract T (fun _ => true) (py! "new") true
    r.1 = .ok () ∧ (r.2.get (py! "submission.__code__")).1 = .ok (.str (py! "old")) ∧
    ((Driver.open r.2.disk).get (py! "submission.__code__")).1 = .ok (.str (py! "old")) := by
  refine ⟨by decide +kernel, by decide +kernel, by decide +kernel⟩

/-- The hypotheses of `C72_flush` are met by an ordinary client. -/
example : ∃ d', ({ disk := [(locOf kA, { value := some (py! "5") })] } : Driver).clientFlush
    { parse := fun _ c => .ok c, marshal := fun _ => .ok [1], importTime := .time ⟨2024, 1, 2, 3, 4, 5, 0⟩ } (fun _ => true) (py! "def f(): pass") = (.ok (), d') := by
  obtain ⟨d', h, _⟩ := C72_flush { parse := fun _ c => .ok c, marshal := fun _ => .ok [1], importTime := .time ⟨2024, 1, 2, 3, 4, 5, 0⟩ }
    (fun _ => true) { disk := [(locOf kA, { value := some (py! "5") })] } rfl (py! "def f(): pass") [1] rfl _ rfl
    (by simp only [Storable]; decide) rfl rfl
  exact ⟨d', h⟩

end Verif
