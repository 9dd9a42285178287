import Verif.Proofs.Keys
/-! # Frame lemmas for single driver operations -/
namespace Verif

/-- What an accepted `set` did. -/
theorem Driver.set_ok {m m' : Meter} {d d' : Driver} {k : Str} {v : PyVal} {txn : Bool}
    (h : d.set m k v txn = (.ok (), m', d')) :
    ∃ w, normValue v = .ok w ∧ (∃ t, encode v = .ok t ∧ m.deductWrite (utf8Len k + t.length) = (.ok (), m')) ∧
      d' = { d with
        pendingReads := d'.pendingReads
        pendingWrites := Dict.set d.pendingWrites k w
        txWrites := if txn then Dict.set d.txWrites k w else d.txWrites } ∧
      (d'.pendingReads = d.pendingReads ∨ ∃ u, d.find k = .ok u ∧ (dget d.pendingReads k).isNone = true ∧
        d'.pendingReads = Dict.set d.pendingReads k u) ∧
      ((dget d.pendingReads k).isNone = true → ∃ u, d.find k = .ok u ∧ d'.pendingReads = Dict.set d.pendingReads k u) := by
  unfold Driver.set at h
  cases he : encode v with
  | error e => rw [he] at h; cases h
  | ok text =>
    rw [he] at h
    simp only at h
    cases hm : m.deductWrite (utf8Len k + text.length) with
    | mk r m1 =>
      rw [hm] at h
      cases r with
      | error e => cases h
      | ok u =>
        simp only at h
        by_cases hr : (dget d.pendingReads k).isNone = true
        · rw [if_pos hr] at h
          unfold Driver.get at h
          cases hf : d.find k with
          | error e => rw [hf] at h; cases h
          | ok u =>
            rw [hf] at h
            simp only [hr, if_true] at h
            cases hn : normValue v with
            | error e => rw [hn] at h; cases h
            | ok w =>
              rw [hn] at h
              cases h
              exact ⟨w, rfl, ⟨text, rfl, hm⟩, rfl, Or.inr ⟨u, rfl, hr, rfl⟩, fun _ => ⟨u, rfl, rfl⟩⟩
        · rw [if_neg hr] at h
          simp only at h
          cases hn : normValue v with
          | error e => rw [hn] at h; cases h
          | ok w =>
            rw [hn] at h
            cases h
            exact ⟨w, rfl, ⟨text, rfl, hm⟩, rfl, Or.inl rfl, fun h => absurd h hr⟩

/-- What a rejected `set` did: at most a read record. -/
theorem Driver.set_error {m m' : Meter} {d d' : Driver} {k : Str} {v : PyVal} {txn : Bool} {e : PyErr}
    (h : d.set m k v txn = (.error e, m', d')) :
    d' = { d with pendingReads := d'.pendingReads } ∧
    ((∀ t, v ≠ .flt t) → d' = d) := by
  unfold Driver.set at h
  cases he : encode v with
  | error e => rw [he] at h; cases h; exact ⟨rfl, fun _ => rfl⟩
  | ok text =>
    rw [he] at h
    simp only at h
    cases hm : m.deductWrite (utf8Len k + text.length) with
    | mk r m1 =>
      rw [hm] at h
      cases r with
      | error e => cases h; exact ⟨rfl, fun _ => rfl⟩
      | ok u =>
        simp only at h
        have hnorm : (∀ t, v ≠ .flt t) → normValue v = .ok v := by
          intro hv
          cases v <;> first | rfl | exact absurd rfl (hv _)
        by_cases hr : (dget d.pendingReads k).isNone = true
        · rw [if_pos hr] at h
          unfold Driver.get at h
          cases hf : d.find k with
          | error e => rw [hf] at h; cases h; exact ⟨rfl, fun _ => rfl⟩
          | ok u =>
            rw [hf] at h
            simp only [hr, if_true] at h
            cases hn : normValue v with
            | error e =>
              rw [hn] at h; cases h
              exact ⟨rfl, fun hv => by rw [hnorm hv] at hn; cases hn⟩
            | ok w => rw [hn] at h; cases h
        · rw [if_neg hr] at h
          simp only at h
          cases hn : normValue v with
          | error e => rw [hn] at h; cases h; exact ⟨rfl, fun _ => rfl⟩
          | ok w => rw [hn] at h; cases h

/-- Any outcome of `set`: pending writes change at most at `k`. -/
theorem Driver.set_frame (m : Meter) (d : Driver) (k : Str) (v : PyVal) (txn : Bool) :
    let d' := (d.set m k v txn).2.2
    d'.disk = d.disk ∧ d'.cache = d.cache ∧ d'.bypass = d.bypass ∧ d'.pendingDeltas = d.pendingDeltas ∧ d'.events = d.events ∧
    ∀ k', k' ≠ k → Dict.get? d'.pendingWrites k' = Dict.get? d.pendingWrites k' ∧
      Dict.get? d'.txWrites k' = Dict.get? d.txWrites k' := by
  intro d'
  rcases hres : d.set m k v txn with ⟨r, m', d''⟩
  have hd : d' = d'' := by simp only [d', hres]
  rw [hd]
  cases r with
  | error e =>
    have := (Driver.set_error hres).1
    rw [this]
    exact ⟨rfl, rfl, rfl, rfl, rfl, fun _ _ => ⟨rfl, rfl⟩⟩
  | ok u =>
    obtain ⟨w, _, _, h, _⟩ := Driver.set_ok hres
    rw [h]
    refine ⟨rfl, rfl, rfl, rfl, rfl, fun k' hk => ⟨?_, ?_⟩⟩
    · simp only; rw [Dict.get?_set_ne _ _ (Ne.symm hk)]
    · simp only
      split
      · rw [Dict.get?_set_ne _ _ (Ne.symm hk)]
      · rfl

theorem Driver.get_frame (d : Driver) (k : Str) :
    (d.get k).2 = { d with pendingReads := (d.get k).2.pendingReads } ∧ (d.get k).1 = d.find k := by
  unfold Driver.get
  cases hf : d.find k with
  | error e => exact ⟨rfl, rfl⟩
  | ok v =>
    simp only
    split <;> simp

/-- `find` depends on pending writes, cache and disk only. -/
theorem Driver.find_congr {d d' : Driver} (h1 : d.pendingWrites = d'.pendingWrites) (h2 : d.cache = d'.cache)
    (h3 : d.disk = d'.disk) (h4 : d.bypass = d'.bypass) (k : Str) : d.find k = d'.find k := by
  unfold Driver.find Driver.fromDisk; rw [h1, h2, h3, h4]

end Verif
