import Verif.Proofs.Refine2
/-! # Several pending deltas -/
namespace Verif
open Spec

abbrev Delta := Int × Dict Str (PyVal × PyVal)

theorem mem_insertSorted {p q : Delta} {ds : List Delta} : q ∈ Driver.insertSorted p ds ↔ q = p ∨ q ∈ ds := by
  induction ds with
  | nil => simp [Driver.insertSorted]
  | cons a ds ih =>
    unfold Driver.insertSorted
    split
    · simp
    · simp only [List.mem_cons, ih]; tauto

theorem sorted_insert {p : Delta} {ds : List Delta} (h : ds.Pairwise fun a b => a.1 < b.1) (hp : ∀ q ∈ ds, q.1 ≠ p.1) :
    (Driver.insertSorted p ds).Pairwise fun a b => a.1 < b.1 := by
  induction ds with
  | nil => simp [Driver.insertSorted]
  | cons a ds ih =>
    unfold Driver.insertSorted
    rw [List.pairwise_cons] at h
    split
    · rename_i hle
      have hlt : p.1 < a.1 := lt_of_le_of_ne hle (fun he => hp a (by simp) he.symm)
      rw [List.pairwise_cons, List.pairwise_cons]
      refine ⟨?_, h⟩
      intro b hb
      rcases List.mem_cons.1 hb with rfl | hb
      · exact hlt
      · exact hlt.trans (h.1 b hb)
    · rename_i hle
      rw [List.pairwise_cons]
      refine ⟨?_, ih h.2 (fun q hq => hp q (by simp [hq]))⟩
      intro b hb
      rcases mem_insertSorted.1 hb with rfl | hb
      · omega
      · exact h.1 b hb

theorem mem_sortDeltas_iff {q : Delta} {ds : Dict Int (Dict Str (PyVal × PyVal))} : q ∈ Driver.sortDeltas ds ↔ q ∈ ds := by
  unfold Driver.sortDeltas
  induction ds with
  | nil => simp
  | cons a ds ih => rw [List.foldr_cons, mem_insertSorted, ih, List.mem_cons]

theorem sorted_sortDeltas {ds : Dict Int (Dict Str (PyVal × PyVal))} (h : Dict.WF ds) :
    (Driver.sortDeltas ds).Pairwise fun a b => a.1 < b.1 := by
  induction ds with
  | nil => exact List.Pairwise.nil
  | cons a ds ih =>
    simp only [Dict.WF, Dict.keys, List.map_cons, List.nodup_cons] at h
    show (Driver.insertSorted a (Driver.sortDeltas ds)).Pairwise _
    refine sorted_insert (ih h.2) fun q hq he => ?_
    exact h.1 (List.mem_map.2 ⟨q, mem_sortDeltas_iff.1 hq, he⟩)

/-- Deltas with plain keys and storable values. -/
def DeltasOk (xs : List Delta) : Prop := ∀ p ∈ xs, Dict.WF p.2 ∧ ∀ q ∈ p.2, PlainKey q.1 ∧ Storable q.2.2

theorem applyDeltas_ok (n : Int) (xs : List Delta) : ∀ (disk : Disk), DeltasOk xs → (xs.Pairwise fun a b => a.1 < b.1) →
    (∃ p ∈ xs, p.1 = n) →
    ∃ disk' ns, Driver.applyDeltas disk n xs = (.ok ns, disk') ∧ (∀ m, m ∈ ns ↔ m ≤ n ∧ ∃ p ∈ xs, p.1 = m) ∧
      (∀ l, (∀ p ∈ xs, p.1 ≤ n → ∀ q ∈ p.2, locOf q.1 ≠ l) → disk'.attrs l = disk.attrs l) ∧
      (∀ p ∈ xs, p.1 ≤ n → ∀ q ∈ p.2, (∀ p' ∈ xs, p.1 < p'.1 → p'.1 ≤ n → ∀ q' ∈ p'.2, q'.1 ≠ q.1) →
        (disk'.attrs (locOf q.1)).block = some n ∧ (q.2.2 = .none → (disk'.attrs (locOf q.1)).value = none) ∧
        ∃ w, disk'.get (locOf q.1) = .ok w ∧ PyEq q.2.2 w) := by
  induction xs with
  | nil => rintro _ _ _ ⟨p, hp, _⟩; simp at hp
  | cons p ps ih =>
    intro disk hok hs hn
    rw [List.pairwise_cons] at hs
    have hpd := hok p (by simp)
    obtain ⟨disk1, a1, a2, a3⟩ := applyWrites_ok n p.2 disk hpd.2 hpd.1
    obtain ⟨m, w⟩ := p
    simp only at hs hpd a1 a2 a3
    by_cases hm : m = n
    · subst hm
      refine ⟨disk1, [m], ?_, ?_, ?_, ?_⟩
      · simp only [Driver.applyDeltas, a1, if_true]
      · intro m'
        simp only [List.mem_cons, List.not_mem_nil, or_false, exists_eq_or_imp]
        constructor
        · rintro rfl; exact ⟨le_refl _, .inl rfl⟩
        · rintro ⟨h1, h2 | ⟨p, hp, h2⟩⟩
          · exact h2.symm
          · have := hs.1 p hp; omega
      · intro l hl
        exact a2 l (hl (m, w) (by simp) (le_refl _))
      · intro p hp hle q hq _
        rcases List.mem_cons.1 hp with rfl | hp
        · exact a3 q hq
        · have := hs.1 p hp; omega
    · have hn' : ∃ p ∈ ps, p.1 = n := by
        obtain ⟨p, hp, he⟩ := hn
        rcases List.mem_cons.1 hp with rfl | hp
        · exact absurd he hm
        · exact ⟨p, hp, he⟩
      have hlt : m < n := by obtain ⟨p, hp, rfl⟩ := hn'; exact hs.1 p hp
      obtain ⟨disk', ns, i1, i2, i3, i4⟩ := ih disk1 (fun p hp => hok p (by simp [hp])) hs.2 hn'
      refine ⟨disk', m :: ns, ?_, ?_, ?_, ?_⟩
      · simp only [Driver.applyDeltas, a1, if_neg hm, i1]
      · intro m'
        simp only [List.mem_cons, i2, exists_eq_or_imp]
        constructor
        · rintro (rfl | ⟨h1, h2⟩)
          · exact ⟨by omega, .inl rfl⟩
          · exact ⟨h1, .inr h2⟩
        · rintro ⟨h1, h2 | h2⟩
          · exact .inl h2.symm
          · exact .inr ⟨h1, h2⟩
      · intro l hl
        rw [i3 l (fun p hp => hl p (by simp [hp])), a2 l (hl (m, w) (by simp) (by simp only; omega))]
      · intro p hp hle q hq hnew
        rcases List.mem_cons.1 hp with rfl | hp
        · have hun : disk'.attrs (locOf q.1) = disk1.attrs (locOf q.1) := by
            refine i3 _ fun p' hp' hle' q' hq' he => ?_
            refine hnew p' (by simp [hp']) (hs.1 p' hp') hle' q' hq' ?_
            exact locOf_inj ((hok p' (by simp [hp'])).2 q' hq').1 (hpd.2 q hq).1 he
          obtain ⟨b1, b2, u, b3, b4⟩ := a3 q hq
          exact ⟨by rw [hun]; exact b1, fun h => by rw [hun]; exact b2 h, u, by rw [Disk.get_congr hun]; exact b3, b4⟩
        · exact i4 p hp hle q hq fun p' hp' => hnew p' (by simp [hp'])

theorem get?_foldl_erase (ns : List Int) : ∀ (ds : Dict Int (Dict Str (PyVal × PyVal))) (m : Int),
    Dict.get? (ns.foldl (fun ds n => Dict.erase ds n) ds) m = if m ∈ ns then none else Dict.get? ds m := by
  induction ns with
  | nil => intro ds m; simp
  | cons n ns ih =>
    intro ds m
    rw [List.foldl_cons, ih, Dict.get?_erase]
    by_cases h1 : m ∈ ns
    · simp [h1]
    · by_cases h2 : m = n
      · simp [h2]
      · simp [h1, h2, Ne.symm h2]

/-- Putting the old values of one delta into the cache. -/
theorem get?_restore (w : Dict Str (PyVal × PyVal)) (hw : Dict.WF w) : ∀ (c : Dict Str PyVal) (k : Str),
    Dict.get? (w.foldl (fun c kv => Dict.set c kv.1 kv.2.1) c) k =
      match Dict.get? w k with
      | some p => some p.1
      | none => Dict.get? c k := by
  induction w with
  | nil => intro c k; rfl
  | cons a w ih =>
    intro c k
    simp only [Dict.WF, Dict.keys, List.map_cons, List.nodup_cons] at hw
    rw [List.foldl_cons, ih hw.2, Dict.get?_set]
    obtain ⟨k', p⟩ := a
    rw [Dict.get?_cons]
    by_cases h : k' = k
    · subst h
      have : Dict.get? w k' = none := Dict.get?_eq_none_iff.2 hw.1
      simp [this]
    · simp only [if_neg h]

end Verif
