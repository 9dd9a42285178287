import Verif.Proofs.Deltas
import Verif.Proofs.Runtime
import Verif.Model.DriverMore
/-! # Listings -/
namespace Verif
open Spec

/-- The file a key or prefix belongs to: what precedes the first `.` or `:`. -/
def Spec.fileOf (k : Str) : Str := k.takeWhile fun c => c ≠ '.' ∧ c ≠ ':'

theorem parseKey_file (k : Str) : (parseKey k).1 = fileOf k := by
  have h1 : ∀ (c : Char) (s : Str), (splitFirst c s).1 = s.takeWhile fun a => a ≠ c := by
    intro c s
    induction s with
    | nil => rfl
    | cons a s ih =>
      by_cases h : a = c
      · simp [splitFirst, h]
      · rw [splitFirst, if_neg h, List.takeWhile_cons, if_pos (by simpa using h), ← ih]
  have h2 : (parseKey k).1 = (splitFirst ':' (splitFirst '.' k).1).1 := by
    unfold parseKey; simp only; split <;> rfl
  rw [h2, h1, h1, fileOf]
  clear h2
  induction k with
  | nil => rfl
  | cons a s ih =>
    by_cases ha : a = '.'
    · subst ha; rfl
    · by_cases hb : a = ':'
      · subst hb; rfl
      · simp only [List.takeWhile_cons, ne_eq, ha, hb, not_false_eq_true, decide_true, if_true, and_self]
        rw [← show _ = List.takeWhile (fun c => decide (¬c = '.' ∧ ¬c = ':')) s from ih]

theorem find_of_reads (d : Driver) (r : Dict Str PyVal) (k : Str) : Driver.find { d with pendingReads := r } k = d.find k :=
  Driver.find_congr rfl rfl rfl rfl k

/-- Reading keys one after the other. -/
theorem itemsFromDisk_ok (ks : List Str) : ∀ (d : Driver) (acc : Dict Str PyVal), (∀ k ∈ ks, ∃ v, d.find k = .ok v) →
    ∃ r rd, d.itemsFromDisk acc ks = (.ok r, { d with pendingReads := rd }) ∧
      (∀ k, k ∉ ks → Dict.get? r k = Dict.get? acc k) ∧ ∀ k ∈ ks, ∃ v, d.find k = .ok v ∧ Dict.get? r k = some v := by
  induction ks with
  | nil => exact fun d acc _ => ⟨acc, d.pendingReads, rfl, fun _ _ => rfl, by simp⟩
  | cons k ks ih =>
    intro d acc h
    obtain ⟨v, hv⟩ := h k (by simp)
    have hg : d.get k = (.ok v, { d with pendingReads := (d.get k).2.pendingReads }) := by
      have := Driver.get_frame d k
      rw [← this.1, ← hv, ← this.2]
    obtain ⟨r, rd, i1, i2, i3⟩ := ih { d with pendingReads := (d.get k).2.pendingReads } (Dict.set acc k v)
      (fun k' hk' => by rw [find_of_reads]; exact h k' (by simp [hk']))
    refine ⟨r, rd, ?_, ?_, ?_⟩
    · rw [Driver.itemsFromDisk, hg]; exact i1
    · intro k' hk'
      simp only [List.mem_cons, not_or] at hk'
      rw [i2 k' hk'.2, Dict.get?_set_ne _ _ (Ne.symm hk'.1)]
    · intro k' hk'
      by_cases hin : k' ∈ ks
      · obtain ⟨u, h1, h2⟩ := i3 k' hin
        exact ⟨u, by rw [find_of_reads] at h1; exact h1, h2⟩
      · rcases List.mem_cons.1 hk' with rfl | hk'
        · exact ⟨v, hv, by rw [i2 _ hin, Dict.get?_set_self]⟩
        · exact absurd hk' hin

/-- A top-level group of a file. -/
def Spec.TopGroup (disk : Disk) (file g : Str) : Prop := ∃ rest a, ((file, g :: rest), a) ∈ disk

theorem mem_iterFromDisk {d : Driver} {p g : Str} : g ∈ d.iterFromDisk p ↔ TopGroup d.disk (fileOf p) g ∧ startsWith g p = true := by
  unfold Driver.iterFromDisk Disk.groups TopGroup
  rw [List.mem_filter, List.mem_dedup, List.mem_filterMap, parseKey_file]
  refine and_congr_left fun _ => ?_
  constructor
  · rintro ⟨⟨⟨f, gs⟩, a⟩, hq, hh⟩
    rw [List.mem_filter] at hq
    obtain ⟨h1, h2⟩ := hq
    simp only [decide_eq_true_eq] at h2
    subst h2
    cases gs with
    | nil => cases hh
    | cons x xs => cases hh; exact ⟨xs, a, h1⟩
  · rintro ⟨rest, a, h⟩
    exact ⟨_, List.mem_filter.2 ⟨h, by simp⟩, rfl⟩

/-- `items`, exactly. -/
theorem items_ok {d : Driver} (hc : Dict.WF d.cache) (hp : Dict.WF d.pendingWrites) (hf : ∀ k, ∃ v, d.find k = .ok v) (p : Str) :
    ∃ r rd, d.items p = (.ok r, { d with pendingReads := rd }) ∧
      (∀ k, startsWith k p = false → Dict.get? r k = none) ∧
      ∀ k, startsWith k p = true →
        ((dget d.cache k).isNone = false → Dict.get? r k = some (dget d.cache k)) ∧
        ((dget d.cache k).isNone = true → (dget d.pendingWrites k).isNone = false → Dict.get? r k = some (dget d.pendingWrites k)) ∧
        ((dget d.cache k).isNone = true → (dget d.pendingWrites k).isNone = true →
          (TopGroup d.disk (fileOf p) k → ∃ v, d.find k = .ok v ∧ Dict.get? r k = some v) ∧
          (¬ TopGroup d.disk (fileOf p) k → Dict.get? r k = none)) := by
  unfold Driver.items
  simp only
  generalize hacc : (d.cache.foldl _ (d.pendingWrites.foldl _ [])) = acc
  have hget : ∀ k, Dict.get? acc k = if startsWith k p = true ∧ (dget d.cache k).isNone = false then some (dget d.cache k)
      else if startsWith k p = true ∧ (dget d.pendingWrites k).isNone = false then some (dget d.pendingWrites k) else none := by
    intro k
    rw [← hacc, pick_get? p _ hc, pick_get? p _ hp]
    rfl
  obtain ⟨r, rd, h1, h2, h3⟩ := itemsFromDisk_ok ((d.iterFromDisk p).filter fun k => k ∉ Dict.keys acc) d acc (fun k _ => hf k)
  refine ⟨r, rd, h1, ?_, ?_⟩
  · intro k hk
    rw [h2 k (by
      intro hm
      rw [List.mem_filter, mem_iterFromDisk] at hm
      rw [hm.1.2] at hk; cases hk), hget k, if_neg (by simp [hk]), if_neg (by simp [hk])]
  · intro k hk
    have hin : ∀ v, Dict.get? acc k = some v → Dict.get? r k = some v := by
      intro v hv
      rw [h2 k, hv]
      intro hm
      rw [List.mem_filter] at hm
      have h4 : k ∈ Dict.keys acc := by rw [← Dict.get?_isSome_iff, hv]; rfl
      simp only [decide_eq_true_eq] at hm
      exact hm.2 h4
    refine ⟨fun h => hin _ (by rw [hget k, if_pos ⟨hk, h⟩]), fun h h' => hin _ ?_, fun h h' => ?_⟩
    · rw [hget k, if_neg (by simp [h]), if_pos ⟨hk, h'⟩]
    · have hn : Dict.get? acc k = none := by rw [hget k, if_neg (by simp [h]), if_neg (by simp [h'])]
      constructor
      · intro ht
        exact h3 k (List.mem_filter.2 ⟨mem_iterFromDisk.2 ⟨ht, hk⟩, by
          simp only [decide_eq_true_eq]; rw [← Dict.get?_eq_none_iff]; exact hn⟩)
      · intro ht
        rw [h2 k (fun hm => ht (mem_iterFromDisk.1 (List.mem_filter.1 hm).1).1), hn]

end Verif
