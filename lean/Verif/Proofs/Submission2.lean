import Verif.Proofs.Submission
import Verif.Proofs.Refine
/-! # Deployment: records on disk -/
namespace Verif
open Spec

/-- No colon. -/
abbrev NoColon : Str → Prop := fun c => ':' ∉ c

/-! ## Places -/

theorem loc_record {n s : Str} (hd : '.' ∉ n) (hc : ':' ∉ n) (hs : s ∈ records) : locOf (makeKey n s) = (n, [s]) := by
  obtain ⟨hp, _⟩ := records_plain hs
  simp only [locOf, makeKey]
  rw [parseKey_dot hd hc, replaceC_none hp.2.2.1]
  simp only [groupPath, splitOnC_none hp.2.2.2]
  rw [List.filter_cons_of_pos]
  · rfl
  · simp only [decide_eq_true_eq]
    refine ⟨hp.1, fun h => hp.2.1 (by rw [h]; simp)⟩

/-- A dot followed by something other than a slash shows up in a component. -/
theorem dot_comp {u r : Str} {a : Char} (ha : a ≠ '/') : ∃ x ∈ groupPath (u ++ '.' :: a :: r), '.' ∈ x := by
  have key : ∃ x ∈ splitOnC '/' (u ++ '.' :: a :: r), '.' ∈ x ∧ 2 ≤ x.length := by
    induction u with
    | nil =>
      simp only [List.nil_append, splitOnC]
      rw [if_neg (by decide), if_neg ha]
      cases splitOnC '/' r with
      | nil => exact ⟨['.', a], by simp, by simp, by simp⟩
      | cons y ys => exact ⟨'.' :: a :: y, by simp, by simp, by simp⟩
    | cons b u ih =>
      obtain ⟨x, hx, h1, h2⟩ := ih
      simp only [List.cons_append, splitOnC]
      split
      · exact ⟨x, by simp [hx], h1, h2⟩
      · cases hsp : splitOnC '/' (u ++ '.' :: a :: r) with
        | nil => rw [hsp] at hx; cases hx
        | cons y ys =>
          rw [hsp] at hx
          rcases List.mem_cons.1 hx with rfl | hx
          · exact ⟨b :: x, by simp, by simp [h1], by simp; omega⟩
          · exact ⟨x, by simp [hx], h1, h2⟩
  obtain ⟨x, hx, h1, h2⟩ := key
  refine ⟨x, List.mem_filter.2 ⟨hx, ?_⟩, h1⟩
  simp only [decide_eq_true_eq]
  exact ⟨fun h => (by subst h; cases h1), fun h => (by subst h; simp at h2)⟩

theorem replaceC_head {a : Char} (ha : a ≠ ':') (s : Str) : replaceC ':' '/' (a :: s) = a :: replaceC ':' '/' s := by
  simp [replaceC, ha]

/-- A dotted name. -/
theorem split_dot {c : Str} (h : '.' ∈ c) : ∃ c1 c2, '.' ∉ c1 ∧ c = c1 ++ '.' :: c2 := by
  induction c with
  | nil => cases h
  | cons a c ih =>
    by_cases ha : a = '.'
    · exact ⟨[], c, by simp, by simp [ha]⟩
    · have : '.' ∈ c := by
        rcases List.mem_cons.1 h with h | h
        · exact absurd h.symm ha
        · exact h
      obtain ⟨c1, c2, h1, h2⟩ := ih this
      exact ⟨a :: c1, c2, by simp [h1, Ne.symm ha], by simp [h2]⟩

/-- A key under a name without ":" whose first character after the name is ordinary: if it is stored in a
place of depth one, the name has no dot and the place is determined by the rest. -/
theorem loc_under {c r : Str} {a : Char} (hc : ':' ∉ c) (ha : a ≠ ':') (ha' : a ≠ '/') {n s : Str} (hs : '.' ∉ s)
    (h : locOf (makeKey c (a :: r)) = (n, [s])) : c = n ∧ '.' ∉ c ∧ groupPath (replaceC ':' '/' (a :: r)) = [s] := by
  by_cases hd : '.' ∈ c
  · exfalso
    obtain ⟨c1, c2, h1, rfl⟩ := split_dot hd
    have hc1 : ':' ∉ c1 := fun h => hc (by simp [h])
    have hc2 : ':' ∉ c2 := fun h => hc (by simp [h])
    simp only [locOf, makeKey, List.append_assoc, List.cons_append] at h
    rw [parseKey_dot h1 hc1] at h
    have he : replaceC ':' '/' (c2 ++ '.' :: a :: r) = c2 ++ '.' :: a :: replaceC ':' '/' r := by
      rw [replaceC_append, replaceC_none hc2, replaceC_head (by decide), replaceC_head ha]
    rw [he] at h
    obtain ⟨x, hx, hdot⟩ := dot_comp (u := c2) (r := replaceC ':' '/' r) ha'
    have := (Prod.mk.inj h).2
    rw [this] at hx
    simp at hx
    subst hx
    exact hs hdot
  · refine ⟨?_, hd, ?_⟩
    · have := C15_own_file hd hc (k := makeKey c (a :: r)) ⟨a :: r, by simp [makeKey]⟩
      rw [h] at this
      exact this.symm
    · have := congrArg Prod.snd h
      simp only [locOf, makeKey] at this
      rwa [parseKey_dot hd hc] at this

/-- A record of another contract is elsewhere. -/
theorem loc_record_inj {c n s t : Str} (hc : ':' ∉ c) (hs : s ∈ records) (ht : t ∈ records)
    (h : locOf (makeKey c t) = (n, [s])) : c = n ∧ t = s := by
  obtain ⟨hp, hh⟩ := records_plain ht
  cases t with
  | nil => cases hh
  | cons a r =>
    obtain ⟨h1, h2, _⟩ := loc_under hc (fun h => hp.2.2.1 (by simp [h])) (fun h => hp.2.2.2 (by simp [h]))
      (records_plain hs).1.2.1 h
    rw [loc_record h2 hc ht] at h
    simpa using h

/-- A declared variable is elsewhere. -/
theorem loc_user {k n s : Str} (hk : UserKey NoColon k) (hs : s ∈ records) : locOf k ≠ (n, [s]) := by
  obtain ⟨c, v, rest, hc, ⟨hv, hh⟩, hrest, rfl⟩ := hk
  intro h
  cases v with
  | nil => exact hv.1 rfl
  | cons a r =>
    have hcol : ':' ∉ a :: r := hv.2.2.1
    have hsl : '/' ∉ a :: r := hv.2.2.2
    have hk : makeKey c (a :: r) ++ rest = makeKey c (a :: (r ++ rest)) := by simp [makeKey]
    rw [hk] at h
    obtain ⟨_, _, h3⟩ := loc_under hc (fun h => hcol (by simp [h])) (fun h => hsl (by simp [h])) (records_plain hs).1.2.1 h
    have hne : (a :: r) ≠ s := fun he => by
      have := (records_plain hs).2
      rw [← he] at this
      exact hh this
    have hdot : a :: r ≠ ['.'] := fun he => hv.2.1 (by rw [he]; simp)
    have hpath : ∃ ys, groupPath (replaceC ':' '/' (a :: (r ++ rest))) = (a :: r) :: ys := by
      rw [← List.cons_append, replaceC_append, replaceC_none hcol]
      rcases hrest with rfl | ⟨t, rfl⟩
      · refine ⟨[], ?_⟩
        simp only [replaceC, List.map_nil, List.append_nil, groupPath, splitOnC_none hsl]
        rw [List.filter_cons_of_pos]
        · rfl
        · simp [hdot]
      · have : replaceC ':' '/' (':' :: t) = '/' :: replaceC ':' '/' t := by simp [replaceC]
        rw [this]
        simp only [groupPath]
        rw [splitOnC_append hsl, List.filter_cons_of_pos]
        · exact ⟨_, rfl⟩
        · simp [hdot]
    obtain ⟨ys, hpath⟩ := hpath
    rw [hpath] at h3
    simp only [List.cons.injEq] at h3
    exact hne (by simpa using h3.1)

/-! ## Committed records -/

/-- Stored somewhere else than the fixed records of `n`. -/
def Away (n k : Str) : Prop := ∀ s ∈ fixedRecords, locOf k ≠ (n, [s])

/-- The fixed records of `n` are committed, with the values `u`. -/
structure Committed (n : Str) (u : Str → PyVal) (d : Driver) : Prop where
  pend : ∀ k ∈ Dict.keys d.pendingWrites, Away n k
  deltas : ∀ p ∈ d.pendingDeltas, ∀ k ∈ Dict.keys p.2, Away n k
  cache : ∀ s ∈ fixedRecords, dget d.cache (makeKey n s) = .none ∨ PyEq (u s) (dget d.cache (makeKey n s))
  disk : ∀ s ∈ fixedRecords, ∃ v, d.disk.get (n, [s]) = .ok v ∧ PyEq (u s) v
  code : u (py! "__code__") ≠ .none

theorem away_ne {n k s : Str} (hd : '.' ∉ n) (hc : ':' ∉ n) (h : Away n k) (hs : s ∈ fixedRecords) : k ≠ makeKey n s := by
  rintro rfl
  exact h s hs (loc_record hd hc (fixed_records hs))

/-- What is found is what was committed. -/
theorem Committed.find {n : Str} (hd : '.' ∉ n) (hc : ':' ∉ n) {u : Str → PyVal} {d : Driver} (h : Committed n u d) {s : Str}
    (hs : s ∈ fixedRecords) : ∃ v, d.find (makeKey n s) = .ok v ∧ PyEq (u s) v := by
  obtain ⟨v, hv, he⟩ := h.disk s hs
  have hdisk : d.fromDisk (makeKey n s) = .ok v := by
    unfold Driver.fromDisk
    rw [loc_record hd hc (fixed_records hs)]; exact hv
  unfold Driver.find
  split
  · exact ⟨v, hdisk, he⟩
  · have hp : dget d.pendingWrites (makeKey n s) = .none := by
      have : Dict.get? d.pendingWrites (makeKey n s) = none := by
        rw [Dict.get?_eq_none_iff]
        exact fun hk => away_ne hd hc (h.pend _ hk) hs rfl
      simp only [dget, this, Option.getD]
    have hn : PyVal.isNone .none = true := rfl
    simp only [hp, hn, if_true]
    rcases h.cache s hs with h0 | h1
    · rw [h0, if_pos hn]; exact ⟨v, hdisk, he⟩
    · cases hn : (dget d.cache (makeKey n s)).isNone with
      | true => rw [if_pos rfl]; exact ⟨v, hdisk, he⟩
      | false => rw [if_neg (by decide)]; exact ⟨_, rfl, h1⟩

theorem Committed.hasCode {n : Str} (hd : '.' ∉ n) (hc : ':' ∉ n) {u : Str → PyVal} {d : Driver} (h : Committed n u d) :
    HasCode n d := by
  obtain ⟨v, hv, he⟩ := h.find hd hc code_fixed
  refine ⟨v, hv, ?_⟩
  rintro rfl
  exact h.code he.eq_none

theorem Committed.kept {n : Str} (hd : '.' ∉ n) (hc : ':' ∉ n) {u : Str → PyVal} {d d' : Driver} (h : Committed n u d)
    (hk : Kept NoColon n d d') : Committed n u d' := by
  refine ⟨fun k hk' => ?_, by rw [hk.deltas]; exact h.deltas, fun s hs => ?_, by rw [hk.disk]; exact h.disk, h.code⟩
  · rcases hk.keys k hk' with h1 | h1 | ⟨c, t, hcc, ht, rfl⟩
    · exact h.pend k h1
    · exact fun s hs => loc_user h1 (fixed_records hs)
    · intro s hs he
      obtain ⟨rfl, rfl⟩ := loc_record_inj hcc (fixed_records hs) ht he
      have h2 := hk.fixed (h.hasCode hd hc) t hs
      have h3 : Dict.get? d.pendingWrites (makeKey c t) = none := by
        rw [Dict.get?_eq_none_iff]
        exact fun hk => away_ne hd hc (h.pend _ hk) hs rfl
      rw [h3] at h2
      rw [Dict.get?_eq_none_iff] at h2
      exact h2 hk'
  · rw [hk.cache s (fixed_records hs)]; exact h.cache s hs

/-! ## The loops, for keys stored elsewhere -/

theorem commitLoop_away {l : Loc} (ps : List (Str × PyVal)) (h : ∀ p ∈ ps, locOf p.1 ≠ l) : ∀ (disk : Disk),
    Disk.attrs (Driver.commitLoop disk ps).2 l = disk.attrs l := by
  induction ps with
  | nil => intro disk; rfl
  | cons p ps ih =>
    intro disk
    obtain ⟨k, v⟩ := p
    simp only [Driver.commitLoop]
    cases ho : Driver.commitKeyOps disk k v with
    | error e => rfl
    | ok ops =>
      simp only
      rw [ih (fun p hp => h p (by simp [hp]))]
      exact Disk.attrs_applyAll_ne _ _ (fun op hop => by
        rw [Driver.commitKeyOps_loc ho op hop]; exact h (k, v) (by simp))

theorem applyWrites_away {l : Loc} (nanos : Int) (ps : List (Str × (PyVal × PyVal))) (h : ∀ p ∈ ps, locOf p.1 ≠ l) :
    ∀ (disk : Disk), Disk.attrs (Driver.applyWrites disk nanos ps).2 l = disk.attrs l := by
  induction ps with
  | nil => intro disk; rfl
  | cons p ps ih =>
    intro disk
    obtain ⟨k, o, v⟩ := p
    simp only [Driver.applyWrites]
    cases ho : Disk.setValueOps (locOf k) v (some nanos) with
    | error e => rfl
    | ok ops =>
      simp only
      rw [ih (fun p hp => h p (by simp [hp]))]
      exact Disk.attrs_applyAll_ne _ _ (fun op hop => by
        rw [Disk.setValueOps_loc ho op hop]; exact h (k, o, v) (by simp))

theorem applyDeltas_away {l : Loc} (nanos : Int) (ds : List (Int × Dict Str (PyVal × PyVal)))
    (h : ∀ p ∈ ds, ∀ q ∈ p.2, locOf q.1 ≠ l) :
    ∀ (disk : Disk), Disk.attrs (Driver.applyDeltas disk nanos ds).2 l = disk.attrs l := by
  induction ds with
  | nil => intro disk; rfl
  | cons p ds ih =>
    intro disk
    obtain ⟨m, w⟩ := p
    simp only [Driver.applyDeltas]
    have h1 := applyWrites_away nanos w (h (m, w) (by simp)) disk
    rcases hw : Driver.applyWrites disk nanos w with ⟨r, disk1⟩
    rw [hw] at h1
    cases r with
    | error e => exact h1
    | ok u =>
      simp only
      split
      · exact h1
      · have h2 := ih (fun p hp => h p (by simp [hp])) disk1
        rcases hd : Driver.applyDeltas disk1 nanos ds with ⟨r, disk2⟩
        rw [hd] at h2
        cases r <;> exact h2.trans h1

theorem mem_sortDeltas {ds : Dict Int (Dict Str (PyVal × PyVal))} {p : Int × Dict Str (PyVal × PyVal)}
    (h : p ∈ Driver.sortDeltas ds) : p ∈ ds := by
  have ins : ∀ (q : Int × Dict Str (PyVal × PyVal)) (xs), p ∈ Driver.insertSorted q xs → p = q ∨ p ∈ xs := by
    intro q xs
    induction xs with
    | nil => intro h; left; simpa [Driver.insertSorted] using h
    | cons x xs ih =>
      intro h
      simp only [Driver.insertSorted] at h
      split at h
      · exact List.mem_cons.1 h
      · rcases List.mem_cons.1 h with h | h
        · right; simp [h]
        · exact (ih h).imp id (fun h => by simp [h])
  induction ds with
  | nil => cases h
  | cons q ds ih =>
    simp only [Driver.sortDeltas, List.foldr_cons] at h
    rcases ins q _ h with rfl | h
    · simp
    · exact List.mem_cons_of_mem _ (ih h)

theorem mem_set {κ α : Type} [DecidableEq κ] {d : Dict κ α} {k : κ} {v : α} {p : κ × α} (h : p ∈ Dict.set d k v) :
    p ∈ d ∨ p.2 = v := by
  induction d with
  | nil => right; simp only [Dict.set, List.mem_singleton] at h; rw [h]
  | cons q d ih =>
    obtain ⟨k', v'⟩ := q
    simp only [Dict.set] at h
    split at h
    · rcases List.mem_cons.1 h with rfl | h
      · right; rfl
      · left; simp [h]
    · rcases List.mem_cons.1 h with rfl | h
      · left; simp
      · exact (ih h).imp (fun h => by simp [h]) id

theorem mem_erase {κ α : Type} [DecidableEq κ] {d : Dict κ α} {k : κ} {p : κ × α} (h : p ∈ Dict.erase d k) : p ∈ d := by
  induction d with
  | nil => cases h
  | cons q d ih =>
    obtain ⟨k', v'⟩ := q
    simp only [Dict.erase] at h
    split at h
    · first | exact List.mem_cons_of_mem _ h | exact List.mem_cons_of_mem _ (ih h)
    · rcases List.mem_cons.1 h with rfl | h
      · simp
      · exact List.mem_cons_of_mem _ (ih h)

theorem mem_erases {ds : Dict Int (Dict Str (PyVal × PyVal))} (ns : List Int) {p : Int × Dict Str (PyVal × PyVal)}
    (h : p ∈ ns.foldl (fun ds n => Dict.erase ds n) ds) : p ∈ ds := by
  induction ns generalizing ds with
  | nil => exact h
  | cons n ns ih => exact mem_erase (ih h)

theorem dget_foldl_set {k : Str} (ps : List (Str × PyVal)) (h : ∀ p ∈ ps, p.1 ≠ k) : ∀ c : Dict Str PyVal,
    dget (ps.foldl (fun c kv => Dict.set c kv.1 kv.2) c) k = dget c k := by
  induction ps with
  | nil => intro c; rfl
  | cons p ps ih =>
    intro c
    rw [List.foldl_cons, ih (fun p hp => h p (by simp [hp])), dget_set_ne _ (h p (by simp))]

/-! ## Driver calls preserve committed records -/

section
variable {n : Str} (hd : '.' ∉ n) (hc : ':' ∉ n) {u : Str → PyVal} {d : Driver} (h : Committed n u d)

include h in
theorem Committed.pend_ne {p : Str × PyVal} (hp : p ∈ d.pendingWrites) : Away n p.1 :=
  h.pend p.1 (List.mem_map.2 ⟨p, hp, rfl⟩)

include h in
theorem Committed.commit : Committed n u d.commit.2 := by
  have hl : ∀ s ∈ fixedRecords, ∃ v, Disk.get (Driver.commitLoop d.disk d.pendingWrites).2 (n, [s]) = .ok v ∧ PyEq (u s) v := by
    intro s hs
    have := commitLoop_away (l := (n, [s])) d.pendingWrites (fun p hp => h.pend_ne hp s hs) d.disk
    rw [Disk.get_congr this]
    exact h.disk s hs
  unfold Driver.commit
  rcases hr : Driver.commitLoop d.disk d.pendingWrites with ⟨r, disk'⟩
  rw [hr] at hl
  cases r with
  | error e => exact ⟨h.pend, h.deltas, h.cache, hl, h.code⟩
  | ok v => exact ⟨fun k hk => (by cases hk), h.deltas, fun _ _ => Or.inl rfl, hl, h.code⟩

include hd hc h in
theorem Committed.hardApply (nanos : Int) : Committed n u (d.hardApply nanos).2 := by
  unfold Driver.hardApply
  simp only
  generalize hde : Dict.set d.pendingDeltas nanos
    (d.pendingWrites.map fun kv => (kv.1, dget d.pendingReads kv.1, kv.2)) = deltas
  have hdel : ∀ p ∈ deltas, ∀ k ∈ Dict.keys p.2, Away n k := by
    intro p hp k hk
    rw [← hde] at hp
    rcases mem_set hp with hp | hp
    · exact h.deltas p hp k hk
    · rw [hp] at hk
      refine h.pend k ?_
      simpa [Dict.keys, List.map_map, Function.comp_def] using hk
  have hcache : ∀ s ∈ fixedRecords, dget (d.pendingWrites.foldl (fun c kv => Dict.set c kv.1 kv.2) d.cache) (makeKey n s) = .none ∨
      PyEq (u s) (dget (d.pendingWrites.foldl (fun c kv => Dict.set c kv.1 kv.2) d.cache) (makeKey n s)) := by
    intro s hs
    rw [dget_foldl_set _ (fun p hp => away_ne hd hc (h.pend_ne hp) hs)]
    exact h.cache s hs
  have hl : ∀ s ∈ fixedRecords, ∃ v, Disk.get (Driver.applyDeltas d.disk nanos (Driver.sortDeltas deltas)).2 (n, [s]) = .ok v ∧
      PyEq (u s) v := by
    intro s hs
    have := applyDeltas_away (l := (n, [s])) nanos (Driver.sortDeltas deltas)
      (fun p hp q hq => hdel p (mem_sortDeltas hp) q.1 (List.mem_map.2 ⟨q, hq, rfl⟩) s hs) d.disk
    rw [Disk.get_congr this]
    exact h.disk s hs
  rcases hr : Driver.applyDeltas d.disk nanos (Driver.sortDeltas deltas) with ⟨r, disk'⟩
  rw [hr] at hl
  cases r with
  | error e => exact ⟨fun k hk => (by cases hk), hdel, hcache, hl, h.code⟩
  | ok ns => exact ⟨fun k hk => (by cases hk), fun p hp => hdel p (mem_erases ns hp), hcache, hl, h.code⟩

include h in
theorem Committed.discard (tx : Dict Str PyVal) (ev : List Event) (r : Dict Str PyVal) :
    Committed n u { d with cache := [], pendingReads := r, pendingWrites := [], pendingDeltas := [], txWrites := tx, events := ev } :=
  ⟨fun k hk => (by cases hk), fun p hp => (by cases hp), fun _ _ => Or.inl rfl, h.disk, h.code⟩

theorem dget_undo {k : Str} (ps : List (Int × Dict Str (PyVal × PyVal))) (h : ∀ p ∈ ps, ∀ q ∈ p.2, q.1 ≠ k) :
    ∀ c : Dict Str PyVal,
      dget (ps.foldl (fun c p => p.2.foldl (fun c kv => Dict.set c kv.1 kv.2.1) c) c) k = dget c k := by
  have inner : ∀ (qs : List (Str × (PyVal × PyVal))), (∀ q ∈ qs, q.1 ≠ k) → ∀ c : Dict Str PyVal,
      dget (qs.foldl (fun c kv => Dict.set c kv.1 kv.2.1) c) k = dget c k := by
    intro qs
    induction qs with
    | nil => intro _ c; rfl
    | cons q qs ih =>
      intro hq c
      rw [List.foldl_cons, ih (fun q' h' => hq q' (by simp [h'])), dget_set_ne _ (hq q (by simp))]
  induction ps with
  | nil => intro c; rfl
  | cons p ps ih =>
    intro c
    rw [List.foldl_cons, ih (fun p hp => h p (by simp [hp])), inner _ (h p (by simp))]

include hd hc h in
theorem Committed.rollbackTo (nanos : Int) : Committed n u (d.rollbackTo nanos) := by
  unfold Driver.rollbackTo
  simp only
  generalize hun : ((Driver.sortDeltas d.pendingDeltas).reverse).takeWhile (fun p => decide (nanos ≤ p.1)) = undone
  have hm : ∀ p ∈ undone, p ∈ d.pendingDeltas := by
    intro p hp
    rw [← hun] at hp
    exact mem_sortDeltas (List.mem_reverse.1 (List.takeWhile_subset _ hp))
  refine ⟨h.pend, fun p hp => ?_, fun s hs => ?_, h.disk, h.code⟩
  · have : p ∈ d.pendingDeltas := by
      have gen : ∀ (us : List (Int × Dict Str (PyVal × PyVal))) (ds : Dict Int (Dict Str (PyVal × PyVal))),
          p ∈ us.foldl (fun ds p => Dict.erase ds p.1) ds → p ∈ ds := by
        intro us
        induction us with
        | nil => intro ds h; exact h
        | cons q us ih => intro ds h; exact mem_erase (ih _ h)
      exact gen _ _ hp
    exact h.deltas p this
  · rw [dget_undo undone (fun p hp q hq => away_ne hd hc (h.deltas p (hm p hp) q.1 (List.mem_map.2 ⟨q, hq, rfl⟩)) hs)]
    exact h.cache s hs

include h in
theorem Committed.evict (keep : Str → Bool) : Committed n u (d.evict keep) := by
  refine ⟨h.pend, h.deltas, fun s hs => ?_, h.disk, h.code⟩
  unfold Driver.evict
  simp only
  cases hg : Dict.get? (d.cache.filter fun kv => keep kv.1) (makeKey n s) with
  | none => left; simp only [dget, hg, Option.getD]
  | some v =>
    have := get?_filter_key d.cache keep (makeKey n s) hg
    rcases h.cache s hs with h0 | h1
    · left
      simp only [dget, hg, Option.getD]
      simpa only [dget, this, Option.getD] using h0
    · right
      simp only [dget, hg, Option.getD]
      simpa only [dget, this, Option.getD] using h1

include h in
theorem Committed.records (tx : Dict Str PyVal) (ev : List Event) : Committed n u { d with txWrites := tx, events := ev } :=
  ⟨h.pend, h.deltas, h.cache, h.disk, h.code⟩

end

end Verif
