import Verif.Model.DiskListing
import Verif.Props.Driver2
/-!
# Property C90: what is listed from disk

`Spec.after`, `Call` and `Readable` are in `Verif/Spec/Driver.lean`, `stateKey` and `Plain` in `Verif/Spec/Keys.lean`.
`locOf k ∈ Dict.keys disk` says that the key has a group on disk: it was committed at some time, and deleting its
value does not remove the group.
-/
namespace Verif
open Spec Driver

/-- There is a committed key of variable `g` in some contract. -/
def Spec.VariableOnDisk (disk : Disk) (g : Str) : Prop :=
  ∃ c comps, Plain c ∧ Plain g ∧ (∀ x ∈ comps, Plain x) ∧ locOf (stateKey c g comps) ∈ Dict.keys disk

/-- There is a committed key of contract (or run-state file) `c`. -/
def Spec.ContractOnDisk (disk : Disk) (c : Str) : Prop :=
  ∃ n comps, Plain c ∧ Plain n ∧ (∀ x ∈ comps, Plain x) ∧ locOf (stateKey c n comps) ∈ Dict.keys disk

theorem mem_groups {disk : Disk} {f g : Str} : g ∈ disk.groups f ↔ TopGroup disk f g := by
  unfold Disk.groups TopGroup
  rw [List.mem_dedup, List.mem_filterMap]
  constructor
  · rintro ⟨⟨⟨f, gs⟩, a⟩, hq, hh⟩
    rw [List.mem_filter] at hq
    obtain ⟨h1, h2⟩ := hq
    simp only [decide_eq_true_eq] at h2
    subst h2
    cases gs with
    | nil => cases hh
    | cons x xs => cases hh; exact ⟨xs, a, h1⟩
  · rintro ⟨rest, a, h⟩
    exact ⟨_, List.mem_filter.2 ⟨h, by simp⟩, rfl⟩

theorem mem_sortStr {xs : List Str} {x : Str} : x ∈ sortStr xs ↔ x ∈ xs :=
  (List.perm_insertionSort _ xs).mem_iff

theorem nodup_sortStr {xs : List Str} : (sortStr xs).Nodup ↔ xs.Nodup :=
  (List.perm_insertionSort _ xs).nodup_iff

theorem length_sortStr (xs : List Str) : (sortStr xs).length = xs.length :=
  (List.perm_insertionSort _ xs).length_eq

theorem sorted_sortStr {xs : List Str} (h : xs.Nodup) : (sortStr xs).Pairwise (· < ·) := by
  have h1 := List.pairwise_insertionSort (α := Str) (· ≤ ·) xs
  have h2 := nodup_sortStr.2 h
  exact (h1.and h2).imp fun ⟨a, b⟩ => lt_of_le_of_ne a b

theorem mem_getFiles {disk : Disk} {f : Str} : f ∈ getFiles disk ↔ ∃ l ∈ Dict.keys disk, l.1 = f := by
  unfold getFiles contractFiles runFiles
  rw [mem_sortStr, List.mem_append, List.mem_filter, List.mem_filter, List.mem_dedup, List.mem_map]
  cases startsWith f (py! "__") <;> simp

/-- The set the loop collects: without a length, every matching key; with one, as many as there are, up to it. -/
theorem collectKeys_spec (pre : Str) (n : Int) : ∀ (ks acc : List Str), acc.Nodup → (∀ k ∈ acc, pre = [] ∨ startsWith k pre = true) →
    let r := collectKeys pre n acc ks
    r.Nodup ∧ (∀ k ∈ r, (k ∈ acc ∨ k ∈ ks) ∧ (pre = [] ∨ startsWith k pre = true)) ∧ acc ⊆ r ∧
    ((n ≤ 0 ∨ (r.length : Int) < n) → ∀ k ∈ ks, (pre = [] ∨ startsWith k pre = true) → k ∈ r) ∧
    (0 < n → (acc.length : Int) < n → (r.length : Int) ≤ n) := by
  intro ks
  induction ks with
  | nil =>
    intro acc hnd hp
    exact ⟨hnd, fun k hk => ⟨.inl hk, hp k hk⟩, List.Subset.refl _, by simp, fun _ h => h.le⟩
  | cons k ks ih =>
    intro acc hnd hp
    unfold collectKeys
    simp only
    generalize hacc : (if (pre = [] ∨ startsWith k pre = true) ∧ k ∉ acc then acc ++ [k] else acc) = acc'
    have h1 : acc'.Nodup := by
      rw [← hacc]; split
      · rename_i h
        exact List.nodup_append.2 ⟨hnd, by simp, by simp only [List.mem_singleton]; rintro a ha _ rfl rfl; exact h.2 ha⟩
      · exact hnd
    have h2 : ∀ x ∈ acc', pre = [] ∨ startsWith x pre = true := by
      rw [← hacc]; split
      · rename_i h
        intro x hx
        rcases List.mem_append.1 hx with hx | hx
        · exact hp x hx
        · rw [List.mem_singleton.1 hx]; exact h.1
      · exact hp
    have h3 : acc ⊆ acc' := by
      rw [← hacc]; split
      · exact List.subset_append_left _ _
      · exact List.Subset.refl _
    have h4 : (pre = [] ∨ startsWith k pre = true) → k ∈ acc' := by
      intro h; rw [← hacc]; by_cases hk : k ∈ acc
      · rw [if_neg (by simp [hk])]; exact hk
      · rw [if_pos ⟨h, hk⟩]; simp
    have h5 : ∀ x ∈ acc', x ∈ acc ∨ x = k := by
      rw [← hacc]; split
      · intro x hx
        rcases List.mem_append.1 hx with hx | hx
        · exact .inl hx
        · exact .inr (List.mem_singleton.1 hx)
      · exact fun x hx => .inl hx
    have h6 : acc'.length ≤ acc.length + 1 := by
      rw [← hacc]; split <;> simp
    split
    · rename_i hstop
      refine ⟨h1, fun x hx => ⟨?_, h2 x hx⟩, h3, fun h => ?_, fun hn hl => ?_⟩
      · rcases h5 x hx with h | h
        · exact .inl h
        · exact .inr (by simp [h])
      · exfalso
        rcases h with h | h <;> omega
      · omega
    · rename_i hgo
      obtain ⟨i1, i2, i3, i4, i5⟩ := ih acc' h1 h2
      refine ⟨i1, fun x hx => ⟨?_, (i2 x hx).2⟩, fun x hx => i3 (h3 hx), fun h x hx hpx => ?_, fun hn hl => ?_⟩
      · rcases (i2 x hx).1 with h | h
        · rcases h5 x h with h | h
          · exact .inl h
          · exact .inr (by simp [h])
        · exact .inr (by simp [h])
      · rcases List.mem_cons.1 hx with rfl | hx
        · exact i3 (h4 hpx)
        · exact i4 h x hx hpx
      · exact i5 hn (by omega)

theorem variableOnDisk_iff {disk : Disk} (hp : PlainDisk disk) {g : Str} :
    VariableOnDisk disk g ↔ ∃ f, TopGroup disk f g := by
  constructor
  · rintro ⟨c, comps, pc, pg, px, hm⟩
    rw [locOf_stateKey pc pg px] at hm
    obtain ⟨⟨l, a⟩, hq, he⟩ := List.mem_map.1 hm
    cases he
    exact ⟨c, comps, a, hq⟩
  · rintro ⟨f, rest, a, hm⟩
    obtain ⟨k, ⟨c, n, comps, pc, pn, px, rfl⟩, hl⟩ := hp _ (List.mem_map.2 ⟨_, hm, rfl⟩)
    have hl' := hl
    rw [locOf_stateKey pc pn px] at hl
    cases hl
    exact ⟨f, rest, pc, pn, px, by rw [← hl']; exact List.mem_map.2 ⟨_, hm, rfl⟩⟩

theorem mem_stream {disk : Disk} {g : Str} :
    g ∈ ((getFiles disk).flatMap fun f => disk.groups f) ↔ ∃ f, TopGroup disk f g := by
  rw [List.mem_flatMap]
  constructor
  · rintro ⟨f, _, h⟩; exact ⟨f, mem_groups.1 h⟩
  · rintro ⟨f, h⟩
    refine ⟨f, mem_getFiles.2 ?_, mem_groups.2 h⟩
    obtain ⟨rest, a, hm⟩ := h
    exact ⟨_, List.mem_map.2 ⟨_, hm, rfl⟩, rfl⟩

/-- **C90.** In every reachable state `keys_from_disk(prefix)` lists, in order and without repetition, the names of the
variables that have a committed key in some contract and start with the prefix: names without their contract, so no
listed entry is a key, and one entry stands for all contracts and all keys of a hash. -/
theorem C90_keys {disk : Disk} (h : Readable disk) (hp : PlainDisk disk) (cs : List Call) (hc : ∀ c ∈ cs, c.OK) (pre : Str)
    {n : Int} (hn : n ≤ 0) :
    let d := Spec.after (.open disk) cs
    (d.keysFromDisk pre n).Pairwise (· < ·) ∧
    ∀ g, g ∈ d.keysFromDisk pre n ↔ VariableOnDisk d.disk g ∧ startsWith g pre = true := by
  intro d
  have hpd : PlainDisk d.disk := after_plainDisk (Sim.init h) hp cs hc
  obtain ⟨i1, i2, _, i4, _⟩ := collectKeys_spec pre n ((getFiles d.disk).flatMap fun f => d.disk.groups f) [] List.nodup_nil (by simp)
  have hpre : ∀ k : Str, (pre = [] ∨ startsWith k pre = true) ↔ startsWith k pre = true := by
    intro k
    refine ⟨fun h => ?_, .inr⟩
    rcases h with h | h
    · rw [h]; simp [startsWith]
    · exact h
  refine ⟨sorted_sortStr i1, fun g => ?_⟩
  unfold keysFromDisk
  rw [mem_sortStr, variableOnDisk_iff hpd]
  constructor
  · intro hg
    obtain ⟨a, b⟩ := i2 g hg
    exact ⟨mem_stream.1 (a.resolve_left (by simp)), (hpre g).1 b⟩
  · rintro ⟨a, b⟩
    exact i4 (.inl hn) g (mem_stream.2 a) (.inr b)

/-- **C90, with a length.** At most that many of the names, and all of them when there are fewer. -/
theorem C90_length {disk : Disk} (h : Readable disk) (hp : PlainDisk disk) (cs : List Call) (hc : ∀ c ∈ cs, c.OK) (pre : Str)
    {n : Int} (hn : 0 < n) :
    let d := Spec.after (.open disk) cs
    let r := d.keysFromDisk pre n
    let all := d.keysFromDisk pre 0
    r.Pairwise (· < ·) ∧ r ⊆ all ∧ (r.length : Int) = min n all.length := by
  intro d r all
  obtain ⟨i1, i2, _, i4, i5⟩ := collectKeys_spec pre n ((getFiles d.disk).flatMap fun f => d.disk.groups f) [] List.nodup_nil (by simp)
  obtain ⟨j1, j2, _, j4, _⟩ := collectKeys_spec pre 0 ((getFiles d.disk).flatMap fun f => d.disk.groups f) [] List.nodup_nil (by simp)
  have hsub : ∀ k ∈ collectKeys pre n [] ((getFiles d.disk).flatMap fun f => d.disk.groups f),
      k ∈ collectKeys pre 0 [] ((getFiles d.disk).flatMap fun f => d.disk.groups f) := fun k hk => by
    obtain ⟨a, b⟩ := i2 k hk
    exact j4 (.inl (le_refl _)) k (a.resolve_left (by simp)) b
  refine ⟨sorted_sortStr i1, fun k hk => mem_sortStr.2 (hsub k (mem_sortStr.1 hk)), ?_⟩
  have h1 := i5 hn (by simpa using hn)
  have h2 := (i1.subperm hsub).length_le
  show ((sortStr _).length : Int) = min n ((sortStr _).length : Int)
  rw [length_sortStr, length_sortStr]
  rcases Int.lt_or_eq_of_le h1 with hlt | heq
  · have h3 := (j1.subperm (fun k hk => by
      obtain ⟨a, b⟩ := j2 k hk
      exact i4 (.inr hlt) k (a.resolve_left (by simp)) b)).length_le
    omega
  · omega

theorem contractOnDisk_iff {disk : Disk} (hp : PlainDisk disk) {c : Str} :
    ContractOnDisk disk c ↔ ∃ l ∈ Dict.keys disk, l.1 = c := by
  constructor
  · rintro ⟨n, comps, pc, pn, px, hm⟩
    exact ⟨_, hm, by rw [locOf_stateKey pc pn px]⟩
  · rintro ⟨l, hl, rfl⟩
    obtain ⟨k, ⟨c, n, comps, pc, pn, px, rfl⟩, he⟩ := hp l hl
    have : l.1 = c := by rw [he, locOf_stateKey pc pn px]
    rw [this]
    exact ⟨n, comps, pc, pn, px, by rw [← he]; exact hl⟩

/-- **C90, the contract files.** `get_contract_files` lists, in order, the contracts with a committed key, and
`is_file` tells whether there is one. -/
theorem C90_files {disk : Disk} (h : Readable disk) (hp : PlainDisk disk) (cs : List Call) (hc : ∀ c ∈ cs, c.OK) :
    let d := Spec.after (.open disk) cs
    d.getContractFiles.Pairwise (· < ·) ∧
    (∀ c, c ∈ d.getContractFiles ↔ startsWith c (py! "__") = false ∧ ContractOnDisk d.disk c) ∧
    ∀ c, isFile d.disk c = true ↔ ContractOnDisk d.disk c := by
  intro d
  have hpd : PlainDisk d.disk := after_plainDisk (Sim.init h) hp cs hc
  refine ⟨sorted_sortStr (List.Nodup.filter _ (List.nodup_dedup _)), fun c => ?_, fun c => ?_⟩
  · unfold getContractFiles contractFiles
    rw [mem_sortStr, List.mem_filter, List.mem_dedup, List.mem_map, contractOnDisk_iff hpd, Bool.not_eq_true', and_comm]
  · unfold isFile
    rw [decide_eq_true_eq, List.mem_map, contractOnDisk_iff hpd]

/-- **C90, one file.** `iter_from_disk(prefix, length)` takes the names from the file the prefix names, in order; a
positive length keeps the first ones. -/
theorem C90_iter {disk : Disk} (h : Readable disk) (hp : PlainDisk disk) (cs : List Call) (hc : ∀ c ∈ cs, c.OK) (pre : Str) :
    let d := Spec.after (.open disk) cs
    (d.iterFromDiskN pre 0).Pairwise (· < ·) ∧
    (∀ g, g ∈ d.iterFromDiskN pre 0 ↔ startsWith g pre = true ∧ Plain g ∧
      ∃ comps, Plain (fileOf pre) ∧ (∀ x ∈ comps, Plain x) ∧ locOf (stateKey (fileOf pre) g comps) ∈ Dict.keys d.disk) ∧
    ∀ n : ℕ, 0 < n → d.iterFromDiskN pre n = (d.iterFromDiskN pre 0).take n := by
  intro d
  have hpd : PlainDisk d.disk := after_plainDisk (Sim.init h) hp cs hc
  have hnd : (d.iterFromDisk pre).Nodup := List.Nodup.filter _ (List.nodup_dedup _)
  have hfile : ∀ g, TopGroup d.disk (fileOf pre) g → isFile d.disk (parseKey pre).1 = true := by
    rintro g ⟨rest, a, hm⟩
    unfold isFile
    rw [decide_eq_true_eq, parseKey_file]
    exact List.mem_map.2 ⟨_, List.mem_map.2 ⟨_, hm, rfl⟩, rfl⟩
  have htop : ∀ g, TopGroup d.disk (fileOf pre) g ↔ Plain g ∧
      ∃ comps, Plain (fileOf pre) ∧ (∀ x ∈ comps, Plain x) ∧ locOf (stateKey (fileOf pre) g comps) ∈ Dict.keys d.disk := by
    intro g
    constructor
    · rintro ⟨rest, a, hm⟩
      obtain ⟨k, ⟨c, n, comps, pc, pn, px, rfl⟩, hl⟩ := hpd _ (List.mem_map.2 ⟨_, hm, rfl⟩)
      have hl' := hl
      rw [locOf_stateKey pc pn px] at hl
      injection hl with e1 e2
      injection e2 with e2 e3
      subst e2; subst e3
      rw [← e1] at pc hl'
      exact ⟨pn, rest, pc, px, by rw [← hl']; exact List.mem_map.2 ⟨_, hm, rfl⟩⟩
    · rintro ⟨pg, comps, pc, px, hm⟩
      rw [locOf_stateKey pc pg px] at hm
      obtain ⟨⟨l, a⟩, hq, he⟩ := List.mem_map.1 hm
      cases he
      exact ⟨comps, a, hq⟩
  unfold iterFromDiskN
  dsimp only
  refine ⟨?_, fun g => ?_, fun n hn => ?_⟩
  · split
    · exact sorted_sortStr hnd
    · exact List.Pairwise.nil
  · rw [← htop]
    constructor
    · intro hg
      split at hg
      · rw [if_pos rfl, mem_sortStr, mem_iterFromDisk] at hg
        exact ⟨hg.2, hg.1⟩
      · cases hg
    · rintro ⟨h1, h2⟩
      rw [if_pos (hfile g h2), if_pos rfl, mem_sortStr, mem_iterFromDisk]
      exact ⟨h2, h1⟩
  · split
    · rw [if_neg (by omega), if_pos (by omega), Int.toNat_natCast, if_pos rfl]
    · simp

theorem runStateGroups_ok {disk : Disk} (hr : Readable disk) (f : Str) : ∀ (gs : List Str) (acc : Dict Str PyVal),
    ∃ r, runStateGroups disk f acc gs = .ok r ∧ ∀ k, (∀ g ∈ gs, k = f ++ '.' :: g → ∃ v, disk.get (f, [g]) = .ok v ∧ Dict.get? r k = some v) ∧
      ((∀ g ∈ gs, k ≠ f ++ '.' :: g) → Dict.get? r k = Dict.get? acc k) := by
  intro gs
  induction gs with
  | nil => exact fun acc => ⟨acc, rfl, fun k => ⟨by simp, fun _ => rfl⟩⟩
  | cons g gs ih =>
    intro acc
    obtain ⟨v, hv⟩ := hr (f, [g])
    obtain ⟨r, h1, h2⟩ := ih (Dict.set acc (f ++ '.' :: g) v)
    refine ⟨r, by rw [runStateGroups, hv]; exact h1, fun k => ⟨fun g' hg' hk => ?_, fun hk => ?_⟩⟩
    · by_cases hin : g' ∈ gs
      · exact (h2 k).1 g' hin hk
      · rcases List.mem_cons.1 hg' with rfl | hg'
        · refine ⟨v, hv, ?_⟩
          rw [(h2 k).2 (fun g'' hg'' he => ?_), hk, Dict.get?_set_self]
          rw [hk] at he
          have := List.append_cancel_left he
          injection this with _ this
          exact hin (by rw [this]; exact hg'')
        · exact absurd hg' hin
    · rw [(h2 k).2 (fun g' hg' => hk g' (by simp [hg'])), Dict.get?_set_ne _ _ (Ne.symm (hk g (by simp)))]

/-- Where a dotted name without dots in its first part was split. -/
theorem dotted_inj {f g f' g' : Str} (h1 : '.' ∉ f) (h2 : '.' ∉ f') (h : f ++ '.' :: g = f' ++ '.' :: g') : f = f' ∧ g = g' := by
  induction f generalizing f' with
  | nil =>
    cases f' with
    | nil => injection h with _ h; exact ⟨rfl, h⟩
    | cons c f' => injection h with e _; rw [← e] at h2; simp at h2
  | cons c f ih =>
    cases f' with
    | nil => injection h with e _; rw [e] at h1; simp at h1
    | cons c' f' =>
      injection h with e h
      obtain ⟨i1, i2⟩ := ih (fun hm => h1 (by simp [hm])) (fun hm => h2 (by simp [hm])) h
      exact ⟨by rw [e, i1], i2⟩

theorem runStateFiles_ok {disk : Disk} (hr : Readable disk) : ∀ (fs : List Str) (acc : Dict Str PyVal), fs.Nodup → (∀ f ∈ fs, '.' ∉ f) →
    ∃ r, runStateFiles disk acc fs = .ok r ∧
      ∀ k, (∀ f g, f ∈ fs → g ∈ disk.groups f → k = f ++ '.' :: g → ∃ v, disk.get (f, [g]) = .ok v ∧ Dict.get? r k = some v) ∧
        ((∀ f g, f ∈ fs → g ∈ disk.groups f → k ≠ f ++ '.' :: g) → Dict.get? r k = Dict.get? acc k) := by
  intro fs
  induction fs with
  | nil => exact fun acc _ _ => ⟨acc, rfl, fun k => ⟨by simp, fun _ => rfl⟩⟩
  | cons f fs ih =>
    intro acc hnd hdot
    obtain ⟨r1, h1, h2⟩ := runStateGroups_ok hr f (disk.groups f) acc
    obtain ⟨r, h3, h4⟩ := ih r1 (List.nodup_cons.1 hnd).2 (fun f' hf' => hdot f' (by simp [hf']))
    refine ⟨r, by rw [runStateFiles, h1]; exact h3, fun k => ⟨fun f' g hf' hg hk => ?_, fun hk => ?_⟩⟩
    · rcases List.mem_cons.1 hf' with rfl | hf'
      · obtain ⟨v, hv, hr1⟩ := (h2 k).1 g hg hk
        refine ⟨v, hv, ?_⟩
        rw [(h4 k).2 (fun f'' g'' hf'' _ he => ?_), hr1]
        rw [hk] at he
        have := (dotted_inj (hdot f' (by simp)) (hdot f'' (by simp [hf''])) he).1
        rw [this] at hnd
        exact (List.nodup_cons.1 hnd).1 hf''
      · exact (h4 k).1 f' g hf' hg hk
    · rw [(h4 k).2 (fun f' g hf' hg => hk f' g (by simp [hf']) hg), (h2 k).2 (fun g hg => hk f g (by simp) hg)]

/-- **C90, the run state.** `get_run_state` succeeds and lists, for every file whose name starts with `__`, the
names of the variables with a committed key, each with the committed value of the key of that name: the pending and
cached values are not consulted, and the entries of a hash are not listed (its name is, with the value `None` unless
something is stored under the bare name). -/
theorem C90_run_state {disk : Disk} (h : Readable disk) (hp : PlainDisk disk) (cs : List Call) (hc : ∀ c ∈ cs, c.OK) :
    let d := Spec.after (.open disk) cs
    ∃ r, d.getRunState = .ok r ∧ ∀ k v, Dict.get? r k = some v ↔
      (∃ f g comps, k = f ++ '.' :: g ∧ startsWith f (py! "__") = true ∧ Plain f ∧ Plain g ∧ (∀ x ∈ comps, Plain x) ∧
        locOf (stateKey f g comps) ∈ Dict.keys d.disk) ∧ ((Driver.open d.disk).get k).1 = .ok v := by
  intro d
  have hpd : PlainDisk d.disk := after_plainDisk (Sim.init h) hp cs hc
  have hrd : Readable d.disk := ((Sim.init h).after cs hc).readable
  have hmem : ∀ f, f ∈ runFiles d.disk ↔ startsWith f (py! "__") = true ∧ ContractOnDisk d.disk f := by
    intro f
    unfold runFiles
    rw [List.mem_filter, List.mem_dedup, List.mem_map, contractOnDisk_iff hpd, and_comm]
  obtain ⟨r, h1, h2⟩ := runStateFiles_ok hrd (runFiles d.disk) [] (List.Nodup.filter _ (List.nodup_dedup _))
    (fun f hf => by obtain ⟨_, _, _, pc, _⟩ := (hmem f).1 hf; exact pc.2.1)
  refine ⟨r, h1, fun k v => ?_⟩
  have hkey : ∀ f g, Plain f → Plain g → ((Driver.open d.disk).get (f ++ '.' :: g)).1 = d.disk.get (f, [g]) := by
    intro f g pf pg
    rw [(Driver.get_frame _ _).2]
    have : locOf (f ++ '.' :: g) = (f, [g]) := by
      have := locOf_stateKey (comps := []) pf pg (by simp)
      simpa [stateKey] using this
    rw [← this]; rfl
  constructor
  · intro hk
    by_cases hex : ∃ f g, f ∈ runFiles d.disk ∧ g ∈ d.disk.groups f ∧ k = f ++ '.' :: g
    · obtain ⟨f, g, hf, hg, rfl⟩ := hex
      obtain ⟨u, hu, hru⟩ := (h2 _).1 f g hf hg rfl
      rw [hru] at hk
      cases hk
      obtain ⟨rest, a, hm⟩ := mem_groups.1 hg
      obtain ⟨k, ⟨c, n, comps, pc, pn, px, rfl⟩, hl⟩ := hpd _ (List.mem_map.2 ⟨_, hm, rfl⟩)
      have hl' := hl
      rw [locOf_stateKey pc pn px] at hl
      cases hl
      exact ⟨⟨f, g, rest, rfl, ((hmem f).1 hf).1, pc, pn, px, by rw [← hl']; exact List.mem_map.2 ⟨_, hm, rfl⟩⟩,
        by rw [hkey f g pc pn]; exact hu⟩
    · rw [(h2 k).2 (fun f g hf hg hk => hex ⟨f, g, hf, hg, hk⟩)] at hk
      cases hk
  · rintro ⟨⟨f, g, comps, rfl, hs, pf, pg, px, hm⟩, hv⟩
    have hf : f ∈ runFiles d.disk := (hmem f).2 ⟨hs, g, comps, pf, pg, px, hm⟩
    rw [locOf_stateKey pf pg px] at hm
    obtain ⟨⟨l, a⟩, hq, he⟩ := List.mem_map.1 hm
    cases he
    obtain ⟨u, hu, hru⟩ := (h2 _).1 f g hf (mem_groups.2 ⟨comps, a, hq⟩) rfl
    rw [hkey f g pf pg, hu] at hv
    cases hv
    exact hru

/-- **C90, what the listings do not give.** After `currency.balances:alice` is committed, no listing finds it by the
prefix of its key, and `get_run_state` shows `None` for the hash entry of a run-state file. -/
theorem C90_refuted :
    let d := Spec.after (.open []) [.set {} (py! "currency.balances:alice") (.int 5) true, .set {} (py! "__n.s:a") (.int 7) true, .commit]
    (d.get (py! "currency.balances:alice")).1 = .ok (.int 5) ∧
    d.keysFromDisk (py! "currency") 0 = [] ∧ d.iterFromDiskN (py! "currency.balances") 0 = [] ∧
    d.keysFromDisk [] 0 = [py! "balances", py! "s"] ∧ d.getContractFiles = [py! "currency"] ∧
    (d.get (py! "__n.s:a")).1 = .ok (.int 7) ∧ d.getRunState = .ok [(py! "__n.s", .none)] := by
  refine ⟨rfl, by decide +kernel, by decide +kernel, by decide +kernel, by decide +kernel, rfl, by decide +kernel⟩

/-- The premises of the theorems on a history with two contracts and a run-state file. -/
example :
    let cs : List Call := [.set {} (py! "con_b.x") (.int 5) true, .set {} (py! "con_a.y") (.int 6) true, .set {} (py! "__n.s") (.int 7) true, .hardApply 3]
    Readable [] ∧ PlainDisk [] ∧ (∀ c ∈ cs, c.OK) ∧
    (Spec.after (.open []) cs).keysFromDisk [] 2 = [py! "s", py! "y"] ∧
    (Spec.after (.open []) cs).keysFromDisk [] 0 = [py! "s", py! "x", py! "y"] ∧
    (Spec.after (.open []) cs).getContractFiles = [py! "con_a", py! "con_b"] ∧
    (Spec.after (.open []) cs).getRunState = .ok [(py! "__n.s", .int 7)] := by
  refine ⟨readable_nil, (by intro l hl; cases hl), ?_, by decide +kernel, by decide +kernel, by decide +kernel, by decide +kernel⟩
  have hk : ∀ c n : Str, Plain c → Plain n → PlainKey (c ++ '.' :: n) := fun c n pc pn =>
    ⟨c, n, [], pc, pn, by simp, by simp [stateKey]⟩
  intro c hc
  simp only [List.mem_cons, List.not_mem_nil, or_false] at hc
  rcases hc with rfl | rfl | rfl | rfl
  · exact ⟨hk (py! "con_b") (py! "x") (by decide) (by decide), trivial⟩
  · exact ⟨hk (py! "con_a") (py! "y") (by decide) (by decide), trivial⟩
  · exact ⟨hk (py! "__n") (py! "s") (by decide) (by decide), trivial⟩
  · exact trivial

end Verif
