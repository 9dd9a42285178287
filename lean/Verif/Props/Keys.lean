import Verif.Proofs.Disk
import Verif.Spec.Driver
/-!
# C12–C15: state keys, their places on disk, and who writes them

Keys are the strings the ORM hands to the driver; a place is (file, HDF5 group path).
-/
namespace Verif

/-! ### C12: Hash entries never share a key -/

/-- **C12.** Two accepted indexes give the same key exactly when contract, hash name and the texts of
the index components are the same (`h[()]` being spelled like `h[""]`). -/
theorem C12_entries {c n c' n' : Str} {dv dv' : PyVal} {ix ix' : Index} {s s' : Str}
    (hc : '.' ∉ c) (hc' : '.' ∉ c') (hn : ':' ∉ n) (hn' : ':' ∉ n')
    (h : validateKey ix = .ok s) (h' : validateKey ix' = .ok s') :
    (HashVar.make c n dv).entry s = (HashVar.make c' n' dv').entry s' ↔
      c = c' ∧ n = n' ∧ Spec.spelled ix.texts = Spec.spelled ix'.texts := by
  rw [entry_spelled h, entry_spelled h']
  have hp : ∀ {ix : Index} {s : Str}, validateKey ix = .ok s → ∀ x ∈ Spec.spelled ix.texts, ':' ∉ x := by
    intro ix s h x hx
    unfold Spec.spelled at hx
    split at hx
    · simp at hx; subst hx; simp
    · exact ((validateKey_ok h).2.2.1 x hx).1
  constructor
  · exact stateKey_inj hc hc' hn hn' (hp h) (hp h')
  · rintro ⟨rfl, rfl, e⟩; rw [e]

/-- **C12.** For non-empty tuples of strings the entry determines the tuple itself. -/
theorem C12_string_tuples {c n c' n' : Str} {dv dv' : PyVal} {xs ys : List Str} {s s' : Str}
    (hc : '.' ∉ c) (hc' : '.' ∉ c') (hn : ':' ∉ n) (hn' : ':' ∉ n') (hx : xs ≠ []) (hy : ys ≠ [])
    (h : validateKey (.tuple (xs.map .str)) = .ok s) (h' : validateKey (.tuple (ys.map .str)) = .ok s')
    (heq : (HashVar.make c n dv).entry s = (HashVar.make c' n' dv').entry s') :
    c = c' ∧ n = n' ∧ xs = ys := by
  have ht : ∀ zs : List Str, (Index.tuple (zs.map .str)).texts = zs := fun zs => by
    simp only [Index.texts, List.map_map]
    conv_rhs => rw [← List.map_id zs]
    rfl
  have := (C12_entries (dv := dv) (dv' := dv') hc hc' hn hn' h h').1 heq
  rwa [ht, ht, Spec.spelled, Spec.spelled, if_neg hx, if_neg hy] at this

/-- **C12.** A Variable's key is never the key of a Hash entry, and Variables of different
contracts or names have different keys. -/
theorem C12_variable_vs_entry {c n c' n' : Str} {t : Option PyType} {dv dv' : PyVal} {s : Str}
    (hc : '.' ∉ c) (hc' : '.' ∉ c') (hn : ':' ∉ n) :
    (Variable.make c n t dv).key ≠ (HashVar.make c' n' dv').entry s := by
  intro h
  simp only [Variable.make, makeKey, HashVar.entry, HashVar.make, List.append_assoc, List.cons_append] at h
  have h1 := congrArg (splitFirst '.') h
  rw [splitFirst_append hc, splitFirst_append hc'] at h1
  cases h1
  exact hn (by simp)

theorem C12_variables {c n c' n' : Str} {t t' : Option PyType} {dv dv' : PyVal} (hc : '.' ∉ c) (hc' : '.' ∉ c')
    (h : (Variable.make c n t dv).key = (Variable.make c' n' t' dv').key) : c = c' ∧ n = n' := by
  simp only [Variable.make, makeKey] at h
  have h1 := congrArg (splitFirst '.') h
  rw [splitFirst_append hc, splitFirst_append hc'] at h1
  cases h1; exact ⟨rfl, rfl⟩

/-- **C12, the unrestricted claim fails.** `h[1]` and `h["1"]` are the same entry, and so are `h[()]` and `h[""]`. -/
theorem C12_refuted :
    validateKey (.one (.int 1)) = validateKey (.one (.str (py! "1"))) ∧
    (∃ s, validateKey (.one (.int 1)) = .ok s) ∧
    validateKey (.tuple []) = validateKey (.one (.str [])) ∧ validateKey (.tuple []) = .ok [] := by
  refine ⟨by decide +kernel, ⟨py! "1", by decide +kernel⟩, by decide +kernel, by decide +kernel⟩

/-- Hypotheses met: two accepted three-part indexes. -/
example : validateKey (.tuple [.str (py! "alice"), .int (-3), .str []]) = .ok (py! "alice:-3:") ∧
    validateKey (.tuple [.str (py! "a"), .str (py! "b")]) = .ok (py! "a:b") ∧
    validateKey (.tuple [.str (py! "a:b")]) = .error .assertion := by
  refine ⟨?_, ?_, ?_⟩ <;> decide +kernel

/-! ### C13: different keys live at different places -/

/-- **C13.** Two keys have the same place exactly when they belong to the same contract and the
non-empty pieces between ":" and "/" of what follows are the same; committing a write or a deletion
of one leaves the stored value and block stamp of the other as they were when the places differ. -/
theorem C13_places {c n c' n' : Str} {xs xs' : List Str} (hc : '.' ∉ c ∧ ':' ∉ c) (hc' : '.' ∉ c' ∧ ':' ∉ c')
    (hx : ∀ x ∈ n :: xs, '.' ∉ x ∧ ':' ∉ x) (hx' : ∀ x ∈ n' :: xs', '.' ∉ x ∧ ':' ∉ x) :
    (locOf (Spec.stateKey c n xs) = locOf (Spec.stateKey c' n' xs') ↔
      c = c' ∧ (n :: xs).flatMap Spec.pieces = (n' :: xs').flatMap Spec.pieces) ∧
    (¬ (c = c' ∧ (n :: xs).flatMap Spec.pieces = (n' :: xs').flatMap Spec.pieces) →
      ∀ (disk : Disk) (v : PyVal) (ops : List DiskOp), Driver.commitKeyOps disk (Spec.stateKey c n xs) v = .ok ops →
        (disk.applyAll ops).get (locOf (Spec.stateKey c' n' xs')) = disk.get (locOf (Spec.stateKey c' n' xs')) ∧
        (disk.applyAll ops).getBlock (locOf (Spec.stateKey c' n' xs')) =
          disk.getBlock (locOf (Spec.stateKey c' n' xs'))) := by
  have hiff : locOf (Spec.stateKey c n xs) = locOf (Spec.stateKey c' n' xs') ↔
      c = c' ∧ (n :: xs).flatMap Spec.pieces = (n' :: xs').flatMap Spec.pieces := by
    rw [locOf_pieces hc.1 hc.2 hx, locOf_pieces hc'.1 hc'.2 hx', Prod.mk.injEq]
  refine ⟨hiff, fun hne disk v ops ho => ?_⟩
  have ha := Disk.attrs_applyAll_ne disk ops (l := locOf (Spec.stateKey c' n' xs'))
    (fun op hop => by rw [Driver.commitKeyOps_loc ho op hop]; exact fun e => hne (hiff.1 e))
  exact ⟨Disk.get_congr ha, by unfold Disk.getBlock; rw [ha]⟩

/-- **C13.** In particular different keys made of plain names and components (non-empty, without "/")
have different places. -/
theorem C13_plain {k k' : Str} (h : Spec.PlainKey k) (h' : Spec.PlainKey k') (hne : k ≠ k') :
    locOf k ≠ locOf k' ∧
    ∀ (disk : Disk) (v : PyVal) (ops : List DiskOp), Driver.commitKeyOps disk k v = .ok ops →
      (disk.applyAll ops).get (locOf k') = disk.get (locOf k') ∧
      (disk.applyAll ops).getBlock (locOf k') = disk.getBlock (locOf k') := by
  have hl : locOf k ≠ locOf k' := fun he => hne (locOf_inj h h' he)
  refine ⟨hl, fun disk v ops ho => ?_⟩
  have ha := Disk.attrs_applyAll_ne disk ops (l := locOf k')
    (fun op hop => by rw [Driver.commitKeyOps_loc ho op hop]; exact hl)
  exact ⟨Disk.get_congr ha, by unfold Disk.getBlock; rw [ha]⟩

/-- Hypotheses met: a balance and an allowance. -/
example : Spec.PlainKey (py! "currency.balances:alice") ∧ Spec.PlainKey (py! "currency.balances:alice:bob") ∧
    locOf (py! "currency.balances:alice:bob") = (py! "currency", [py! "balances", py! "alice", py! "bob"]) := by
  refine ⟨⟨py! "currency", py! "balances", [py! "alice"], ?_, ?_, ?_, ?_⟩,
    ⟨py! "currency", py! "balances", [py! "alice", py! "bob"], ?_, ?_, ?_, ?_⟩, ?_⟩ <;> decide +kernel

/-- Hypotheses met on both sides: an allowance at its own place, and one that is not. -/
example : (py! "balances" :: [py! "a/b", []]).flatMap Spec.pieces = [py! "balances", py! "a", py! "b"] ∧
    (py! "balances" :: [py! "a", py! "b"]).flatMap Spec.pieces = [py! "balances", py! "a", py! "b"] ∧
    (py! "balances" :: [py! "ab"]).flatMap Spec.pieces = [py! "balances", py! "ab"] := by
  refine ⟨?_, ?_, ?_⟩ <;> decide +kernel

/-- **C13, the unrestricted claim fails.** `balances["a/b"]` and `balances["a","b"]` are accepted entries with
different keys and one place, and so are `balances[""]` and the Variable `balances`: writing one
destroys the other. -/
theorem C13_refuted :
    validateKey (.one (.str (py! "a/b"))) = .ok (py! "a/b") ∧
    validateKey (.tuple [.str (py! "a"), .str (py! "b")]) = .ok (py! "a:b") ∧
    locOf (py! "currency.balances:a/b") = locOf (py! "currency.balances:a:b") ∧
    validateKey (.one (.str [])) = .ok [] ∧
    locOf (py! "currency.balances:") = locOf (py! "currency.balances") := by
  refine ⟨?_, ?_, ?_, ?_, ?_⟩ <;> decide +kernel

/-! ### C14: index validation -/

theorem validateKey_tuple {ks : List Comp} (hl : ks.length ≤ 16) (hs : ∀ k ∈ ks, k.isSlice = false ∧ ':' ∉ k.text ∧ '.' ∉ k.text)
    (hj : (joinWith ':' (ks.map Comp.text)).length ≤ 1024) :
    validateKey (.tuple ks) = .ok (joinWith ':' (ks.map Comp.text)) := by
  have hv : validateComps ks = .ok (ks.flatMap fun k => k.text ++ [':']) := by
    clear hl hj
    induction ks with
    | nil => rfl
    | cons k ks ih =>
      obtain ⟨h1, h2, h3⟩ := hs k (by simp)
      rw [validateComps, if_neg (by simp [h1]), if_neg h2, if_neg h3, ih (fun k hk => hs k (by simp [hk]))]
      simp [Except.map]
  have ht : (ks.flatMap fun k => k.text ++ [':']) = ((ks.map Comp.text).flatMap fun k => k ++ [':']) := by
    rw [List.flatMap_map]
  simp only [validateKey, if_pos hl, hv, Except.map]
  rw [ht, flat_take, if_pos hj]

theorem joinWith_length (xs : List Str) :
    (joinWith ':' xs).length = (xs.map List.length).sum + (xs.length - 1) := by
  induction xs with
  | nil => rfl
  | cons x xs ih =>
    cases xs with
    | nil => simp [joinWith]
    | cons y ys =>
      rw [joinWith, List.length_append, List.length_cons, ih]
      simp only [List.map_cons, List.sum_cons, List.length_cons]
      omega

/-- **C14.** Exactly the indexes within the limits are accepted. -/
theorem C14_limits (ix : Index) : (∃ s, validateKey ix = .ok s) ↔ Spec.AcceptedIndex ix := by
  constructor
  · rintro ⟨s, h⟩
    obtain ⟨h1, h2, h3, h4⟩ := validateKey_ok h
    refine ⟨?_, fun t ht => ⟨(h3 t ht).2, (h3 t ht).1⟩, ?_⟩
    · cases ix with
      | one k => trivial
      | tuple ks => exact h4 ks rfl
    · rw [← joinWith_length, ← h1]; exact h2
  · rintro ⟨h1, h2, h3⟩
    cases ix with
    | one k =>
      have hk := h2 k.text (by simp [Index.texts])
      refine ⟨k.text, ?_⟩
      simp only [validateKey, if_neg hk.1, if_neg hk.2]
      rw [if_pos (by simpa [Index.texts] using h3)]
    | tuple ks =>
      exact ⟨_, validateKey_tuple h1.1 (fun k hk => ⟨h1.2 k hk, (h2 k.text (List.mem_map_of_mem hk)).2,
        (h2 k.text (List.mem_map_of_mem hk)).1⟩) (by rw [joinWith_length]; exact h3)⟩

/-- **C14.** The key text of an accepted index consists of the texts of its components, separated by ":". -/
theorem C14_text {ix : Index} {s : Str} (h : validateKey ix = .ok s) : s = joinWith ':' ix.texts := (validateKey_ok h).1

/-- **C14.** A rejected index leaves driver and meter untouched, for writes and for reads. -/
theorem C14_rejected_untouched {ix : Index} {e : PyErr} (h : validateKey ix = .error e) (x : HashVar) (m : Meter)
    (d : Driver) (v : PyVal) : x.setItem m d ix v = (.error e, m, d) ∧ x.getItem d ix = (.error e, d) := by
  simp only [HashVar.setItem, HashVar.getItem, h, and_self]

/-- **C14, slices are not always refused.** `h[1:2]` is accepted, under the key text `slice(1, 2, None)`. -/
theorem C14_refuted : validateKey (.one (.slice (py! "slice(1, 2, None)"))) = .ok (py! "slice(1, 2, None)") := by
  decide +kernel

example : (∃ s, validateKey (.tuple (List.replicate 16 (.int 1))) = .ok s) ∧
    validateKey (.tuple (List.replicate 17 (.int 1))) = .error .assertion ∧
    (∃ s, validateKey (.one (.str (List.replicate 1024 'a'))) = .ok s) ∧
    validateKey (.one (.str (List.replicate 1025 'a'))) = .error .assertion := by
  refine ⟨⟨_, rfl⟩, by decide +kernel, ⟨List.replicate 1024 'a', by decide +kernel⟩, by decide +kernel⟩

/-! ### C15: a contract only writes its own state -/

theorem Spec.OnlyUnder.refl (c : Str) (d : Driver) : Spec.OnlyUnder c d d := ⟨rfl, rfl, fun _ _ => ⟨rfl, rfl⟩⟩
theorem Spec.OnlyUnder.trans {c : Str} {d d' d'' : Driver} (h : Spec.OnlyUnder c d d') (h' : Spec.OnlyUnder c d' d'') :
    Spec.OnlyUnder c d d'' :=
  ⟨h'.1.trans h.1, h'.2.1.trans h.2.1, fun k hk => ⟨((h'.2.2 k hk).1).trans (h.2.2 k hk).1, ((h'.2.2 k hk).2).trans (h.2.2 k hk).2⟩⟩

theorem Driver.set_under {c k : Str} (hk : Spec.Under c k) (m : Meter) (d : Driver) (v : PyVal) (txn : Bool) :
    Spec.OnlyUnder c d (d.set m k v txn).2.2 := by
  obtain ⟨h1, h2, _, _, _, h6⟩ := Driver.set_frame m d k v txn
  exact ⟨h1, h2, fun k' hk' => h6 k' (fun he => hk' (he ▸ hk))⟩

theorem under_makeKey (c n : Str) : Spec.Under c (makeKey c n) := ⟨n, by simp [makeKey]⟩
theorem under_entry (c n : Str) (dv : PyVal) (s : Str) : Spec.Under c ((HashVar.make c n dv).entry s) :=
  ⟨n ++ ':' :: s, by simp [HashVar.make, HashVar.entry, makeKey]⟩

/-- **C15.** Setting a contract's Variable touches only keys under that contract. -/
theorem C15_variable (c n : Str) (t : Option PyType) (dv : PyVal) (m : Meter) (d : Driver) (v : PyVal) :
    Spec.OnlyUnder c d ((Variable.make c n t dv).set m d v).2.2 := by
  unfold Variable.set
  split
  · split
    · exact .refl c d
    · exact Driver.set_under (under_makeKey c n) m d v true
  · exact Driver.set_under (under_makeKey c n) m d v true

/-- **C15.** Setting an entry of a contract's Hash touches only keys under that contract. -/
theorem C15_hash_set (c n : Str) (dv : PyVal) (m : Meter) (d : Driver) (ix : Index) (v : PyVal) :
    Spec.OnlyUnder c d ((HashVar.make c n dv).setItem m d ix v).2.2 := by
  unfold HashVar.setItem
  split
  · exact .refl c d
  · exact Driver.set_under (under_entry c n dv _) m d v true

theorem itemsFromDisk_frame (d : Driver) (acc : Dict Str PyVal) (ks : List Str) :
    (d.itemsFromDisk acc ks).2 = { d with pendingReads := (d.itemsFromDisk acc ks).2.pendingReads } ∧
    ∀ r, (d.itemsFromDisk acc ks).1 = .ok r → ∀ k ∈ Dict.keys r, k ∈ Dict.keys acc ∨ k ∈ ks := by
  induction ks generalizing d acc with
  | nil => exact ⟨rfl, fun r h => by cases h; exact fun k hk => Or.inl hk⟩
  | cons k ks ih =>
    unfold Driver.itemsFromDisk
    obtain ⟨hf, _⟩ := Driver.get_frame d k
    rcases hg : d.get k with ⟨r, d'⟩
    rw [hg] at hf
    cases r with
    | error e => exact ⟨hf, fun r h => by cases h⟩
    | ok v =>
      simp only
      obtain ⟨h1, h2⟩ := ih d' (Dict.set acc k v)
      refine ⟨?_, ?_⟩
      · rw [h1]; simp only at hf; rw [hf]
      · intro r hr k' hk'
        rcases h2 r hr k' hk' with h | h
        · rw [Dict.keys_set] at h
          split at h
          · exact Or.inl h
          · rcases List.mem_append.1 h with h | h
            · exact Or.inl h
            · simp at h; exact Or.inr (by simp [h])
        · exact Or.inr (by simp [h])

/-- Listed keys start with the prefix, and listing changes only the read record. -/
theorem items_frame (d : Driver) (p : Str) :
    (d.items p).2 = { d with pendingReads := (d.items p).2.pendingReads } ∧
    ∀ r, (d.items p).1 = .ok r → ∀ k ∈ Dict.keys r, startsWith k p = true := by
  unfold Driver.items
  have hpick : ∀ (xs acc : Dict Str PyVal), (∀ k ∈ Dict.keys acc, startsWith k p = true) →
      ∀ k ∈ Dict.keys (xs.foldl (fun (acc : Dict Str PyVal) (kv : Str × PyVal) =>
        if startsWith kv.1 p ∧ kv.2.isNone = false then Dict.set acc kv.1 kv.2 else acc) acc), startsWith k p = true := by
    intro xs
    induction xs with
    | nil => intro acc h k hk; exact h k hk
    | cons x xs ih =>
      intro acc h
      apply ih
      intro k hk
      simp only at hk
      split at hk
      · rename_i hx
        rw [Dict.keys_set] at hk
        split at hk
        · exact h k hk
        · rcases List.mem_append.1 hk with h1 | h1
          · exact h k h1
          · simp at h1; rw [h1]; exact hx.1
      · exact h k hk
  obtain ⟨h1, h2⟩ := itemsFromDisk_frame d _ ((d.iterFromDisk p).filter fun k => k ∉ Dict.keys
    (d.cache.foldl (fun (acc : Dict Str PyVal) (kv : Str × PyVal) =>
        if startsWith kv.1 p ∧ kv.2.isNone = false then Dict.set acc kv.1 kv.2 else acc)
      (d.pendingWrites.foldl (fun (acc : Dict Str PyVal) (kv : Str × PyVal) =>
        if startsWith kv.1 p ∧ kv.2.isNone = false then Dict.set acc kv.1 kv.2 else acc) [])))
  refine ⟨h1, fun r hr k hk => ?_⟩
  rcases h2 r hr k hk with h | h
  · exact hpick _ _ (hpick _ _ (by simp [Dict.keys])) k h
  · have := (List.mem_filter.1 h).1
    unfold Driver.iterFromDisk at this
    exact (List.mem_filter.1 this).2

theorem deleteKeys_under {c : Str} (ks : List Str) (hk : ∀ k ∈ ks, Spec.Under c k) (m : Meter) (d : Driver) :
    Spec.OnlyUnder c d (deleteKeys m d ks).2.2 := by
  induction ks generalizing m d with
  | nil => exact .refl c d
  | cons k ks ih =>
    have h1 := Driver.set_under (hk k (by simp)) m d .none false
    unfold deleteKeys
    rcases hd : d.delete m k with ⟨r, m', d'⟩
    have h1' : Spec.OnlyUnder c d d' := by
      have e : (d.set m k .none false).2.2 = d' := by rw [show d.set m k .none false = _ from hd]
      rwa [e] at h1
    cases r with
    | error e => exact h1'
    | ok u => exact h1'.trans (ih (fun k hk' => hk k (by simp [hk'])) m' d')

/-- **C15.** Clearing a contract's Hash touches only keys under that contract. -/
theorem C15_hash_clear (c n : Str) (dv : PyVal) (m : Meter) (d : Driver) (args : List Comp) :
    Spec.OnlyUnder c d ((HashVar.make c n dv).clear m d args).2.2 := by
  unfold HashVar.clear HashVar.items
  cases hp : (HashVar.make c n dv).prefixFor args with
  | error e => exact .refl c d
  | ok p =>
    have hu : Spec.Under c p := by
      unfold HashVar.prefixFor at hp
      cases hv : validateKey (.tuple args) with
      | error e => rw [hv] at hp; cases hp
      | ok mk =>
        rw [hv] at hp
        simp only [Except.map] at hp
        cases hp
        split
        · exact ⟨n ++ [':'], by simp [HashVar.make, makeKey]⟩
        · exact ⟨n ++ ':' :: (mk ++ [':']), by simp [HashVar.make, makeKey]⟩
    obtain ⟨h1, h2⟩ := items_frame d p
    simp only
    rcases hi : d.items p with ⟨r, d'⟩
    rw [hi] at h1 h2
    have hd : Spec.OnlyUnder c d d' := by
      simp only at h1; rw [h1]; exact ⟨rfl, rfl, fun _ _ => ⟨rfl, rfl⟩⟩
    cases r with
    | error e => exact hd
    | ok kvs =>
      refine hd.trans (deleteKeys_under _ (fun k hk => ?_) m d')
      have := h2 kvs rfl k hk
      exact hu.trans (List.isPrefixOf_iff_prefix.1 this)

/-- **C15.** Reads, listings and all operations of foreign objects change no write at all. -/
theorem C15_reads (c : Str) (d : Driver) (x : Variable) (h : HashVar) (ix : Index) (p : Str) :
    Spec.OnlyUnder c d (x.get d).2 ∧ Spec.OnlyUnder c d (h.getItem d ix).2 ∧ Spec.OnlyUnder c d (d.items p).2 := by
  have aux : ∀ k, Spec.OnlyUnder c d (d.get k).2 := fun k => by
    rw [(Driver.get_frame d k).1]; exact ⟨rfl, rfl, fun _ _ => ⟨rfl, rfl⟩⟩
  refine ⟨?_, ?_, ?_⟩
  · have := aux x.key
    unfold Variable.get
    rcases hg : d.get x.key with ⟨r, d'⟩
    rw [hg] at this
    cases r <;> exact this
  · unfold HashVar.getItem
    split
    · exact .refl c d
    · rename_i s _
      have := aux (h.entry s)
      rcases hg : d.get (h.entry s) with ⟨r, d'⟩
      rw [hg] at this
      cases r <;> exact this
  · rw [(items_frame d p).1]; exact ⟨rfl, rfl, fun _ _ => ⟨rfl, rfl⟩⟩

/-- **C15.** Keys under a contract are stored in the file named by the contract name up to its first
"." or ":"; for a name without them that is the contract's own file. -/
theorem C15_file {c k : Str} (h : Spec.Under c k) : (locOf k).1 = c.takeWhile fun a => a ≠ '.' ∧ a ≠ ':' := by
  obtain ⟨t, rfl⟩ := h
  simp only [locOf, List.append_assoc, List.cons_append, List.nil_append]
  exact parseKey_dot_file c t

theorem C15_own_file {c k : Str} (hd : '.' ∉ c) (hc : ':' ∉ c) (h : Spec.Under c k) : (locOf k).1 = c := by
  rw [C15_file h]
  have := List.takeWhile_append_of_pos (l₂ := []) (l₁ := c) (p := fun a => decide (a ≠ '.' ∧ a ≠ ':')) (fun a ha => by
    have h1 : a ≠ '.' := fun e => hd (e ▸ ha)
    have h2 : a ≠ ':' := fun e => hc (e ▸ ha)
    simp [h1, h2])
  simpa using this

/-- **C15.** Two different contracts can share a key only if the name of one continues the name of the
other with a "."; and if so they do share keys. -/
theorem C15_disjoint {c c' : Str} (hne : c ≠ c') :
    (∃ k, Spec.Under c k ∧ Spec.Under c' k) ↔ Spec.Under c c' ∨ Spec.Under c' c := by
  constructor
  · rintro ⟨k, ⟨t, h⟩, ⟨t', h'⟩⟩
    rcases List.prefix_or_prefix_of_prefix (l₁ := c ++ ['.']) (l₂ := c' ++ ['.']) (l₃ := k) ⟨t, h⟩ ⟨t', h'⟩ with ⟨u, hu⟩ | ⟨u, hu⟩
    · left
      rcases List.eq_nil_or_concat u with rfl | ⟨u', b, rfl⟩
      · simp at hu; exact absurd hu hne
      · rw [List.concat_eq_append, ← List.append_assoc] at hu
        obtain ⟨e, _⟩ := List.append_inj' hu rfl
        exact ⟨u', e⟩
    · right
      rcases List.eq_nil_or_concat u with rfl | ⟨u', b, rfl⟩
      · simp at hu; exact absurd hu.symm hne
      · rw [List.concat_eq_append, ← List.append_assoc] at hu
        obtain ⟨e, _⟩ := List.append_inj' hu rfl
        exact ⟨u', e⟩
  · rintro (⟨t, h⟩ | ⟨t, h⟩)
    · exact ⟨c' ++ ['.'], ⟨t ++ ['.'], by rw [← List.append_assoc, h]⟩, ⟨[], by simp⟩⟩
    · exact ⟨c ++ ['.'], ⟨[], by simp⟩, ⟨t ++ ['.'], by rw [← List.append_assoc, h]⟩⟩

/-- **C15, files are not always separate.** The submission rules allow the contract name `con_a:b` (no rule forbids
":"); its Variable `x` is stored exactly where `con_a`'s Variable `x` is. -/
theorem C15_refuted :
    locOf (Variable.make (py! "con_a:b") (py! "x")).key = locOf (Variable.make (py! "con_a") (py! "x")).key ∧
    ¬ Spec.Under (py! "con_a") (Variable.make (py! "con_a:b") (py! "x")).key := by
  refine ⟨by decide +kernel, ?_⟩
  intro ⟨t, ht⟩
  simp [Variable.make, makeKey] at ht

/-- Hypotheses met, and the clear really deletes: the pending entry under the prefix becomes `None`. -/
example : Spec.Under (py! "con_a") (py! "con_a.x:1") := ⟨py! "x:1", rfl⟩
example : ((HashVar.make (py! "con_a") (py! "x")).clear {} { pendingWrites := [(py! "con_a.x:1", .int 5), (py! "con_b.x:1", .int 6)] } []).2.2.pendingWrites
    = [(py! "con_a.x:1", .none), (py! "con_b.x:1", .int 6)] := by rfl

end Verif
