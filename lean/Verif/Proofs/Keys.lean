import Mathlib.Tactic
import Verif.Model.Orm
import Verif.Spec.Keys
/-! # Lemmas on state keys -/
namespace Verif

theorem splitFirst_append {c : Char} {s : Str} (h : c ∉ s) (t : Str) :
    splitFirst c (s ++ c :: t) = (s, some t) := by
  induction s with
  | nil => simp [splitFirst]
  | cons a s ih =>
    simp only [List.mem_cons, not_or] at h
    rw [List.cons_append, splitFirst, if_neg (Ne.symm h.1), ih h.2]

theorem splitFirst_none {c : Char} {s : Str} (h : c ∉ s) : splitFirst c s = (s, none) := by
  induction s with
  | nil => rfl
  | cons a s ih =>
    simp only [List.mem_cons, not_or] at h
    rw [splitFirst, if_neg (Ne.symm h.1), ih h.2]

theorem splitOnC_none {c : Char} {s : Str} (h : c ∉ s) : splitOnC c s = [s] := by
  induction s with
  | nil => rfl
  | cons a s ih =>
    simp only [List.mem_cons, not_or] at h
    rw [splitOnC, if_neg (Ne.symm h.1), ih h.2]

theorem splitOnC_append {c : Char} {s : Str} (h : c ∉ s) (t : Str) :
    splitOnC c (s ++ c :: t) = s :: splitOnC c t := by
  induction s with
  | nil => simp [splitOnC]
  | cons a s ih =>
    simp only [List.mem_cons, not_or] at h
    rw [List.cons_append, splitOnC, if_neg (Ne.symm h.1), ih h.2]

theorem splitOnC_flat {c : Char} {s : Str} (xs : List Str) (h : c ∉ s) (hx : ∀ x ∈ xs, c ∉ x) :
    splitOnC c (s ++ xs.flatMap fun x => c :: x) = s :: xs := by
  induction xs generalizing s with
  | nil => simpa using splitOnC_none h
  | cons x xs ih =>
    simp only [List.flatMap_cons, List.cons_append]
    rw [splitOnC_append h, ih (hx x (by simp)) (fun y hy => hx y (by simp [hy]))]

theorem replaceC_none {a b : Char} {s : Str} (h : a ∉ s) : replaceC a b s = s := by
  unfold replaceC
  conv_rhs => rw [← List.map_id s]
  apply List.map_congr_left
  intro c hc
  have : c ≠ a := fun e => h (e ▸ hc)
  simp [this]

theorem replaceC_append (a b : Char) (s t : Str) : replaceC a b (s ++ t) = replaceC a b s ++ replaceC a b t := by
  simp [replaceC]

theorem replaceC_flat {a b : Char} (xs : List Str) (hx : ∀ x ∈ xs, a ∉ x) :
    replaceC a b (xs.flatMap fun x => a :: x) = xs.flatMap fun x => b :: x := by
  induction xs with
  | nil => rfl
  | cons x xs ih =>
    simp only [List.flatMap_cons]
    rw [replaceC_append, ih (fun y hy => hx y (by simp [hy]))]
    congr 1
    show (if a = a then b else a) :: replaceC a b x = _
    rw [if_pos rfl, replaceC_none (hx x (by simp))]

/-- Text of a key after the dot. -/
theorem parseKey_dot {c : Str} (h : '.' ∉ c) (h2 : ':' ∉ c) (t : Str) :
    parseKey (c ++ '.' :: t) = (c, replaceC ':' '/' t) := by
  unfold parseKey
  rw [splitFirst_append h]
  simp only [splitFirst_none h2]

theorem locOf_stateKey {c n : Str} {comps : List Str} (hc : Spec.Plain c) (hn : Spec.Plain n)
    (hx : ∀ x ∈ comps, Spec.Plain x) : locOf (Spec.stateKey c n comps) = (c, n :: comps) := by
  unfold locOf Spec.stateKey
  rw [parseKey_dot hc.2.1 hc.2.2.1]
  simp only
  rw [replaceC_append, replaceC_none hn.2.2.1, replaceC_flat comps (fun x h => (hx x h).2.2.1)]
  unfold groupPath
  rw [splitOnC_flat comps hn.2.2.2 (fun x h => (hx x h).2.2.2)]
  congr 1
  rw [List.filter_eq_self]
  intro a ha
  have hp : Spec.Plain a := by
    rcases List.mem_cons.1 ha with rfl | ha
    · exact hn
    · exact hx a ha
  simp only [ne_eq, decide_eq_true_eq]
  exact ⟨hp.1, fun h => hp.2.1 (by rw [h]; simp)⟩

theorem locOf_inj {k k' : Str} (h : Spec.PlainKey k) (h' : Spec.PlainKey k') (he : locOf k = locOf k') : k = k' := by
  obtain ⟨c, n, xs, a1, a2, a3, rfl⟩ := h
  obtain ⟨c', n', xs', b1, b2, b3, rfl⟩ := h'
  rw [locOf_stateKey a1 a2 a3, locOf_stateKey b1 b2 b3] at he
  cases he; rfl

/-! ### Index validation -/

theorem joinWith_cons (c : Char) (x : Str) (xs : List Str) :
    joinWith c (x :: xs) = x ++ xs.flatMap fun y => c :: y := by
  induction xs generalizing x with
  | nil => simp [joinWith]
  | cons y ys ih => rw [joinWith, ih]; simp

theorem validateComps_ok {ks : List Comp} {s : Str} (h : validateComps ks = .ok s) :
    s = ks.flatMap (fun k => k.text ++ [':']) ∧ ∀ k ∈ ks, k.isSlice = false ∧ ':' ∉ k.text ∧ '.' ∉ k.text := by
  induction ks generalizing s with
  | nil => cases h; simp
  | cons k ks ih =>
    unfold validateComps at h
    split at h
    · cases h
    rename_i h1
    split at h
    · cases h
    rename_i h2
    split at h
    · cases h
    rename_i h3
    cases hr : validateComps ks with
    | error e => rw [hr] at h; cases h
    | ok r =>
      rw [hr] at h; cases h
      obtain ⟨e1, e2⟩ := ih hr
      refine ⟨by simp [e1], ?_⟩
      intro k' hk'
      rcases List.mem_cons.1 hk' with rfl | hk'
      · exact ⟨by simpa using h1, h2, h3⟩
      · exact e2 k' hk'

theorem flat_take (xs : List Str) :
    (xs.flatMap fun k => k ++ [':']).take ((xs.flatMap fun k => k ++ [':']).length - 1) = joinWith ':' xs := by
  induction xs with
  | nil => rfl
  | cons x xs ih =>
    cases xs with
    | nil => simp [joinWith]
    | cons y ys =>
      rw [joinWith, ← ih, List.flatMap_cons]
      generalize hz : ((y :: ys).flatMap fun k => k ++ [':']) = z
      have hz0 : z.length ≠ 0 := by rw [← hz]; simp
      rw [show (x ++ [':'] ++ z).length - 1 = (x ++ [':']).length + (z.length - 1) by
        simp only [List.length_append, List.length_cons, List.length_nil]; omega]
      rw [List.take_length_add_append]
      simp

theorem validateKey_ok {ix : Index} {s : Str} (h : validateKey ix = .ok s) :
    s = joinWith ':' ix.texts ∧ s.length ≤ 1024 ∧ (∀ x ∈ ix.texts, ':' ∉ x ∧ '.' ∉ x) ∧
    (∀ ks, ix = .tuple ks → ks.length ≤ 16 ∧ ∀ k ∈ ks, k.isSlice = false) := by
  unfold validateKey at h
  cases ix with
  | one k =>
    simp only at h
    by_cases h1 : ':' ∈ k.text
    · rw [if_pos h1] at h; cases h
    rw [if_neg h1] at h
    by_cases h2 : '.' ∈ k.text
    · rw [if_pos h2] at h; cases h
    rw [if_neg h2] at h
    simp only at h
    split at h
    · cases h
      rename_i h3
      refine ⟨rfl, h3, ?_, by simp⟩
      intro x hx
      simp [Index.texts] at hx
      subst hx; exact ⟨h1, h2⟩
    · cases h
  | tuple ks =>
    simp only at h
    by_cases hl : ks.length ≤ 16
    · rw [if_pos hl] at h
      cases hv : validateComps ks with
      | error e => rw [hv] at h; cases h
      | ok r =>
        rw [hv] at h
        obtain ⟨e1, e2⟩ := validateComps_ok hv
        simp only [Except.map] at h
        split at h
        · cases h
          rename_i h3
          have hj : r.take (r.length - 1) = joinWith ':' (ks.map Comp.text) := by
            rw [← flat_take, e1]; simp [List.flatMap_map]
          refine ⟨hj, h3, ?_, ?_⟩
          · intro x hx
            obtain ⟨k, hk, rfl⟩ := List.mem_map.1 hx
            exact (e2 k hk).2
          · intro ks' hks; cases hks
            exact ⟨hl, fun k hk => (e2 k hk).1⟩
        · cases h
    · rw [if_neg hl] at h; cases h

/-- The key of an accepted entry is the state key with the index's components. -/
theorem entry_eq {c n : Str} {ix : Index} {s : Str} (h : validateKey ix = .ok s) (hne : ix.texts ≠ []) (dv : PyVal) :
    (HashVar.make c n dv).entry s = Spec.stateKey c n ix.texts := by
  obtain ⟨h1, _⟩ := validateKey_ok h
  obtain ⟨x, xs, hx⟩ := List.exists_cons_of_ne_nil hne
  rw [h1, hx, joinWith_cons]
  simp [HashVar.entry, HashVar.make, makeKey, Spec.stateKey]

theorem makeKey_eq (c n : Str) : makeKey c n = Spec.stateKey c n [] := by
  simp [makeKey, Spec.stateKey]

theorem stateKey_inj {c n c' n' : Str} {xs xs' : List Str} (hc : '.' ∉ c) (hc' : '.' ∉ c')
    (hn : ':' ∉ n) (hn' : ':' ∉ n') (hx : ∀ x ∈ xs, ':' ∉ x) (hx' : ∀ x ∈ xs', ':' ∉ x)
    (h : Spec.stateKey c n xs = Spec.stateKey c' n' xs') : c = c' ∧ n = n' ∧ xs = xs' := by
  unfold Spec.stateKey at h
  have h1 := congrArg (splitFirst '.') h
  rw [splitFirst_append hc, splitFirst_append hc'] at h1
  simp only [Prod.mk.injEq, Option.some.injEq] at h1
  have h2 := congrArg (splitOnC ':') h1.2
  rw [splitOnC_flat xs hn hx, splitOnC_flat xs' hn' hx'] at h2
  simp only [List.cons.injEq] at h2
  exact ⟨h1.1, h2.1, h2.2⟩

theorem spelled_ne (xs : List Str) : Spec.spelled xs ≠ [] := by
  unfold Spec.spelled; split <;> simp_all

/-- The key of any accepted entry, also of `h[()]`. -/
theorem entry_spelled {c n : Str} {ix : Index} {s : Str} (h : validateKey ix = .ok s) (dv : PyVal) :
    (HashVar.make c n dv).entry s = Spec.stateKey c n (Spec.spelled ix.texts) := by
  by_cases hne : ix.texts = []
  · have h1 := (validateKey_ok h).1
    rw [hne] at h1
    subst h1
    rw [hne]
    simp [Spec.spelled, joinWith, HashVar.entry, HashVar.make, makeKey, Spec.stateKey]
  · rw [entry_eq h hne, Spec.spelled, if_neg hne]

theorem splitOnC_splitOn (c : Char) (s : Str) : splitOnC c s = s.splitOn c := by
  induction s with
  | nil => rfl
  | cons a s ih =>
    rw [splitOnC, List.splitOn, List.splitOnP_cons]
    by_cases h : a = c
    · simp [h, ih, List.splitOn]
    · simp only [h, if_false, ih, List.splitOn]
      have hb : (a == c) = false := by simp [h]
      simp only [hb, Bool.false_eq_true, if_false]
      cases hs : List.splitOnP (· == c) s with
      | nil => exact absurd hs (List.splitOnP_ne_nil _ _)
      | cons x xs => rfl

theorem splitOn_append_sep (c : Char) (s t : Str) : (s ++ c :: t).splitOn c = s.splitOn c ++ t.splitOn c := by
  induction s with
  | nil => simp [List.splitOn, List.splitOnP_cons]
  | cons a s ih =>
    simp only [List.splitOn, List.cons_append, List.splitOnP_cons] at ih ⊢
    by_cases h : a == c
    · simp [h, ih]
    · simp only [h, Bool.false_eq_true, if_false, ih]
      cases hs : List.splitOnP (· == c) s with
      | nil => exact absurd hs (List.splitOnP_ne_nil _ _)
      | cons x xs => rfl

theorem splitOn_mem {c : Char} {s x : Str} (h : x ∈ s.splitOn c) : ∀ a ∈ x, a ∈ s := by
  induction s generalizing x with
  | nil =>
    simp [List.splitOn, List.splitOnP_nil] at h
    subst h; simp
  | cons b s ih =>
    simp only [List.splitOn, List.splitOnP_cons] at h ih
    by_cases hb : b == c
    · simp only [hb, if_true, List.mem_cons] at h
      rcases h with rfl | h
      · simp
      · intro a ha; exact List.mem_cons_of_mem _ (ih h a ha)
    · simp only [hb, Bool.false_eq_true, if_false] at h
      cases hs : List.splitOnP (· == c) s with
      | nil => exact absurd hs (List.splitOnP_ne_nil _ _)
      | cons y ys =>
        rw [hs] at h ih
        simp only [List.modifyHead_cons, List.mem_cons] at h
        rcases h with rfl | h
        · intro a ha
          rcases List.mem_cons.1 ha with rfl | ha
          · simp
          · exact List.mem_cons_of_mem _ (ih (by simp) a ha)
        · intro a ha; exact List.mem_cons_of_mem _ (ih (by simp [h]) a ha)

theorem groupPath_pieces {s : Str} (h : '.' ∉ s) : groupPath s = Spec.pieces s := by
  unfold groupPath Spec.pieces
  rw [splitOnC_splitOn]
  apply List.filter_congr
  intro x hx
  have : x ≠ ['.'] := by
    rintro rfl
    exact h (splitOn_mem hx '.' (by simp))
  simp [this]

theorem pieces_append (s t : Str) : Spec.pieces (s ++ '/' :: t) = Spec.pieces s ++ Spec.pieces t := by
  unfold Spec.pieces
  rw [splitOn_append_sep, List.filter_append]

theorem pieces_flat (s : Str) (xs : List Str) :
    Spec.pieces (s ++ xs.flatMap fun x => '/' :: x) = Spec.pieces s ++ xs.flatMap Spec.pieces := by
  induction xs generalizing s with
  | nil => simp
  | cons x xs ih =>
    simp only [List.flatMap_cons, List.cons_append]
    rw [pieces_append, ih]

/-- The place of any key whose contract has no separator and whose parts have no "." and ":". -/
theorem locOf_pieces {c n : Str} {comps : List Str} (hc : '.' ∉ c) (hc2 : ':' ∉ c)
    (hx : ∀ x ∈ n :: comps, '.' ∉ x ∧ ':' ∉ x) :
    locOf (Spec.stateKey c n comps) = (c, (n :: comps).flatMap Spec.pieces) := by
  unfold locOf Spec.stateKey
  rw [parseKey_dot hc hc2]
  simp only
  rw [replaceC_append, replaceC_none (hx n (by simp)).2, replaceC_flat comps (fun x h => (hx x (by simp [h])).2)]
  rw [groupPath_pieces, pieces_flat, List.flatMap_cons]
  intro h
  rcases List.mem_append.1 h with h | h
  · exact (hx n (by simp)).1 h
  · obtain ⟨x, hx1, hx2⟩ := List.mem_flatMap.1 h
    rcases List.mem_cons.1 hx2 with h | h
    · cases h
    · exact (hx x (by simp [hx1])).1 h

/-- The file of a key that starts with `c.` is `c` up to its first separator. -/
theorem parseKey_dot_file (c t : Str) : (parseKey (c ++ '.' :: t)).1 = c.takeWhile fun a => a ≠ '.' ∧ a ≠ ':' := by
  have hs : ∀ (q : Char) (s : Str), (splitFirst q s).1 = s.takeWhile fun a => a ≠ q := by
    intro q s
    induction s with
    | nil => rfl
    | cons a s ih =>
      rw [splitFirst]
      by_cases h : a = q
      · simp [h]
      · simp [h, ih]
  unfold parseKey
  have hfst : ∀ x : Str × Option Str, (match x.2 with
      | some rest => ((splitFirst ':' x.1).1, replaceC ':' '/' rest)
      | none => ((splitFirst ':' x.1).1, replaceC ':' '/' x.1)).1 = (splitFirst ':' x.1).1 := by
    intro x; rcases x with ⟨a, _ | b⟩ <;> rfl
  show (match (splitFirst '.' (c ++ '.' :: t)).2 with
      | some rest => ((splitFirst ':' (splitFirst '.' (c ++ '.' :: t)).1).1, replaceC ':' '/' rest)
      | none => ((splitFirst ':' (splitFirst '.' (c ++ '.' :: t)).1).1, replaceC ':' '/' (splitFirst '.' (c ++ '.' :: t)).1)).1 = _
  rw [hfst, hs, hs]
  induction c with
  | nil => simp
  | cons a c ih =>
    by_cases h1 : a = '.'
    · simp [h1]
    · by_cases h2 : a = ':'
      · simp [h2]
      · simpa [List.takeWhile_cons, h1, h2] using ih

end Verif
