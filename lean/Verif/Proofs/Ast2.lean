import Verif.Proofs.Ast
/-!
# What an accepted tree satisfies, node by node
-/
namespace Verif
open Spec

theorem Lint.flag_ne (s : Lint) (n : Nat) : (s.flag n).violations ≠ [] := by simp [Lint.flag]

theorem Lint.flagIf_nil (s : Lint) (b : Bool) (n : Nat) :
    (s.flagIf b n).violations = [] ↔ s.violations = [] ∧ b = false := by
  cases b <;> simp [Lint.flagIf, Lint.flag]

/-- Everything but the violations is the same. -/
structure Lint.Same (s s' : Lint) : Prop where
  oneExport : s'.oneExport = s.oneExport
  ctor : s'.constructorVisited = s.constructorVisited
  orm : s'.ormNames = s.ormNames
  args : s'.visitedArgs = s.visitedArgs
  types : s'.argTypes = s.argTypes

theorem Lint.Same.refl (s : Lint) : Lint.Same s s := ⟨rfl, rfl, rfl, rfl, rfl⟩

theorem Lint.Same.trans {a b c : Lint} (h : Lint.Same a b) (h' : Lint.Same b c) : Lint.Same a c :=
  ⟨h'.1.trans h.1, h'.2.trans h.2, h'.3.trans h.3, h'.4.trans h.4, h'.5.trans h.5⟩

theorem Lint.flagIf_same (s : Lint) (b : Bool) (n : Nat) : Lint.Same s (s.flagIf b n) := by
  cases b <;> exact ⟨rfl, rfl, rfl, rfl, rfl⟩

/-- The records only grow. -/
structure Lint.Grow (s s' : Lint) : Prop where
  clean : s'.violations = [] → s.violations = []
  ctor : s.constructorVisited = true → s'.constructorVisited = true
  orm : ∀ x ∈ s.ormNames, x ∈ s'.ormNames
  args : ∀ x ∈ s.visitedArgs, x ∈ s'.visitedArgs
  types : ∀ x ∈ s.argTypes, x ∈ s'.argTypes

theorem Lint.Grow.refl (s : Lint) : Lint.Grow s s := ⟨id, id, fun _ => id, fun _ => id, fun _ => id⟩

theorem Lint.Grow.trans {a b c : Lint} (h : Lint.Grow a b) (h' : Lint.Grow b c) : Lint.Grow a c :=
  ⟨h.1 ∘ h'.1, h'.2 ∘ h.2, fun x => h'.3 x ∘ h.3 x, fun x => h'.4 x ∘ h.4 x, fun x => h'.5 x ∘ h.5 x⟩

theorem Lint.Same.grow {s s' : Lint} (h : Lint.Same s s') (hc : s'.violations = [] → s.violations = []) : Lint.Grow s s' :=
  ⟨hc, fun h1 => by rw [h.ctor]; exact h1, fun x h1 => by rw [h.orm]; exact h1, fun x h1 => by rw [h.args]; exact h1,
   fun x h1 => by rw [h.types]; exact h1⟩

theorem foldl_flag {α : Type} (n : Nat) (xs : List α) : ∀ s : Lint,
    Lint.Same s (xs.foldl (fun s _ => s.flag n) s) ∧ ((xs.foldl (fun s _ => s.flag n) s).violations = [] → s.violations = [] ∧ xs = []) := by
  induction xs with
  | nil => exact fun s => ⟨Lint.Same.refl s, fun h => ⟨h, rfl⟩⟩
  | cons x xs ih =>
    intro s
    obtain ⟨h1, h2⟩ := ih (s.flag n)
    exact ⟨⟨h1.1, h1.2, h1.3, h1.4, h1.5⟩, fun h => absurd (h2 h).1 (Lint.flag_ne _ _)⟩

theorem foldl_flagIf {α : Type} (p : α → Bool) (n : Nat) (xs : List α) : ∀ s : Lint,
    Lint.Same s (xs.foldl (fun s x => s.flagIf (p x) n) s) ∧
    ((xs.foldl (fun s x => s.flagIf (p x) n) s).violations = [] → s.violations = [] ∧ ∀ x ∈ xs, p x = false) := by
  induction xs with
  | nil => exact fun s => ⟨Lint.Same.refl s, fun h => ⟨h, by simp⟩⟩
  | cons x xs ih =>
    intro s
    obtain ⟨h1, h2⟩ := ih (s.flagIf (p x) n)
    refine ⟨(Lint.flagIf_same _ _ _).trans h1, fun h => ?_⟩
    obtain ⟨h3, h4⟩ := h2 h
    obtain ⟨h5, h6⟩ := (Lint.flagIf_nil _ _ _).1 h3
    refine ⟨h5, fun y hy => ?_⟩
    rcases List.mem_cons.1 hy with rfl | hy
    · exact h6
    · exact h4 y hy

theorem public_of {v : Str} (h : (startsWith v (py! "_") || endsUnderscore v) = false) : Spec.Public v := by
  simp only [Bool.or_eq_false_iff] at h
  obtain ⟨h1, h2⟩ := h
  refine ⟨fun h => ?_, fun h => ?_⟩
  · cases v with
    | nil => cases h
    | cons a v =>
      simp only [List.head?_cons, Option.some.injEq] at h
      subst h
      simp [startsWith, List.isPrefixOf] at h1
  · simp [endsUnderscore, h] at h2

theorem visitName_clean {I : PyInfo} {id : Str} {s : Lint} :
    Lint.Same s (visitName I id s) ∧ ((visitName I id s).violations = [] →
      s.violations = [] ∧ Spec.Public id ∧ id ≠ py! "rt" ∧ (I.illegal id = true → id = py! "float")) := by
  unfold visitName notSystemVariable
  refine ⟨((Lint.flagIf_same _ _ _).trans (Lint.flagIf_same _ _ _)).trans (Lint.flagIf_same _ _ _), fun h => ?_⟩
  rw [Lint.flagIf_nil, Lint.flagIf_nil, Lint.flagIf_nil] at h
  obtain ⟨⟨⟨h1, h2⟩, h3⟩, h4⟩ := h
  refine ⟨h1, public_of h2, by simpa using h3, fun hi => ?_⟩
  rw [hi] at h4
  simpa using h4

theorem visitAttribute_clean {a : Str} {s : Lint} :
    Lint.Same s (visitAttribute a s) ∧ ((visitAttribute a s).violations = [] →
      s.violations = [] ∧ Spec.Public a ∧ a ≠ py! "rt") := by
  unfold visitAttribute notSystemVariable
  refine ⟨(Lint.flagIf_same _ _ _).trans (Lint.flagIf_same _ _ _), fun h => ?_⟩
  rw [Lint.flagIf_nil, Lint.flagIf_nil] at h
  exact ⟨h.1.1, public_of h.1.2, by simpa using h.2⟩

theorem visitCall_clean {I : PyInfo} {f : Ast} {s : Lint} :
    Lint.Same s (visitCall I f s) ∧ ((visitCall I f s).violations = [] →
      s.violations = [] ∧ ∀ id, f = .name id → I.illegal id = false) := by
  unfold visitCall
  split
  · refine ⟨Lint.flagIf_same _ _ _, fun h => ?_⟩
    rw [Lint.flagIf_nil] at h
    exact ⟨h.1, fun id' h' => by cases h'; exact h.2⟩
  · rename_i hne
    exact ⟨Lint.Same.refl _, fun h => ⟨h, fun id hf => absurd hf (hne id)⟩⟩

theorem genericCheck_clean {k : Kind} {s s' : Lint} (h : genericCheck k (extraReport k s) = .ok s') :
    Lint.Same s s' ∧ (s'.violations = [] → s.violations = [] ∧ k.illegal = false) := by
  unfold genericCheck at h
  split at h
  · cases h
  · cases h
    have h1 : Lint.Same s (extraReport k s) ∧ ((extraReport k s).violations = [] → s.violations = []) := by
      unfold extraReport
      split
      · exact ⟨⟨rfl, rfl, rfl, rfl, rfl⟩, fun h => absurd h (Lint.flag_ne _ _)⟩
      · exact ⟨⟨rfl, rfl, rfl, rfl, rfl⟩, fun h => absurd h (Lint.flag_ne _ _)⟩
      · exact ⟨Lint.Same.refl _, id⟩
    refine ⟨h1.1.trans (Lint.flagIf_same _ _ _), fun h => ?_⟩
    rw [Lint.flagIf_nil] at h
    exact ⟨h1.2 h.1, h.2⟩

theorem orm_spec {cls : Str} : cls ∈ ormClasses ↔ cls ∈ storageClasses := Iff.rfl

/-- The ORM class called, as `ormCall` sees it. -/
theorem ormCall_some {v : Ast} {cls : Str} (h : ormCall v = .ok (some cls)) :
    ∃ as ks, v = .call (.name cls) as ks ∧ cls ∈ ormClasses := by
  unfold ormCall at h
  split at h
  · rename_i f as ks
    split at h
    · cases h
    · cases hf : f.id? with
      | none => rw [hf] at h; cases h
      | some id =>
        rw [hf] at h
        simp only [Except.ok.injEq] at h
        split at h
        · rename_i hc
          cases h
          refine ⟨as, ks, ?_, by simpa using hc⟩
          cases f <;> first | (cases hf; done) | skip
          cases hf; rfl
        · cases h
  · cases h

theorem ormCall_of {cls : Str} {as ks : List Ast} (h : cls ∈ ormClasses) : ormCall (.call (.name cls) as ks) = .ok (some cls) := by
  simp [ormCall, Ast.isAttribute, Ast.id?, h]

/-- What a clean assignment is like. -/
theorem visitAssign_clean {ts : List Ast} {v : Ast} {s s' : Lint} (h : visitAssign ts v s = .ok s') :
    Lint.Grow s s' ∧ s'.oneExport = s.oneExport ∧ s'.constructorVisited = s.constructorVisited ∧
    (s'.violations = [] → ∀ cls as ks, v = .call (.name cls) as ks → cls ∈ ormClasses →
      (∀ x tl, ts = .name x :: tl → x ∈ s'.ormNames) ∧ (∀ t ∈ ts, t.isTuple = false) ∧
      (cls ∈ ownClasses → ∀ k ∈ ks, k.kwName? ≠ some (py! "contract") ∧ k.kwName? ≠ some (py! "name"))) := by
  unfold visitAssign at h
  simp only at h
  have h0 := Lint.flagIf_same s ((v.id?.map ownClasses.contains).getD false) 13
  have h0c : (s.flagIf ((v.id?.map ownClasses.contains).getD false) 13).violations = [] → s.violations = [] :=
    fun h => ((Lint.flagIf_nil _ _ _).1 h).1
  generalize s.flagIf ((v.id?.map ownClasses.contains).getD false) 13 = s1 at h h0 h0c
  cases ho : ormCall v with
  | error e => rw [ho] at h; cases h
  | ok o =>
    rw [ho] at h
    cases o with
    | none =>
      cases h
      refine ⟨h0.grow h0c, h0.oneExport, h0.ctor, fun _ cls as ks hv hc => ?_⟩
      rw [hv, ormCall_of hc] at ho
      cases ho
    | some cls =>
      simp only [Except.ok.injEq] at h
      generalize hb : (ownClasses.contains cls && ((v.keywords.map Ast.kwName?).contains (some (py! "contract")) ||
        (v.keywords.map Ast.kwName?).contains (some (py! "name")))) = b at h
      have h1 := Lint.flagIf_same s1 b 10
      have h2 := Lint.flagIf_same (s1.flagIf b 10) (ts.any Ast.isTuple) 11
      have hcl : ((s1.flagIf b 10).flagIf (ts.any Ast.isTuple) 11).violations = [] →
          s1.violations = [] ∧ b = false ∧ ts.any Ast.isTuple = false := by
        intro h
        rw [Lint.flagIf_nil, Lint.flagIf_nil] at h
        exact ⟨h.1.1, h.1.2, h.2⟩
      generalize (s1.flagIf b 10).flagIf (ts.any Ast.isTuple) 11 = s2 at h h2 hcl
      have hs2 := (h0.trans h1).trans h2
      have hv : s'.violations = s2.violations ∧ s'.oneExport = s2.oneExport ∧ s'.constructorVisited = s2.constructorVisited ∧
          (∀ x ∈ s2.ormNames, x ∈ s'.ormNames) ∧ s'.visitedArgs = s2.visitedArgs ∧ s'.argTypes = s2.argTypes ∧
          (∀ x tl, ts = .name x :: tl → x ∈ s'.ormNames) := by
        subst h
        split
        · rename_i id hh
          refine ⟨rfl, rfl, rfl, fun x hx => by simp [hx], rfl, rfl, fun x tl ht => ?_⟩
          rw [ht] at hh
          simp only [List.head?_cons, Option.some.injEq, Ast.name.injEq] at hh
          simp [hh]
        · rename_i hh
          refine ⟨rfl, rfl, rfl, fun x hx => hx, rfl, rfl, fun x tl ht => ?_⟩
          exact absurd (by rw [ht]; rfl) (hh x)
      obtain ⟨a1, a2, a3, a4, a5, a6, a7⟩ := hv
      refine ⟨⟨fun hc => h0c (hcl (a1 ▸ hc)).1, fun hc => ?_, fun x hx => a4 x (by rw [hs2.orm]; exact hx),
        fun x hx => by rw [a5, hs2.args]; exact hx, fun x hx => by rw [a6, hs2.types]; exact hx⟩, a2.trans hs2.oneExport, a3.trans hs2.ctor, ?_⟩
      · rw [a3, hs2.ctor]; exact hc
      · intro hc cls' as ks hve hcls
        obtain ⟨_, hbf, htf⟩ := hcl (a1 ▸ hc)
        refine ⟨a7, fun t ht => ?_, fun hown k hk => ?_⟩
        · simp only [List.any_eq_false] at htf
          simpa using htf t ht
        · rw [hve, ormCall_of hcls] at ho
          obtain rfl : cls' = cls := by injection ho with ho; injection ho
          rw [hbf, hve] at hb
          have hkm : k.kwName? ∈ (Ast.call (.name cls') as ks).keywords.map Ast.kwName? := List.mem_map.2 ⟨k, hk, rfl⟩
          simp only [Bool.and_eq_false_iff, Bool.or_eq_false_iff] at hb
          rcases hb with hb | ⟨hb1, hb2⟩
          · rw [List.contains_iff_mem.2 hown] at hb; cases hb
          · refine ⟨fun he => ?_, fun he => ?_⟩
            · rw [he] at hkm
              rw [List.contains_iff_mem.2 hkm] at hb1; cases hb1
            · rw [he] at hkm
              rw [List.contains_iff_mem.2 hkm] at hb2; cases hb2

end Verif
