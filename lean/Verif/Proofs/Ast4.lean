import Verif.Proofs.Ast3
/-!
# Accepted trees
-/
namespace Verif
open Spec

/-- What acceptance means. -/
theorem compile_inv {I : PyInfo} {c : Str} {t t' : Ast} (h : t.compile I c = .ok t') :
    ∃ s, pass I t.nodes {} = .ok s ∧ (finalChecks s).violations = [] ∧ t.transform t.names c = .ok t' := by
  unfold Ast.compile Ast.check at h
  rw [Ast.lint_pass] at h
  cases hp : pass I t.nodes {} with
  | error e => rw [hp] at h; cases h
  | ok s =>
    rw [hp] at h
    simp only [Except.map] at h
    cases ht : t.transform t.names c with
    | error e => rw [ht] at h; cases h
    | ok t'' =>
      rw [ht] at h
      simp only at h
      split at h
      · rename_i hv
        cases h
        exact ⟨s, rfl, by simpa using hv, rfl⟩
      · cases h

theorem own_oneExport {I : PyInfo} {n : Ast} {s s' : Lint} (h : n.own I s = .ok s') (hc : s'.violations = []) :
    s'.oneExport = true ↔ (s.oneExport = true ∨ ∃ f, fnOf n = some f ∧ f.Exported) := by
  have no : (∀ f, fnOf n = some f → False) → s'.oneExport = s.oneExport →
      (s'.oneExport = true ↔ (s.oneExport = true ∨ ∃ f, fnOf n = some f ∧ f.Exported)) := by
    intro h1 h2
    rw [h2]
    exact ⟨.inl, fun h => h.elim id fun ⟨f, hf, _⟩ => (h1 f hf).elim⟩
  cases n with
  | name id => cases h; exact no (by intro f hf; cases hf) visitName_clean.1.oneExport
  | «attribute» v a => cases h; exact no (by intro f hf; cases hf) visitAttribute_clean.1.oneExport
  | const c => cases h; exact no (by intro f hf; cases hf) rfl
  | call f as ks => cases h; exact no (by intro f hf; cases hf) visitCall_clean.1.oneExport
  | keyword a v => cases h; exact no (by intro f hf; cases hf) rfl
  | assign ts v => exact no (by intro f hf; cases hf) (visitAssign_clean h).2.1
  | arg x ann => cases h; exact no (by intro f hf; cases hf) rfl
  | functionDef nm as os b ds rs =>
    obtain ⟨_, _, _, _, h5, _⟩ := (visitFunction_clean h).2 hc
    rw [h5]
    constructor
    · rintro (h | h)
      · exact .inl h
      · exact .inr ⟨_, rfl, h⟩
    · rintro (h | ⟨f, hf, h⟩)
      · exact .inl h
      · cases hf; exact .inr h
  | «import» names => cases h; exact no (by intro f hf; cases hf) visitImport_clean.1.oneExport
  | importFrom m names => cases h; exact no (by intro f hf; cases hf) rfl
  | node k ids cs => exact no (by intro f hf; cases hf) (genericCheck_clean h).1.oneExport

theorem pass_oneExport {I : PyInfo} {ns : List Ast} : ∀ {s s' : Lint}, pass I ns s = .ok s' → s'.violations = [] →
    (s'.oneExport = true ↔ (s.oneExport = true ∨ ∃ f ∈ ns.filterMap fnOf, f.Exported)) := by
  induction ns with
  | nil => intro s s' h _; cases h; simp
  | cons n ns ih =>
    intro s s' h hc
    unfold pass at h
    cases hn : n.own I s with
    | error e => rw [hn] at h; cases h
    | ok s1 =>
      rw [hn] at h
      simp only at h
      rw [ih h hc, own_oneExport hn ((pass_grow h).clean hc)]
      constructor
      · rintro ((h | ⟨f, hf, he⟩) | ⟨f, hf, he⟩)
        · exact .inl h
        · exact .inr ⟨f, List.mem_filterMap.2 ⟨n, by simp, hf⟩, he⟩
        · obtain ⟨m, hm, hf⟩ := List.mem_filterMap.1 hf
          exact .inr ⟨f, List.mem_filterMap.2 ⟨m, by simp [hm], hf⟩, he⟩
      · rintro (h | ⟨f, hf, he⟩)
        · exact .inl (.inl h)
        · obtain ⟨m, hm, hfm⟩ := List.mem_filterMap.1 hf
          rcases List.mem_cons.1 hm with rfl | hm
          · exact .inl (.inr ⟨f, hfm, he⟩)
          · exact .inr ⟨f, List.mem_filterMap.2 ⟨m, hm, hfm⟩, he⟩

theorem own_ctor {I : PyInfo} {n : Ast} {s s' : Lint} {f : Fn} (h : n.own I s = .ok s') (hc : s'.violations = [])
    (hf : fnOf n = some f) (hk : f.Constructor) : s.constructorVisited = false ∧ s'.constructorVisited = true := by
  cases n <;> first | (cases hf; done) | skip
  cases hf
  obtain ⟨_, _, _, _, _, h6, _⟩ := (visitFunction_clean h).2 hc
  exact h6 hk

theorem pass_ctor {I : PyInfo} {ns : List Ast} : ∀ {s s' : Lint}, pass I ns s = .ok s' → s'.violations = [] →
    (ns.filterMap fnOf).Pairwise (fun f g => ¬ (f.Constructor ∧ g.Constructor)) ∧
    (s.constructorVisited = true → ∀ f ∈ ns.filterMap fnOf, ¬ f.Constructor) := by
  induction ns with
  | nil => intro s s' _ _; exact ⟨List.Pairwise.nil, by simp⟩
  | cons n ns ih =>
    intro s s' h hc
    unfold pass at h
    cases hn : n.own I s with
    | error e => rw [hn] at h; cases h
    | ok s1 =>
      rw [hn] at h
      simp only at h
      obtain ⟨h1, h2⟩ := ih h hc
      have hc1 := (pass_grow h).clean hc
      cases hf : fnOf n with
      | none =>
        rw [List.filterMap_cons, hf]
        exact ⟨h1, fun hv => h2 ((own_grow hn).ctor hv)⟩
      | some f =>
        rw [List.filterMap_cons, hf]
        refine ⟨List.pairwise_cons.2 ⟨fun g hg hfg => ?_, h1⟩, fun hv g hg hk => ?_⟩
        · exact h2 (own_ctor hn hc1 hf hfg.1).2 g hg hfg.2
        · rcases List.mem_cons.1 hg with rfl | hg
          · rw [(own_ctor hn hc1 hf hk).1] at hv; cases hv
          · exact h2 ((own_grow hn).ctor hv) g hg hk

/-- The checks an accepted tree has passed, node by node. -/
theorem compile_node {I : PyInfo} {c : Str} {t t' : Ast} (h : t.compile I c = .ok t') :
    ∃ s, pass I t.nodes {} = .ok s ∧ s.violations = [] ∧ (∀ x ∈ s.visitedArgs, x ∉ s.ormNames) ∧ s.oneExport = true ∧
      (∀ t ∈ s.argTypes, ∃ a, t = some a ∧ a ∈ annotationTypes) ∧ t.transform t.names c = .ok t' ∧
      ∀ n ∈ t.nodes, ∃ s1 s2, n.own I s1 = .ok s2 ∧ Lint.Grow s2 s ∧ s2.violations = [] := by
  obtain ⟨s, h1, h2, h3⟩ := compile_inv h
  obtain ⟨k1, k2, k3, k4⟩ := finalChecks_clean h2
  refine ⟨s, h1, k1, k2, k3, k4, h3, fun n hn => ?_⟩
  obtain ⟨s1, s2, g1, g2⟩ := pass_mem hn h1
  exact ⟨s1, s2, g1, g2, g2.clean k1⟩

theorem compile_fn {I : PyInfo} {c : Str} {t t' : Ast} (h : t.compile I c = .ok t') :
    ∀ nm as os b ds rs, Ast.functionDef nm as os b ds rs ∈ t.nodes → Spec.AllowedDecorators ds := by
  intro nm as os b ds rs hn
  obtain ⟨s, _, _, _, _, _, _, h8⟩ := compile_node h
  obtain ⟨s1, s2, g1, _, g3⟩ := h8 _ hn
  exact ((visitFunction_clean g1).2 g3).2.2.1

/-! ## The transformation, node by node -/

/-- Function definitions and assignments. -/
def Ast.key : Ast → Bool
  | .functionDef _ _ _ _ _ _ => true
  | .assign _ _ => true
  | _ => false

theorem Except.map_ok {ε α β : Type} {f : α → β} {x : Except ε α} {b : β} (h : x.map f = .ok b) : ∃ a, x = .ok a ∧ b = f a := by
  cases x with
  | error e => cases h
  | ok a => cases h; exact ⟨a, rfl, rfl⟩

end Verif
