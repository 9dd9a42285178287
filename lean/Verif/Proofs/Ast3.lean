import Verif.Proofs.Ast2
/-!
# Function definitions, and the whole pass
-/
namespace Verif
open Spec

theorem Lint.Grow.after {a b c : Lint} (h' : Lint.Grow b c) (h : Lint.Grow a b) : Lint.Grow a c := h.trans h'

theorem visitImport_clean {I : PyInfo} {names : List (Str × Option Str)} {s : Lint} :
    Lint.Same s (visitImport I names s) ∧ ((visitImport I names s).violations = [] →
      s.violations = [] ∧ ∀ n ∈ names, I.modules n.1 = false) :=
  foldl_flagIf (fun n : Str × Option Str => I.modules n.1) 13 names s

theorem id?_some {t : Ast} {x : Str} (h : t.id? = some x) : t = .name x := by
  cases t <;> first | (cases h; done) | skip
  cases h; rfl

theorem visitDecorators_grow {ds : List Ast} : ∀ {s s' : Lint} {e e' : Bool},
    visitDecorators s e ds = .ok (s', e') → Lint.Grow s s' := by
  induction ds with
  | nil => intro s s' e e' h; cases h; exact Lint.Grow.refl _
  | cons d ds ih =>
    intro s s' e e' h
    unfold visitDecorators at h
    cases hd : d.id? with
    | none => rw [hd] at h; cases h
    | some id =>
      rw [hd] at h
      simp only at h
      refine Lint.Grow.trans ?_ (ih h)
      have g0 := (Lint.flagIf_same s (id ≠ py! "export" && id ≠ py! "construct") 7).grow (fun h => ((Lint.flagIf_nil _ _ _).1 h).1)
      generalize s.flagIf (id ≠ py! "export" && id ≠ py! "construct") 7 = s1 at g0
      refine g0.trans ?_
      have g1 : Lint.Grow s1 (if id = py! "export" then { s1 with oneExport := true } else s1) := by
        split
        · exact ⟨fun h => h, fun h => h, fun _ h => h, fun _ h => h, fun _ h => h⟩
        · exact Lint.Grow.refl _
      generalize (if id = py! "export" then { s1 with oneExport := true } else s1) = s2 at g1
      refine g1.trans ?_
      split
      · have g2 := Lint.flagIf_same s2 s2.constructorVisited 8
        exact ⟨fun h => ((Lint.flagIf_nil _ _ _).1 h).1, fun _ => rfl, fun x hx => by
          show x ∈ (s2.flagIf _ _).ormNames; rw [g2.orm]; exact hx, fun x hx => by
          show x ∈ (s2.flagIf _ _).visitedArgs; rw [g2.args]; exact hx, fun x hx => by
          show x ∈ (s2.flagIf _ _).argTypes; rw [g2.types]; exact hx⟩
      · exact Lint.Grow.refl _

/-- A single decorator. -/
theorem visitDecorators_clean {ds : List Ast} {s s' : Lint} {e' : Bool}
    (h : visitDecorators s false ds = .ok (s', e')) (hl : ds.length ≤ 1) (hc : s'.violations = []) :
    (ds = [] ∧ s' = s ∧ e' = false) ∨
    (ds = [.name (py! "export")] ∧ s' = { s with oneExport := true } ∧ e' = true) ∨
    (ds = [.name (py! "construct")] ∧ s.constructorVisited = false ∧ s' = { s with constructorVisited := true } ∧ e' = false) := by
  match ds, hl with
  | [], _ => cases h; exact .inl ⟨rfl, rfl, rfl⟩
  | [d], _ =>
    right
    unfold visitDecorators at h
    cases hd : d.id? with
    | none => rw [hd] at h; cases h
    | some id =>
      rw [hd] at h
      have hdn := id?_some hd
      subst hdn
      simp only [visitDecorators, Except.ok.injEq, Prod.mk.injEq] at h
      obtain ⟨h1, h2⟩ := h
      by_cases he : id = py! "export"
      · subst he
        left
        refine ⟨rfl, ?_, ?_⟩
        · rw [← h1]; rfl
        · rw [← h2]; rfl
      · by_cases hk : id = py! "construct"
        · subst hk
          right
          have h3 : { s.flagIf s.constructorVisited 8 with constructorVisited := true } = s' := by rw [← h1]; rfl
          rw [← h3] at hc
          obtain ⟨_, h5⟩ := (Lint.flagIf_nil _ _ _).1 hc
          refine ⟨rfl, h5, ?_, ?_⟩
          · rw [← h3, h5]; rfl
          · rw [← h2]; rfl
        · rw [if_neg he, if_neg hk] at h1
          subst h1
          obtain ⟨_, h5⟩ := (Lint.flagIf_nil _ _ _).1 hc
          simp [he, hk] at h5
  | _ :: _ :: _, hl => simp at hl

/-- The names and annotations recorded. -/
theorem visitArgs_clean {ex : Bool} {as : List Ast} : ∀ {s s' : Lint}, visitArgs ex s as = .ok s' →
    Lint.Grow s s' ∧ s'.violations = s.violations ∧ s'.oneExport = s.oneExport ∧ s'.constructorVisited = s.constructorVisited ∧
    s'.ormNames = s.ormNames ∧
    (∀ x ann, Ast.arg x ann ∈ as → x ∈ s'.visitedArgs) ∧
    (ex = true → ∀ x ann, Ast.arg x ann ∈ as → (ann = [] ∧ none ∈ s'.argTypes) ∨
      ∃ a tl t, ann = a :: tl ∧ annotationText a = .ok t ∧ some t ∈ s'.argTypes) := by
  induction as with
  | nil => intro s s' h; cases h; exact ⟨Lint.Grow.refl _, rfl, rfl, rfl, rfl, by simp, by simp⟩
  | cons a as ih =>
    intro s s' h
    by_cases ha : ∃ x ann, a = .arg x ann
    · obtain ⟨x, ann, rfl⟩ := ha
      unfold visitArgs at h
      simp only at h
      cases ex with
      | false =>
        simp only [Bool.false_eq_true, if_false] at h
        obtain ⟨g, h0, h1, h2, h3, h4, h5⟩ := ih h
        refine ⟨g.after ⟨id, id, fun _ => id, fun y hy => by simp [hy], fun _ => id⟩, h0, h1, h2, h3, ?_, by simp⟩
        intro y ann' hy
        rcases List.mem_cons.1 hy with he | hy
        · cases he; exact g.args _ (by simp)
        · exact h4 y ann' hy
      | true =>
        simp only [if_true] at h
        cases ann with
        | nil =>
          simp only at h
          obtain ⟨g, h0, h1, h2, h3, h4, h5⟩ := ih h
          refine ⟨g.after ⟨id, id, fun _ => id, fun y hy => by simp [hy], fun y hy => by simp [hy]⟩, h0, h1, h2, h3, ?_, ?_⟩
          · intro y ann' hy
            rcases List.mem_cons.1 hy with he | hy
            · cases he; exact g.args _ (by simp)
            · exact h4 y ann' hy
          · intro _ y ann' hy
            rcases List.mem_cons.1 hy with he | hy
            · cases he; exact .inl ⟨rfl, g.types _ (by simp)⟩
            · exact h5 rfl y ann' hy
        | cons a tl =>
          simp only at h
          cases ht : annotationText a with
          | error e => rw [ht] at h; cases h
          | ok t =>
            rw [ht] at h
            obtain ⟨g, h0, h1, h2, h3, h4, h5⟩ := ih h
            refine ⟨g.after ⟨id, id, fun _ => id, fun y hy => by simp [hy], fun y hy => by simp [hy]⟩, h0, h1, h2, h3, ?_, ?_⟩
            · intro y ann' hy
              rcases List.mem_cons.1 hy with he | hy
              · cases he; exact g.args _ (by simp)
              · exact h4 y ann' hy
            · intro _ y ann' hy
              rcases List.mem_cons.1 hy with he | hy
              · cases he; exact .inr ⟨a, tl, t, rfl, ht, g.types _ (by simp)⟩
              · exact h5 rfl y ann' hy
    · have h' : visitArgs ex s as = .ok s' := by
        cases a <;> first | exact h | exact absurd ⟨_, _, rfl⟩ ha
      obtain ⟨g, h0, h1, h2, h3, h4, h5⟩ := ih h'
      refine ⟨g, h0, h1, h2, h3, ?_, ?_⟩
      · intro y ann' hy
        rcases List.mem_cons.1 hy with he | hy
        · exact absurd ⟨_, _, he.symm⟩ ha
        · exact h4 y ann' hy
      · intro hx y ann' hy
        rcases List.mem_cons.1 hy with he | hy
        · exact absurd ⟨_, _, he.symm⟩ ha
        · exact h5 hx y ann' hy

theorem visitReturns_clean {as rs : List Ast} {s s' : Lint} (h : visitReturns as rs s = .ok s') :
    Lint.Grow s s' ∧ s'.violations = s.violations ∧ s'.oneExport = s.oneExport ∧ s'.constructorVisited = s.constructorVisited ∧
    s'.ormNames = s.ormNames ∧ (rs ≠ [] → ∃ x a tl, as.getLast? = some (.arg x (a :: tl))) := by
  unfold visitReturns at h
  cases rs with
  | nil => cases h; exact ⟨Lint.Grow.refl _, rfl, rfl, rfl, rfl, by simp⟩
  | cons r rs =>
    simp only at h
    split at h
    · rename_i x a tl hl
      cases ht : annotationText a with
      | error e => rw [ht] at h; cases h
      | ok t =>
        rw [ht] at h; cases h
        exact ⟨⟨id, id, fun _ => id, fun _ => id, fun y hy => by simp [hy]⟩, rfl, rfl, rfl, rfl, fun _ => ⟨x, a, tl, hl⟩⟩
    · cases h
    · cases h

/-- A clean function definition. -/
theorem visitFunction_clean {as b ds rs : List Ast} {s s' : Lint} (h : visitFunction as b ds rs s = .ok s') :
    Lint.Grow s s' ∧ (s'.violations = [] →
      (∀ n ∈ b, n.isImport = false) ∧ (∀ n ∈ b, n.isFunction = false) ∧ Spec.AllowedDecorators ds ∧
      (∀ x ann, Ast.arg x ann ∈ as → x ∈ s'.visitedArgs) ∧
      (s'.oneExport = true ↔ (s.oneExport = true ∨ ds = [.name (py! "export")])) ∧
      (ds = [.name (py! "construct")] → s.constructorVisited = false ∧ s'.constructorVisited = true) ∧
      (ds = [.name (py! "export")] → ∀ x ann, Ast.arg x ann ∈ as → (ann = [] ∧ none ∈ s'.argTypes) ∨
        ∃ a tl t, ann = a :: tl ∧ annotationText a = .ok t ∧ some t ∈ s'.argTypes) ∧
      (ds = [.name (py! "export")] → rs ≠ [] → ∃ x a tl, as.getLast? = some (.arg x (a :: tl)))) := by
  unfold visitFunction at h
  simp only at h
  obtain ⟨s1, hs1⟩ : ∃ s1, s1 = (b.filter Ast.isImport).foldl (fun s _ => s.flag 2) s := ⟨_, rfl⟩
  have h1 := foldl_flag 2 (b.filter Ast.isImport) s
  rw [← hs1] at h h1
  obtain ⟨s2, hs2⟩ : ∃ s2, s2 = (b.filter Ast.isFunction).foldl (fun s _ => s.flag 18) s1 := ⟨_, rfl⟩
  have h2 := foldl_flag 18 (b.filter Ast.isFunction) s1
  rw [← hs2] at h h2
  have h3 := Lint.flagIf_same s2 (decide (ds.length > 1)) 9
  have h3c := Lint.flagIf_nil s2 (decide (ds.length > 1)) 9
  generalize s2.flagIf (decide (ds.length > 1)) 9 = s3 at h h3 h3c
  have g3 : Lint.Grow s s3 := ((h1.1.trans h2.1).trans h3).grow (fun h => (h1.2 (h2.2 (h3c.1 h).1).1).1)
  have same3 := (h1.1.trans h2.1).trans h3
  cases hd : visitDecorators s3 false ds with
  | error e => rw [hd] at h; cases h
  | ok p =>
    obtain ⟨s4, ex⟩ := p
    rw [hd] at h
    simp only at h
    have g4 := visitDecorators_grow hd
    cases ha : visitArgs ex s4 as with
    | error e => rw [ha] at h; cases h
    | ok s5 =>
      rw [ha] at h
      simp only at h
      obtain ⟨g5, a0, a1, a2, a3, a4, a5⟩ := visitArgs_clean ha
      have h6 : Lint.Grow s5 s' ∧ s'.violations = s5.violations ∧ s'.oneExport = s5.oneExport ∧
          s'.constructorVisited = s5.constructorVisited ∧ s'.ormNames = s5.ormNames ∧
          (ex = true → rs ≠ [] → ∃ x a tl, as.getLast? = some (.arg x (a :: tl))) := by
        cases ex with
        | false => cases h; exact ⟨Lint.Grow.refl _, rfl, rfl, rfl, rfl, by simp⟩
        | true =>
          obtain ⟨g, b0, b1, b2, b3, b4⟩ := visitReturns_clean h
          exact ⟨g, b0, b1, b2, b3, fun _ => b4⟩
      obtain ⟨g6, b0, b1, b2, b3, b4⟩ := h6
      refine ⟨((g3.trans g4).trans g5).trans g6, fun hc => ?_⟩
      have hc5 : s5.violations = [] := by rw [← b0]; exact hc
      have hc4 : s4.violations = [] := by rw [← a0]; exact hc5
      have hc3 := g4.clean hc4
      obtain ⟨hc2, hlen⟩ := h3c.1 hc3
      obtain ⟨hc1, hf⟩ := h2.2 hc2
      obtain ⟨hc0, hi⟩ := h1.2 hc1
      have hl : ds.length ≤ 1 := by simp at hlen; exact hlen
      have hex := visitDecorators_clean hd hl hc4
      have hne : (py! "export" : Str) ≠ py! "construct" := by decide
      refine ⟨fun n hn => ?_, fun n hn => ?_, ?_, fun x ann hx => g6.args _ (a4 x ann hx), ?_, ?_, ?_, ?_⟩
      · cases hb : n.isImport with
        | false => rfl
        | true => have := List.mem_filter.2 ⟨hn, hb⟩; rw [hi] at this; simp at this
      · cases hb : n.isFunction with
        | false => rfl
        | true => have := List.mem_filter.2 ⟨hn, hb⟩; rw [hf] at this; simp at this
      · rcases hex with ⟨e, _⟩ | ⟨e, _⟩ | ⟨e, _⟩
        · exact .inl e
        · exact .inr (.inl e)
        · exact .inr (.inr e)
      · rw [b1, a1, ← same3.oneExport]
        rcases hex with ⟨e, e', _⟩ | ⟨e, e', _⟩ | ⟨e, _, e', _⟩
        · rw [e', e]; simp
        · rw [e', e]; simp
        · rw [e', e]; simp [hne.symm]
      · intro hk
        rw [b2, a2, ← same3.ctor]
        rcases hex with ⟨e, e', _⟩ | ⟨e, e', _⟩ | ⟨e, ec, e', _⟩
        · rw [e] at hk; cases hk
        · rw [e] at hk; simp at hk
        · exact ⟨ec, by rw [e']⟩
      · intro hk x ann hx
        have : ex = true := by
          rcases hex with ⟨e, e', _⟩ | ⟨e, e', h⟩ | ⟨e, _, e', _⟩
          · rw [e] at hk; cases hk
          · exact h
          · rw [e] at hk; simp at hk
        rcases a5 this x ann hx with ⟨e1, e2⟩ | ⟨a, tl, t, e1, e2, e3⟩
        · exact .inl ⟨e1, g6.types _ e2⟩
        · exact .inr ⟨a, tl, t, e1, e2, g6.types _ e3⟩
      · intro hk
        refine b4 ?_
        rcases hex with ⟨e, e', _⟩ | ⟨e, e', h⟩ | ⟨e, _, e', _⟩
        · rw [e] at hk; cases hk
        · exact h
        · rw [e] at hk; simp at hk

theorem own_grow {I : PyInfo} {n : Ast} {s s' : Lint} (h : n.own I s = .ok s') : Lint.Grow s s' := by
  cases n with
  | name id => cases h; exact visitName_clean.1.grow (fun h => (visitName_clean.2 h).1)
  | «attribute» v a => cases h; exact visitAttribute_clean.1.grow (fun h => (visitAttribute_clean.2 h).1)
  | const c => cases h; exact Lint.Grow.refl _
  | call f as ks => cases h; exact visitCall_clean.1.grow (fun h => (visitCall_clean.2 h).1)
  | keyword a v => cases h; exact Lint.Grow.refl _
  | assign ts v => exact (visitAssign_clean h).1
  | arg x ann => cases h; exact Lint.Grow.refl _
  | functionDef nm as os b ds rs => exact (visitFunction_clean h).1
  | «import» names => cases h; exact visitImport_clean.1.grow (fun h => (visitImport_clean.2 h).1)
  | importFrom m names => cases h; exact ⟨fun h => absurd h (Lint.flag_ne _ _), id, fun _ => id, fun _ => id, fun _ => id⟩
  | node k ids cs => exact (genericCheck_clean h).1.grow (fun hc => ((genericCheck_clean h).2 hc).1)

theorem pass_grow {I : PyInfo} {ns : List Ast} : ∀ {s s' : Lint}, pass I ns s = .ok s' → Lint.Grow s s' := by
  induction ns with
  | nil => intro s s' h; cases h; exact Lint.Grow.refl _
  | cons n ns ih =>
    intro s s' h
    unfold pass at h
    cases hn : n.own I s with
    | error e => rw [hn] at h; cases h
    | ok s1 => rw [hn] at h; exact (own_grow hn).trans (ih h)

/-- Every node is checked. -/
theorem pass_mem {I : PyInfo} {ns : List Ast} {n : Ast} (hn : n ∈ ns) : ∀ {s s' : Lint}, pass I ns s = .ok s' →
    ∃ s1 s2, n.own I s1 = .ok s2 ∧ Lint.Grow s2 s' := by
  induction ns with
  | nil => simp at hn
  | cons m ns ih =>
    intro s s' h
    unfold pass at h
    cases hm : m.own I s with
    | error e => rw [hm] at h; cases h
    | ok s1 =>
      rw [hm] at h
      rcases List.mem_cons.1 hn with rfl | hn
      · exact ⟨s, s1, hm, pass_grow h⟩
      · exact ih hn h

/-- What the final checks ask for. -/
theorem finalChecks_clean {s : Lint} (h : (finalChecks s).violations = []) :
    s.violations = [] ∧ (∀ x ∈ s.visitedArgs, x ∉ s.ormNames) ∧ s.oneExport = true ∧
    (∀ t ∈ s.argTypes, ∃ a, t = some a ∧ a ∈ annotationTypes) := by
  unfold finalChecks at h
  simp only at h
  have h1 := foldl_flagIf (fun n : Str => s.ormNames.contains n) 14 s.visitedArgs s
  generalize s.visitedArgs.foldl (fun t n => t.flagIf (s.ormNames.contains n) 14) s = s1 at h h1
  have h2 := Lint.flagIf_same s1 (!s1.oneExport) 12
  have h2c := Lint.flagIf_nil s1 (!s1.oneExport) 12
  generalize s1.flagIf (!s1.oneExport) 12 = s2 at h h2 h2c
  have key : ∀ (ts : List (Option Str)) (u : Lint), (ts.foldl (fun t a =>
      match a with
      | none => t.flag 16
      | some a => t.flagIf (!annotationTypes.contains a) 15) u).violations = [] →
      u.violations = [] ∧ ∀ t ∈ ts, ∃ a, t = some a ∧ a ∈ annotationTypes := by
    intro ts
    induction ts with
    | nil => intro u hu; exact ⟨hu, by simp⟩
    | cons t ts ih =>
      intro u hu
      rw [List.foldl_cons] at hu
      obtain ⟨k1, k2⟩ := ih _ hu
      cases t with
      | none => exact absurd k1 (Lint.flag_ne _ _)
      | some a =>
        obtain ⟨k3, k4⟩ := (Lint.flagIf_nil _ _ _).1 k1
        refine ⟨k3, fun t ht => ?_⟩
        rcases List.mem_cons.1 ht with rfl | ht
        · exact ⟨a, rfl, by simpa using k4⟩
        · exact k2 t ht
  obtain ⟨k1, k2⟩ := key _ _ h
  obtain ⟨k3, k4⟩ := h2c.1 k1
  obtain ⟨k5, k6⟩ := h1.2 k3
  refine ⟨k5, fun x hx hm => ?_, ?_, ?_⟩
  · have := k6 x hx
    rw [List.contains_iff_mem.2 hm] at this; cases this
  · rw [h1.1.oneExport] at k4; simpa using k4
  · have := (h1.1.trans h2).types
    rw [this] at k2; exact k2

end Verif
