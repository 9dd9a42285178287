import Verif.Proofs.Ast6
/-!
# A tree that follows the rules is accepted
-/
namespace Verif
open Spec

/-- What visiting a node without finding anything does to the records. -/
structure Step (n : Ast) (s s' : Lint) : Prop where
  clean : s'.violations = []
  exp : (s.oneExport = true ∨ ∃ f, fnOf n = some f ∧ f.Exported) → s'.oneExport = true
  ctor : s'.constructorVisited = true → s.constructorVisited = true ∨ ∃ f, fnOf n = some f ∧ f.Constructor
  orm : ∀ x ∈ s'.ormNames, x ∈ s.ormNames ∨
    ∃ tl cls as ks, n = .assign (.name x :: tl) (.call (.name cls) as ks) ∧ cls ∈ storageClasses
  args : ∀ x ∈ s'.visitedArgs, x ∈ s.visitedArgs ∨ ∃ f ann, fnOf n = some f ∧ Ast.arg x ann ∈ f.args
  types : ∀ a ∈ s'.argTypes, a ∈ s.argTypes ∨ ∃ ty ∈ Spec.argTypes, a = some ty

theorem Step.idle {n : Ast} {s : Lint} (hs : s.violations = []) (hf : fnOf n = none) : Step n s s :=
  ⟨hs, fun h => h.elim id (fun ⟨f, h, _⟩ => by rw [hf] at h; cases h), .inl, fun _ => .inl, fun _ => .inl, fun _ => .inl⟩

theorem not_startsWith {v : Str} (h : Public v) : (startsWith v (py! "_") || endsUnderscore v) = false := by
  rw [Bool.or_eq_false_iff]
  constructor
  · cases v with
    | nil => rfl
    | cons a v =>
      have : '_' ≠ a := fun e => h.1 (by rw [← e]; rfl)
      simp [startsWith, List.isPrefixOf, this]
  · simp [endsUnderscore, h.2]

theorem illegal_false {I : PyInfo} {id : Str} (h : I.builtins id = true → id ∈ safeBuiltins) : I.illegal id = false := by
  unfold PyInfo.illegal
  cases hb : I.builtins id with
  | false => rfl
  | true =>
    have h' : id ∈ allowedBuiltins := h hb
    simp [h']

theorem notInBody_import {n : Ast} (h : ¬ NotInBody n) : n.isImport = false ∧ n.isFunction = false := by
  cases n with
  | functionDef nm as os b ds rs => exact absurd (.fn ..) h
  | «import» names => exact absurd (.imp ..) h
  | importFrom m names => exact absurd (.impFrom ..) h
  | _ => exact ⟨rfl, rfl⟩

theorem visitArgs_step (ex : Bool) : ∀ (as : List Ast) (s : Lint),
    (ex = true → ∀ x ann, Ast.arg x ann ∈ as → ∃ a tl ty, ann = a :: tl ∧ typeText a = some ty ∧ ty ∈ Spec.argTypes) →
    ∃ s', visitArgs ex s as = .ok s' ∧ s'.violations = s.violations ∧ s'.oneExport = s.oneExport ∧
      s'.constructorVisited = s.constructorVisited ∧ s'.ormNames = s.ormNames ∧
      (∀ x ∈ s'.visitedArgs, x ∈ s.visitedArgs ∨ ∃ ann, Ast.arg x ann ∈ as) ∧
      (∀ a ∈ s'.argTypes, a ∈ s.argTypes ∨ ∃ ty ∈ Spec.argTypes, a = some ty) := by
  intro as
  induction as with
  | nil => intro s _; exact ⟨s, rfl, rfl, rfl, rfl, rfl, fun _ => .inl, fun _ => .inl⟩
  | cons a as ih =>
    intro s h
    have htl : ex = true → ∀ x ann, Ast.arg x ann ∈ as → ∃ a tl ty, ann = a :: tl ∧ typeText a = some ty ∧ ty ∈ Spec.argTypes :=
      fun he x ann hx => h he x ann (List.mem_cons_of_mem _ hx)
    by_cases ha : ∃ nm ann, a = .arg nm ann
    · obtain ⟨nm, ann, rfl⟩ := ha
      unfold visitArgs
      cases ex with
      | false =>
        simp only [Bool.false_eq_true, if_false]
        obtain ⟨s', h1, h2, h3, h4, h5, h6, h7⟩ := ih { s with visitedArgs := s.visitedArgs ++ [nm] } htl
        refine ⟨s', h1, h2, h3, h4, h5, fun x hx => ?_, h7⟩
        rcases h6 x hx with h | ⟨ann', h⟩
        · rcases List.mem_append.1 h with h | h
          · exact .inl h
          · obtain rfl := List.mem_singleton.1 h
            exact .inr ⟨ann, List.mem_cons_self⟩
        · exact .inr ⟨ann', List.mem_cons_of_mem _ h⟩
      | true =>
        obtain ⟨a, tl, ty, rfl, ht, hty⟩ := h rfl nm ann List.mem_cons_self
        have ht' := annotationText_iff.2 ht
        simp only [if_true, ht']
        obtain ⟨s', h1, h2, h3, h4, h5, h6, h7⟩ := ih { s with visitedArgs := s.visitedArgs ++ [nm], argTypes := s.argTypes ++ [some ty] } htl
        refine ⟨s', h1, h2, h3, h4, h5, fun x hx => ?_, fun b hb => ?_⟩
        · rcases h6 x hx with h | ⟨ann', h⟩
          · rcases List.mem_append.1 h with h | h
            · exact .inl h
            · obtain rfl := List.mem_singleton.1 h
              exact .inr ⟨_, List.mem_cons_self⟩
          · exact .inr ⟨ann', List.mem_cons_of_mem _ h⟩
        · rcases h7 b hb with h | h
          · rcases List.mem_append.1 h with h | h
            · exact .inl h
            · exact .inr ⟨ty, hty, List.mem_singleton.1 h⟩
          · exact .inr h
    · have e : visitArgs ex s (a :: as) = visitArgs ex s as := by
        cases a <;> first | rfl | exact absurd ⟨_, _, rfl⟩ ha
      rw [e]
      obtain ⟨s', h1, h2, h3, h4, h5, h6, h7⟩ := ih s htl
      exact ⟨s', h1, h2, h3, h4, h5, fun x hx => (h6 x hx).imp_right (fun ⟨ann, h⟩ => ⟨ann, List.mem_cons_of_mem _ h⟩), h7⟩

theorem functions_mem {t : Ast} {nm : Str} {as os b ds rs : List Ast} (h : Ast.functionDef nm as os b ds rs ∈ t.nodes) :
    (⟨nm, as, ds, rs⟩ : Fn) ∈ functions t := List.mem_filterMap.2 ⟨_, h, rfl⟩

theorem functions_node {t : Ast} {f : Fn} (h : f ∈ functions t) :
    ∃ os b, Ast.functionDef f.name f.args os b f.decorators f.returns ∈ t.nodes := by
  obtain ⟨n, hn, hf⟩ := List.mem_filterMap.1 h
  cases n <;> first | (cases hf; done) | skip
  cases hf
  exact ⟨_, _, hn⟩

theorem visitFunction_step {I : PyInfo} {t : Ast} (R : Rules I t) {nm : Str} {as os b ds rs : List Ast}
    (hn : Ast.functionDef nm as os b ds rs ∈ t.nodes) {s : Lint} (hs : s.violations = [])
    (hc : s.constructorVisited = true → ∀ f, fnOf (.functionDef nm as os b ds rs) = some f → ¬ f.Constructor) :
    ∃ s', visitFunction as b ds rs s = .ok s' ∧ Step (.functionDef nm as os b ds rs) s s' := by
  have hf := functions_mem hn
  have hb1 : b.filter Ast.isImport = [] :=
    List.filter_eq_nil_iff.2 (fun n h => by simp [(notInBody_import (R.bodies _ _ _ _ _ _ hn n h)).1])
  have hb2 : b.filter Ast.isFunction = [] :=
    List.filter_eq_nil_iff.2 (fun n h => by simp [(notInBody_import (R.bodies _ _ _ _ _ _ hn n h)).2])
  have fin : ∀ {ex : Bool} {s1 : Lint}, (ex = true ↔ ds = [.name (py! "export")]) →
      s1.violations = [] → (s.oneExport = true ∨ ex = true → s1.oneExport = true) →
      (s1.constructorVisited = true → s.constructorVisited = true ∨ ds = [.name (py! "construct")]) →
      s1.ormNames = s.ormNames → s1.visitedArgs = s.visitedArgs → s1.argTypes = s.argTypes →
      ∃ s', (match visitArgs ex s1 as with
        | .error e => (.error e : Except PyErr Lint)
        | .ok s2 => if ex = true then visitReturns as rs s2 else .ok s2) = .ok s' ∧ Step (.functionDef nm as os b ds rs) s s' := by
    intro ex s1 hex k1 k2 k3 k4 k5 k6
    obtain ⟨s2, h1, h2, h3, h4, h5, h6, h7⟩ := visitArgs_step ex as s1 (fun he => R.types _ hf (hex.1 he))
    have st : Step (.functionDef nm as os b ds rs) s s2 := by
      refine ⟨h2.trans k1, fun h => ?_, fun h => ?_, fun x hx => ?_, fun x hx => ?_, fun a ha => ?_⟩
      · rw [h3]
        refine k2 (h.imp_right ?_)
        rintro ⟨f, hf, he⟩
        cases hf
        exact hex.2 he
      · rw [h4] at h
        exact (k3 h).imp_right (fun h => ⟨_, rfl, h⟩)
      · rw [h5, k4] at hx; exact .inl hx
      · rcases h6 x hx with h | ⟨ann, h⟩
        · rw [k5] at h; exact .inl h
        · exact .inr ⟨_, ann, rfl, h⟩
      · rw [← k6]; exact h7 a ha
    rw [h1]
    cases ex with
    | false => exact ⟨s2, rfl, st⟩
    | true =>
      simp only [if_true]
      have he : (⟨nm, as, ds, rs⟩ : Fn).Exported := hex.1 rfl
      cases rs with
      | nil => exact ⟨s2, rfl, st⟩
      | cons r rs =>
        obtain ⟨x, ann, hl⟩ := R.returns _ hf he (by simp)
        have hl : as.getLast? = some (.arg x ann) := hl
        have hm : Ast.arg x ann ∈ as := List.mem_of_getLast? hl
        obtain ⟨a, tl, ty, rfl, ht, hty⟩ := R.types _ hf he x ann hm
        refine ⟨{ s2 with argTypes := s2.argTypes ++ [some ty] }, ?_, ⟨st.clean, st.exp, st.ctor, st.orm, st.args, fun b hb => ?_⟩⟩
        · unfold visitReturns
          simp only [hl, annotationText_iff.2 ht]
          rfl
        · rcases List.mem_append.1 hb with hb | hb
          · exact st.types b hb
          · exact .inr ⟨ty, hty, List.mem_singleton.1 hb⟩
  unfold visitFunction
  rw [hb1, hb2]
  simp only [List.foldl_nil]
  rcases R.decorators _ hf with hd | hd | hd
  · have hd : ds = [] := hd
    subst hd
    exact fin (ex := false) (s1 := s) (by simp) hs (by simp) .inl rfl rfl rfl
  · have hd : ds = [.name (py! "export")] := hd
    subst hd
    exact fin (ex := true) (s1 := { s with oneExport := true }) (by simp) hs (by simp) .inl rfl rfl rfl
  · have hd : ds = [.name (py! "construct")] := hd
    have hcv : s.constructorVisited = false := by
      cases h : s.constructorVisited with
      | false => rfl
      | true => exact absurd hd (hc h _ rfl)
    subst hd
    have e : visitDecorators (s.flagIf (decide ([Ast.name (py! "construct")].length > 1)) 9) false [.name (py! "construct")] =
        .ok ({ s.flagIf s.constructorVisited 8 with constructorVisited := true }, false) := rfl
    rw [e, hcv]
    exact fin (ex := false) (s1 := { s with constructorVisited := true }) (by simp) hs (by simp) (fun _ => .inr rfl) rfl rfl rfl

theorem foldl_flagIf_false {α : Type} (p : α → Bool) (n : Nat) (xs : List α) (h : ∀ x ∈ xs, p x = false) (s : Lint) :
    xs.foldl (fun s x => s.flagIf (p x) n) s = s := by
  induction xs generalizing s with
  | nil => rfl
  | cons x xs ih =>
    rw [List.foldl_cons, h x List.mem_cons_self]
    exact ih (fun y hy => h y (List.mem_cons_of_mem _ hy)) s

theorem visitAssign_step {I : PyInfo} {t : Ast} (R : Rules I t) {ts : List Ast} {v : Ast}
    (hn : Ast.assign ts v ∈ t.nodes) {s : Lint} (hs : s.violations = []) :
    ∃ s', visitAssign ts v s = .ok s' ∧ Step (.assign ts v) s s' := by
  have hal : (v.id?.map ownClasses.contains).getD false = false := by
    cases v <;> first | rfl | skip
    rename_i x
    have := R.aliases ts x hn
    show ownClasses.contains x = false
    have h' : x ∉ ownClasses := this
    simpa using h'
  unfold visitAssign
  rw [hal]
  dsimp only [Lint.flagIf]
  by_cases hcall : ∃ f as ks, v = .call f as ks
  · obtain ⟨f, as, ks, rfl⟩ := hcall
    rcases R.callees ts f as ks hn with ⟨id, rfl⟩ | ⟨w, a, rfl⟩
    · by_cases hid : id ∈ storageClasses
      · rw [ormCall_of (orm_spec.2 hid)]
        obtain ⟨⟨x, tl, rfl⟩, htup, hkw⟩ := R.storage ts id as ks hn hid
        have h1 : (ownClasses.contains id && (((Ast.call (.name id) as ks).keywords.map Ast.kwName?).contains (some (py! "contract")) ||
            ((Ast.call (.name id) as ks).keywords.map Ast.kwName?).contains (some (py! "name")))) = false := by
          rw [Bool.and_eq_false_iff]
          by_cases ho : id ∈ ownClasses
          · right
            have hk := hkw ho
            have key : ∀ y, (∀ v, Ast.keyword (some y) v ∉ ks) → (ks.map Ast.kwName?).contains (some y) = false := by
              intro y hy
              rw [Bool.eq_false_iff]
              intro h
              rw [List.contains_iff_mem] at h
              obtain ⟨k, hk, hky⟩ := List.mem_map.1 h
              cases k <;> first | (cases hky; done) | skip
              cases hky
              exact hy _ hk
            rw [Bool.or_eq_false_iff]
            exact ⟨key _ (fun v => (hk v).1), key _ (fun v => (hk v).2)⟩
          · left; simpa using ho
        have h2 : (Ast.name x :: tl).any Ast.isTuple = false := by
          rw [List.any_eq_false]
          intro a ha
          cases a <;> first | simp [Ast.isTuple]; done | skip
          rename_i k ids cs
          cases k <;> first | simp [Ast.isTuple]; done | skip
          exact absurd ha (htup ids cs)
        refine ⟨{ s with ormNames := s.ormNames ++ [x] }, ?_, ⟨hs, ?_, .inl, fun y hy => ?_, fun _ => .inl, fun _ => .inl⟩⟩
        · dsimp only
          rw [h1, h2]
          rfl
        · rintro (h | ⟨f, h, _⟩)
          · exact h
          · cases h
        · rcases List.mem_append.1 hy with hy | hy
          · exact .inl hy
          · obtain rfl := List.mem_singleton.1 hy
            exact .inr ⟨_, _, _, _, rfl, hid⟩
      · have : ormCall (.call (.name id) as ks) = .ok none := by
          have h' : id ∉ ormClasses := hid
          simp [ormCall, Ast.isAttribute, Ast.id?, h']
        rw [this]
        exact ⟨s, rfl, .idle hs rfl⟩
    · exact ⟨s, rfl, .idle hs rfl⟩
  · have : ormCall v = .ok none := by
      cases v <;> first | rfl | exact absurd ⟨_, _, _, rfl⟩ hcall
    rw [this]
    exact ⟨s, rfl, .idle hs rfl⟩

theorem own_step {I : PyInfo} {t : Ast} (R : Rules I t) {n : Ast} (hn : n ∈ t.nodes) {s : Lint} (hs : s.violations = [])
    (hc : s.constructorVisited = true → ∀ f, fnOf n = some f → ¬ f.Constructor) :
    ∃ s', n.own I s = .ok s' ∧ Step n s s' := by
  cases n with
  | name id =>
    obtain ⟨h1, h2, h3⟩ := R.names id hn
    refine ⟨s, ?_, .idle hs rfl⟩
    show Except.ok (visitName I id s) = _
    have hi : (I.illegal id && decide (id ≠ py! "float")) = false := by
      by_cases hf : id = py! "float"
      · simp [hf]
      · rw [illegal_false (fun hb => (h3 hb).resolve_right hf)]; rfl
    unfold visitName notSystemVariable
    rw [not_startsWith h1, hi]
    simp [Lint.flagIf, h2]
  | «attribute» v a =>
    obtain ⟨h1, h2⟩ := R.attributes v a hn
    refine ⟨s, ?_, .idle hs rfl⟩
    show Except.ok (visitAttribute a s) = _
    unfold visitAttribute notSystemVariable
    rw [not_startsWith h1]
    simp [Lint.flagIf, h2]
  | const c => exact ⟨s, rfl, .idle hs rfl⟩
  | call f as ks =>
    refine ⟨s, ?_, .idle hs rfl⟩
    show Except.ok (visitCall I f s) = _
    unfold visitCall
    split
    · rename_i id
      rw [illegal_false (R.calls id as ks hn)]; rfl
    · rfl
  | keyword a v => exact ⟨s, rfl, .idle hs rfl⟩
  | assign ts v => exact visitAssign_step R hn hs
  | arg x ann => exact ⟨s, rfl, .idle hs rfl⟩
  | functionDef nm as os b ds rs => exact visitFunction_step R hn hs hc
  | «import» names =>
    refine ⟨s, ?_, .idle hs rfl⟩
    show Except.ok (visitImport I names s) = _
    rw [visitImport, foldl_flagIf_false (fun n : Str × Option Str => I.modules n.1) 13 names (R.imports names hn)]
  | importFrom m names => exact absurd hn (R.noImportFrom m names)
  | node k ids cs =>
    refine ⟨s, ?_, .idle hs rfl⟩
    have := R.kinds k ids cs hn
    cases k <;> first | rfl | exact absurd (by simp) this

theorem pass_step {I : PyInfo} {t : Ast} (R : Rules I t) : ∀ (ns : List Ast) {s : Lint}, (∀ n ∈ ns, n ∈ t.nodes) → s.violations = [] →
    (ns.filterMap fnOf).Pairwise (fun f g => ¬ (f.Constructor ∧ g.Constructor)) →
    (s.constructorVisited = true → ∀ f ∈ ns.filterMap fnOf, ¬ f.Constructor) →
    ∃ s', pass I ns s = .ok s' ∧ s'.violations = [] ∧
      ((s.oneExport = true ∨ ∃ f ∈ ns.filterMap fnOf, f.Exported) → s'.oneExport = true) ∧
      (∀ x ∈ s'.ormNames, x ∈ s.ormNames ∨ ∃ tl cls as ks, Ast.assign (.name x :: tl) (.call (.name cls) as ks) ∈ ns ∧ cls ∈ storageClasses) ∧
      (∀ x ∈ s'.visitedArgs, x ∈ s.visitedArgs ∨ ∃ f ∈ ns.filterMap fnOf, ∃ ann, Ast.arg x ann ∈ f.args) ∧
      (∀ a ∈ s'.argTypes, a ∈ s.argTypes ∨ ∃ ty ∈ Spec.argTypes, a = some ty) := by
  intro ns
  induction ns with
  | nil =>
    intro s _ hs _ _
    exact ⟨s, rfl, hs, fun h => h.elim id (by rintro ⟨f, h, _⟩; cases h), fun _ => .inl, fun _ => .inl, fun _ => .inl⟩
  | cons n ns ih =>
    intro s hin hs hp hc
    obtain ⟨s1, h1, st⟩ := own_step R (hin n List.mem_cons_self) hs
      (fun hv f hf => hc hv f (by rw [List.filterMap_cons_some hf]; exact List.mem_cons_self))
    have hp' : (ns.filterMap fnOf).Pairwise (fun f g => ¬ (f.Constructor ∧ g.Constructor)) := by
      cases hf : fnOf n with
      | none => rwa [List.filterMap_cons_none hf] at hp
      | some f => rw [List.filterMap_cons_some hf] at hp; exact (List.pairwise_cons.1 hp).2
    have tail : ∀ {f}, f ∈ ns.filterMap fnOf → f ∈ (n :: ns).filterMap fnOf := by
      intro f hf
      obtain ⟨m, hm, he⟩ := List.mem_filterMap.1 hf
      exact List.mem_filterMap.2 ⟨m, List.mem_cons_of_mem _ hm, he⟩
    have head : ∀ {f}, fnOf n = some f → f ∈ (n :: ns).filterMap fnOf :=
      fun h => List.mem_filterMap.2 ⟨n, List.mem_cons_self, h⟩
    have hc' : s1.constructorVisited = true → ∀ f ∈ ns.filterMap fnOf, ¬ f.Constructor := by
      intro hv f hf hcon
      rcases st.ctor hv with hv | ⟨g, hg, hgc⟩
      · exact hc hv f (tail hf) hcon
      · rw [List.filterMap_cons_some hg] at hp
        exact (List.pairwise_cons.1 hp).1 f hf ⟨hgc, hcon⟩
    obtain ⟨s', h2, k1, k2, k3, k4, k5⟩ := ih (fun m hm => hin m (List.mem_cons_of_mem _ hm)) st.clean hp' hc'
    refine ⟨s', by rw [pass, h1]; exact h2, k1, fun h => k2 ?_, fun x hx => ?_, fun x hx => ?_, fun a ha => ?_⟩
    · rcases h with h | ⟨f, hf, he⟩
      · exact .inl (st.exp (.inl h))
      · obtain ⟨m, hm, hmf⟩ := List.mem_filterMap.1 hf
        rcases List.mem_cons.1 hm with rfl | hm
        · exact .inl (st.exp (.inr ⟨f, hmf, he⟩))
        · exact .inr ⟨f, List.mem_filterMap.2 ⟨m, hm, hmf⟩, he⟩
    · rcases k3 x hx with h | ⟨tl, cls, as, ks, h, hcl⟩
      · rcases st.orm x h with h | ⟨tl, cls, as, ks, h, hcl⟩
        · exact .inl h
        · exact .inr ⟨tl, cls, as, ks, h ▸ List.mem_cons_self, hcl⟩
      · exact .inr ⟨tl, cls, as, ks, List.mem_cons_of_mem _ h, hcl⟩
    · rcases k4 x hx with h | ⟨f, hf, ann, h⟩
      · rcases st.args x h with h | ⟨f, ann, hf, h⟩
        · exact .inl h
        · exact .inr ⟨f, head hf, ann, h⟩
      · exact .inr ⟨f, tail hf, ann, h⟩
    · rcases k5 a ha with h | h
      · exact st.types a h
      · exact .inr h

theorem finalChecks_of {s : Lint} (h1 : s.violations = []) (h2 : ∀ x ∈ s.visitedArgs, x ∉ s.ormNames) (h3 : s.oneExport = true)
    (h4 : ∀ t ∈ s.argTypes, ∃ a ∈ Spec.argTypes, t = some a) : (finalChecks s).violations = [] := by
  unfold finalChecks
  simp only
  rw [foldl_flagIf_false (fun n : Str => s.ormNames.contains n) 14 s.visitedArgs (fun x hx => by simpa using h2 x hx) s, h3]
  dsimp only [Lint.flagIf, Bool.not_true]
  have key : ∀ (ts : List (Option Str)), (∀ t ∈ ts, ∃ a ∈ Spec.argTypes, t = some a) → ∀ u : Lint, (ts.foldl (fun t a =>
      match a with
      | none => t.flag 16
      | some a => if (!annotationTypes.contains a) = true then t.flag 15 else t) u) = u := by
    intro ts
    induction ts with
    | nil => intro _ u; rfl
    | cons t ts ih =>
      intro h u
      obtain ⟨a, ha, rfl⟩ := h t List.mem_cons_self
      have ha' : a ∈ annotationTypes := ha
      rw [List.foldl_cons]
      simp only [List.contains_iff_mem.2 ha', Bool.not_true, Bool.false_eq_true, if_false]
      exact ih (fun t ht => h t (List.mem_cons_of_mem _ ht)) u
  have := key s.argTypes h4 s
  rw [if_neg (by simp)]
  exact (congrArg Lint.violations this).trans h1

/-! ## The transformation succeeds -/

/-- What the transformation needs. -/
structure TrOk (l : List Ast) : Prop where
  fn : FnOk l
  assign : ∀ ts v, Ast.assign ts v ∈ l → ∃ o, ormCall v = .ok o ∧ (o.isSome = true → ∃ x tl, ts = .name x :: tl)

theorem TrOk.sub {l l' : List Ast} (h : TrOk l) (hs : ∀ n ∈ l', n ∈ l) : TrOk l' :=
  ⟨fun nm as os b ds rs hm => h.fn nm as os b ds rs (hs _ hm), fun ts v hm => h.assign ts v (hs _ hm)⟩

theorem newHeader_ok {ns : List Str} {c nm : Str} {ds : List Ast} (h : AllowedDecorators ds) : ∃ r, newHeader ns c nm ds = .ok r := by
  rcases h with rfl | rfl | rfl <;> exact ⟨_, rfl⟩

mutual
theorem transform_total (ns : List Str) (c : Str) : ∀ t : Ast, TrOk t.nodes → ∃ t', t.transform ns c = .ok t'
  | .name id, _ => ⟨_, rfl⟩
  | .attribute v a, h => by
    obtain ⟨v', hv⟩ := transform_total ns c v (h.sub (fun n hn => by rw [Ast.nodes]; exact List.mem_cons_of_mem _ hn))
    exact ⟨.attribute v' a, by rw [Ast.transform, hv]; rfl⟩
  | .const k, _ => by cases k <;> exact ⟨_, rfl⟩
  | .call f as ks, h => by
    obtain ⟨f', h1⟩ := transform_total ns c f (h.sub (fun n hn => by rw [Ast.nodes]; simp [hn]))
    obtain ⟨as', h2⟩ := transformAll_total ns c as (h.sub (fun n hn => by rw [Ast.nodes]; simp [hn]))
    obtain ⟨ks', h3⟩ := transformAll_total ns c ks (h.sub (fun n hn => by rw [Ast.nodes]; simp [hn]))
    exact ⟨.call f' as' ks', by rw [Ast.transform, h1]; simp only [h2, h3]; rfl⟩
  | .keyword a v, h => by
    obtain ⟨v', hv⟩ := transform_total ns c v (h.sub (fun n hn => by rw [Ast.nodes]; exact List.mem_cons_of_mem _ hn))
    exact ⟨.keyword a v', by rw [Ast.transform, hv]; rfl⟩
  | .assign ts v, h => by
    obtain ⟨ts', h1⟩ := transformAll_total ns c ts (h.sub (fun n hn => by rw [Ast.nodes]; simp [hn]))
    obtain ⟨v', h2⟩ := transform_total ns c v (h.sub (fun n hn => by rw [Ast.nodes]; simp [hn]))
    obtain ⟨o, h3, h4⟩ := h.assign ts v (by rw [Ast.nodes]; exact List.mem_cons_self)
    rw [Ast.transform, h3]
    simp only [h1, h2]
    cases o with
    | none => exact ⟨_, rfl⟩
    | some cls =>
      obtain ⟨x, tl, rfl⟩ := h4 rfl
      cases v' <;> exact ⟨_, rfl⟩
  | .arg x ann, h => by
    obtain ⟨v', hv⟩ := transformAll_total ns c ann (h.sub (fun n hn => by rw [Ast.nodes]; exact List.mem_cons_of_mem _ hn))
    exact ⟨.arg x v', by rw [Ast.transform, hv]; rfl⟩
  | .functionDef nm as os b ds rs, h => by
    obtain ⟨as', h1⟩ := transformAll_total ns c as (h.sub (fun n hn => by rw [Ast.nodes]; simp [hn]))
    obtain ⟨os', h2⟩ := transformAll_total ns c os (h.sub (fun n hn => by rw [Ast.nodes]; simp [hn]))
    obtain ⟨b', h3⟩ := transformAll_total ns c b (h.sub (fun n hn => by rw [Ast.nodes]; simp [hn]))
    obtain ⟨rs', h4⟩ := transformAll_total ns c rs (h.sub (fun n hn => by rw [Ast.nodes]; simp [hn]))
    obtain ⟨⟨nm', ds'⟩, h5⟩ := newHeader_ok (ns := ns) (c := c) (nm := nm)
      (h.fn nm as os b ds rs (by rw [Ast.nodes]; exact List.mem_cons_self))
    exact ⟨.functionDef nm' as' os' b' ds' rs', by rw [Ast.transform, h5]; simp only [h1, h2, h3, h4]; rfl⟩
  | .import names, _ => ⟨_, rfl⟩
  | .importFrom m names, _ => ⟨_, rfl⟩
  | .node k ids cs, h => by
    obtain ⟨v', hv⟩ := transformAll_total ns c cs (h.sub (fun n hn => by rw [Ast.nodes]; exact List.mem_cons_of_mem _ hn))
    exact ⟨.node k ids v', by rw [Ast.transform, hv]; rfl⟩
theorem transformAll_total (ns : List Str) (c : Str) : ∀ ts : List Ast, TrOk (nodesAll ts) → ∃ ts', transformAll ns c ts = .ok ts'
  | [], _ => ⟨[], rfl⟩
  | t :: ts, h => by
    obtain ⟨t', h1⟩ := transform_total ns c t (h.sub (fun n hn => by rw [nodesAll]; simp [hn]))
    obtain ⟨ts', h2⟩ := transformAll_total ns c ts (h.sub (fun n hn => by rw [nodesAll]; simp [hn]))
    exact ⟨t' :: ts', by rw [transformAll, h1]; simp only [h2]; rfl⟩
end

/-- The converse of `compile_inv`. -/
theorem compile_of {I : PyInfo} {c : Str} {t t' : Ast} {s : Lint} (h1 : pass I t.nodes {} = .ok s)
    (h2 : (finalChecks s).violations = []) (h3 : t.transform t.names c = .ok t') : t.compile I c = .ok t' := by
  unfold Ast.compile Ast.check
  rw [Ast.lint_pass, h1]
  simp only [Except.map, h3, h2]
  rfl

/-- A tree that follows the rules is accepted. -/
theorem accepted_of {I : PyInfo} {c : Str} {t : Ast} (R : Rules I t) : Accepted I c t := by
  obtain ⟨s, h1, h2, h3, h4, h5, h6⟩ := pass_step R t.nodes (s := {}) (fun _ h => h) rfl R.oneConstructor (fun h => by cases h)
  have htr : TrOk t.nodes := by
    refine ⟨fun nm as os b ds rs hm => R.decorators _ (functions_mem hm), fun ts v hm => ?_⟩
    by_cases hcall : ∃ f as ks, v = .call f as ks
    · obtain ⟨f, as, ks, rfl⟩ := hcall
      rcases R.callees ts f as ks hm with ⟨id, rfl⟩ | ⟨w, a, rfl⟩
      · by_cases hid : id ∈ storageClasses
        · exact ⟨_, ormCall_of (orm_spec.2 hid), fun _ => (R.storage ts id as ks hm hid).1⟩
        · have h' : id ∉ ormClasses := hid
          exact ⟨none, by simp [ormCall, Ast.isAttribute, Ast.id?, h'], fun h => by cases h⟩
      · exact ⟨none, rfl, fun h => by cases h⟩
    · refine ⟨none, ?_, fun h => by cases h⟩
      cases v <;> first | rfl | exact absurd ⟨_, _, _, rfl⟩ hcall
  obtain ⟨t', ht'⟩ := transform_total t.names c t htr
  refine ⟨t', compile_of h1 (finalChecks_of h2 (fun x hx hm => ?_) (h3 (.inr R.exported)) (fun a ha => ?_)) ht'⟩
  · rcases h5 x hx with h | ⟨f, hf, ann, hx⟩
    · cases h
    · rcases h4 x hm with h | ⟨tl, cls, as, ks, hm, hcl⟩
      · cases h
      · exact R.arguments f hf x ann hx (List.mem_filterMap.2 ⟨_, hm, by simp [hcl]⟩)
  · rcases h6 a ha with h | ⟨ty, hty, rfl⟩
    · cases h
    · exact ⟨ty, hty, rfl⟩

end Verif
