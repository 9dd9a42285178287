import Verif.Proofs.Transaction
import Verif.Proofs.Executor
import Verif.Props.Isolation
/-!
# Properties C50, C61, C62: what can be imported and executed
-/
namespace Verif

/-! ## Lookup does not depend on the read record -/

theorem lookup_reads (H : Host) (w : World) (r : Dict Str PyVal) (name : Str) :
    (lookup H { w with driver := { w.driver with pendingReads := r } } name).1 = (lookup H w name).1 := by
  have key : ∀ d : Driver, ∀ k, (d.get k).1 = d.find k := by
    intro d k; unfold Driver.get; split <;> simp_all
  have hf : ∀ k, ({ w.driver with pendingReads := r } : Driver).find k = w.driver.find k := fun k => rfl
  unfold lookup
  simp only
  split
  · rfl
  · split
    · rfl
    · split
      · rfl
      · have h1 := key { w.driver with pendingReads := r } (makeKey name (py! "__code__"))
        have h2 := key w.driver (makeKey name (py! "__code__"))
        rw [hf] at h1
        cases ha : ({ w.driver with pendingReads := r } : Driver).get (makeKey name (py! "__code__")) with
        | mk ra da =>
          cases hb : w.driver.get (makeKey name (py! "__code__")) with
          | mk rb db =>
            rw [ha] at h1
            rw [hb] at h2
            simp only at h1 h2
            rw [← h2] at h1
            subst h1
            cases ra with
            | error e => rfl
            | ok v => simp only; split <;> rfl

/-- Is the code of a contract stored under this name, as seen by a read? -/
def Spec.deployed (d : Driver) (name : Str) : Prop :=
  ∃ v, (d.get (makeKey name (py! "__code__"))).1 = .ok v ∧ v ≠ .none

theorem lookup_contract {H : Host} {w : World} {name : Str} (h : (lookup H w name).1 = .ok .contract) :
    Spec.deployed w.driver name ∧ '.' ∉ name := by
  unfold lookup at h
  split at h
  · cases h
  · split at h
    · cases h
    · split at h
      · split at h <;> cases h
      · rename_i hd
        refine ⟨?_, hd⟩
        unfold Spec.deployed
        cases hg : w.driver.get (makeKey name (py! "__code__")) with
        | mk r d =>
          rw [hg] at h
          cases r with
          | error e => cases h
          | ok v =>
            simp only at h
            split at h
            · split at h <;> cases h
            · rename_i hv
              exact ⟨v, rfl, fun h0 => hv (isNone_iff.2 h0)⟩

theorem lookup_deployed {H : Host} {w : World} {name : Str} (hd : Spec.deployed w.driver name) (hdot : '.' ∉ name)
    (hi : H.imported name = false) :
    ((lookup H w name).1 = .ok .loaded ∧ name ∈ w.loaded) ∨ (lookup H w name).1 = .ok .contract := by
  obtain ⟨v, hv, hne⟩ := hd
  have hv' : v.isNone = false := by
    cases h : v.isNone with
    | false => rfl
    | true => exact absurd (isNone_iff.1 h) hne
  by_cases hm : name ∈ w.loaded
  · exact .inl ⟨by simp [lookup, hm], hm⟩
  · right
    cases hg : w.driver.get (makeKey name (py! "__code__")) with
    | mk r d =>
      rw [hg] at hv
      simp only at hv
      subst hv
      simp [lookup, hm, hi, hdot, hg, hv']

/-! ## C50: `importlib.import_module` -/

/-- A name of lower case letters, digits and underscores that does not begin with an underscore. -/
def Spec.plainName (H : Host) (name : Str) : Prop :=
  (∀ c ∈ name, H.isAlnum c = true ∨ c = '_') ∧ (∀ c ∈ name, H.isUpper c = false) ∧ (∃ c ∈ name, H.isLower c = true) ∧
  name.head? ≠ some '_'

theorem dynChecks_ok {H : Host} {w w' : World} {name : Str} (h : dynChecks H w name = (.ok (), w')) :
    Spec.plainName H name ∧ H.stdlib name = false ∧ H.strIsDigit name = false ∧ Spec.deployed w.driver name := by
  unfold dynChecks at h
  split at h
  · cases h
  · rename_i h1
    split at h
    · cases h
    · rename_i h2
      split at h
      · cases h
      · rename_i h3
        split at h
        · cases h
        · rename_i h4
          simp only [Bool.or_eq_true, Bool.not_eq_true', not_or, Bool.not_eq_true, Bool.not_eq_false, List.all_eq_true,
            beq_iff_eq] at h1
          simp only [Host.strIsLower, Bool.not_eq_true', Bool.not_eq_false, Bool.and_eq_true, List.any_eq_true,
            Bool.not_eq_true', List.any_eq_false, Bool.not_eq_true] at h2
          refine ⟨⟨h1.2, h2.2, h2.1, ?_⟩, by simpa using h3, h1.1, ?_⟩
          · intro h0
            cases name with
            | nil => cases h0
            | cons c cs =>
              simp only [List.head?_cons, Option.some.injEq] at h0
              subst h0
              exact h4 rfl
          · unfold Spec.deployed
            cases hg : w.driver.get (makeKey name (py! "__code__")) with
            | mk r d =>
              rw [hg] at h
              cases r with
              | error e => cases h
              | ok v =>
                simp only at h
                split at h
                · cases h
                · rename_i hv
                  exact ⟨v, rfl, fun h0 => hv (isNone_iff.2 h0)⟩

/-- **C50, names.** If `importlib.import_module(name)` finds a module, the name consists of lower case alphanumeric
characters and underscores, does not begin with an underscore, is not the name of a standard library
module, is not a number, and code of a contract is stored under it; in particular it contains none of the
separators of storage keys and file names. -/
theorem C50_names {H : Host} {w w' : World} {name : Str} {f : Found} (h : importStart H w name true = (.ok f, w')) :
    Spec.plainName H name ∧ H.stdlib name = false ∧ H.strIsDigit name = false ∧ Spec.deployed w.driver name ∧
    '.' ∉ name ∧ ':' ∉ name ∧ '/' ∉ name := by
  unfold importStart at h
  rw [if_pos rfl] at h
  cases hd : dynChecks H w name with
  | mk r w1 =>
    rw [hd] at h
    cases r with
    | error e => cases h
    | ok u =>
      obtain ⟨h1, h2, h3, h4⟩ := dynChecks_ok hd
      have hsep : ∀ c : Char, isAscii c = true → isLowerA c = false → isUpperA c = false → isDigitA c = false → c ≠ '_' →
          c ∉ name := by
        intro c ha hl hu hdg h5 hm
        rcases h1.1 c hm with h6 | h6
        · simp [Host.isAlnum, ha, hl, hu, hdg] at h6
        · exact h5 h6
      exact ⟨h1, h2, h3, h4, hsep '.' (by decide) (by decide) (by decide) (by decide) (by decide),
        hsep ':' (by decide) (by decide) (by decide) (by decide) (by decide),
        hsep '/' (by decide) (by decide) (by decide) (by decide) (by decide)⟩

/-- **C50, contracts only.** What it finds is then a contract, unless a module of that name is already imported in the
host process. In exactly that case it is not (`C50_refuted`). -/
theorem C50_contract {H : Host} {w w' : World} {name : Str} {f : Found}
    (h : importStart H w name true = (.ok f, w')) (hi : H.imported name = false) :
    (f = .loaded ∧ name ∈ w.loaded) ∨ f = .contract := by
  obtain ⟨_, _, _, ⟨v, hv, hne⟩, hdot, _⟩ := C50_names h
  unfold importStart at h
  rw [if_pos rfl] at h
  have hfr := dynChecks_frame H w name
  cases hd : dynChecks H w name with
  | mk r w1 =>
    rw [hd] at h hfr
    cases r with
    | error e => cases h
    | ok u =>
      obtain ⟨rd, hfr⟩ := hfr
      simp only at h hfr
      have hl := lookup_reads H w rd name
      rw [← hfr] at hl
      have hw := lookup_deployed (H := H) (w := w) ⟨v, hv, hne⟩ hdot hi
      rcases hw with ⟨hw, hm⟩ | hw
      · rw [hw] at hl
        cases hlk : lookup H w1 name with
        | mk r w2 =>
          rw [hlk] at h hl
          simp only at hl
          subst hl
          cases h
          exact .inl ⟨rfl, hm⟩
      · rw [hw] at hl
        cases hlk : lookup H w1 name with
        | mk r w2 =>
          rw [hlk] at h hl
          simp only at hl
          subst hl
          simp only at h
          split at h
          · cases h
          · cases h; exact .inr rfl

/-- **C50, nothing legitimate is refused.** A deployed contract with such a name and intact compiled code is found. -/
theorem C50_accepts {H : Host} {w : World} {name : Str} {bs : List (Fin 256)} (hn : Spec.plainName H name)
    (hs : H.stdlib name = false) (hdg : H.strIsDigit name = false) (hd : Spec.deployed w.driver name)
    (hi : H.imported name = false) (hc : (w.driver.get (makeKey name (py! "__compiled__"))).1 = .ok (.bytes bs)) :
    (importStart H w name true).1 = .ok .loaded ∨ (importStart H w name true).1 = .ok .contract := by
  obtain ⟨v, hv, hne⟩ := hd
  have hne' : ¬ v.isNone = true := fun h0 => hne (isNone_iff.1 h0)
  obtain ⟨n1, n2, n3, n4⟩ := hn
  have hdyn : (dynChecks H w name).1 = .ok () := by
    unfold dynChecks
    rw [if_neg, if_neg, if_neg (by rw [hs]; simp), if_neg]
    · cases hg : w.driver.get (makeKey name (py! "__code__")) with
      | mk r d =>
        rw [hg] at hv
        simp only at hv
        subst hv
        simp only [if_neg hne']
    · intro h0
      cases name with
      | nil => cases h0
      | cons c cs =>
        simp only [startsWith, List.isPrefixOf, Bool.and_true, beq_iff_eq] at h0
        exact n4 (by rw [← h0]; rfl)
    · simp only [Host.strIsLower, Bool.not_eq_true', Bool.not_eq_false, Bool.and_eq_true, List.any_eq_true,
        Bool.not_eq_true', List.any_eq_false, Bool.not_eq_true]
      exact ⟨n3, n2⟩
    · simp only [Bool.or_eq_true, Bool.not_eq_true', not_or, Bool.not_eq_true, Bool.not_eq_false, List.all_eq_true,
        beq_iff_eq]
      exact ⟨hdg, n1⟩
  have hsep : '.' ∉ name := by
    intro hm
    rcases n1 '.' hm with h6 | h6
    · exact absurd h6 (by simp [Host.isAlnum, isAscii, isLowerA, isUpperA, isDigitA])
    · cases h6
  unfold importStart
  rw [if_pos rfl]
  have hfr := dynChecks_frame H w name
  cases hdc : dynChecks H w name with
  | mk r w1 =>
    rw [hdc] at hdyn hfr
    simp only at hdyn
    subst hdyn
    obtain ⟨rd, hfr⟩ := hfr
    simp only at hfr ⊢
    have hl := lookup_reads H w rd name
    rw [← hfr] at hl
    have hw := lookup_deployed (H := H) (w := w) ⟨v, hv, hne⟩ hsep hi
    have hl2 := lookup_frame H w1 name
    cases hlk : lookup H w1 name with
    | mk r w2 =>
      rw [hlk] at hl hl2
      simp only at hl
      rcases hw with ⟨hw, _⟩ | hw
      · rw [hw] at hl; subst hl; exact .inl rfl
      · rw [hw] at hl
        subst hl
        right
        simp only
        obtain ⟨rd2, hl2⟩ := hl2
        have hcc : (w2.driver.get (makeKey name (py! "__compiled__"))).1 = .ok (.bytes bs) := by
          have key : ∀ d : Driver, ∀ k, (d.get k).1 = d.find k := by
            intro d k; unfold Driver.get; split <;> simp_all
          rw [key] at hc ⊢
          simp only at hl2
          rw [hl2, hfr]
          exact hc
        unfold fetchCompiled
        cases hg : w2.driver.get (makeKey name (py! "__compiled__")) with
        | mk r d =>
          rw [hg] at hcc
          simp only at hcc
          subst hcc
          rfl

example : Spec.plainName Demo.host Demo.conA ∧ (importStart Demo.host Demo.w0 Demo.conA true).1.isOk = true := by
  refine ⟨⟨by decide, by decide, by decide, by decide⟩, by decide +kernel⟩

/-- Did an import find a module of the host interpreter? -/
def Spec.foundHost : Except PyErr Found → Bool
  | .ok .host => true
  | _ => false

/-- **C50 is false for names of modules the node has imported itself**: with a contract deployed (by `sys`) as `h5py`,
`importlib.import_module('h5py')` hands out the host's module. -/
theorem C50_refuted :
    let H : Host := { Demo.host with imported := fun s => s = py! "h5py" }
    Spec.foundHost (importStart H (Demo.world (Demo.stored (py! "h5py"))) (py! "h5py") true).1 = true := by
  decide +kernel

/-! ## C61: import statements -/

theorem restricted_import {H : Host} {w w' : World} {name : Str} {f : Found} (hr : w.restricted = true)
    (h : importStart H w name false = (.ok f, w')) :
    (f = .loaded ∧ name ∈ w.loaded) ∨ (f = .contract ∧ Spec.deployed w.driver name) := by
  unfold importStart at h
  rw [if_neg (by simp)] at h
  have hfr := restrictedCheck_frame H w name
  cases hd : restrictedCheck H w name with
  | mk r w1 =>
    rw [hd] at h hfr
    cases r with
    | error e => cases h
    | ok u =>
      obtain ⟨rd, hfr⟩ := hfr
      simp only at h hfr
      have hl := lookup_reads H w rd name
      rw [← hfr] at hl
      have hok : (lookup H w name).1 = .ok .loaded ∨ (lookup H w name).1 = .ok .contract := by
        unfold restrictedCheck at hd
        rw [if_pos hr] at hd
        cases hlk : lookup H w name with
        | mk r w2 =>
          rw [hlk] at hd
          cases r with
          | error e => cases hd
          | ok f =>
            cases f with
            | loaded => exact .inl rfl
            | contract => exact .inr rfl
            | host => cases hd
            | missing => cases hd
      rcases hok with hok | hok
      · have hm : name ∈ w.loaded := by
          unfold lookup at hok
          split at hok
          · assumption
          · split at hok
            · cases hok
            · split at hok
              · split at hok <;> cases hok
              · split at hok
                · cases hok
                · split at hok
                  · split at hok <;> cases hok
                  · cases hok
        rw [hok] at hl
        cases hlk : lookup H w1 name with
        | mk r w2 =>
          rw [hlk] at h hl
          simp only at hl
          subst hl
          cases h
          exact .inl ⟨rfl, hm⟩
      · have hdep := (lookup_contract hok).1
        rw [hok] at hl
        cases hlk : lookup H w1 name with
        | mk r w2 =>
          rw [hlk] at h hl
          simp only at hl
          subst hl
          simp only at h
          split at h
          · cases h
          · cases h; exact .inr ⟨rfl, hdep⟩

theorem run_restricted (H : Host) (w : World) (e : Spec.Ev) : (e.run H w).2.restricted = w.restricted := by
  cases e with
  | act a => exact (Action.run_world H w a).2.2.2.2.1
  | enter c => obtain ⟨r, s, h⟩ := enter_frame c w; simp only [Spec.Ev.run]; rw [h]
  | exit => obtain ⟨s, h⟩ := popState_frame w; simp only [Spec.Ev.run]; rw [h]
  | importStart n d => obtain ⟨r, h⟩ := importStart_frame H w n d; simp only [Spec.Ev.run]; rw [h]
  | loaded n => rfl

/-- **C61.** While the function a transaction calls runs, however deep in the calls it makes and in the top levels of
the modules it imports, an `import name` statement either fails or gives a contract: one stored now, or
one loaded before in this process; and if the name has no dot, no code of any host package is run on the
way. (Both restrictions are needed: the top level of the transaction's own module may import anything, and dotted
names run code of host packages, `C61_refuted`.) -/
theorem C61_imports {H : Host} {cfg : ExecCfg} {tx : Tx} {w w0 w1 : World} {p : Prog}
    (h0 : Spec.txPrepared cfg tx w = some w0) (h1 : Spec.fnWorld H cfg tx w0 = some (w1, p))
    {v : World} {name : Str} (hx : (v, Spec.Ev.importStart name false) ∈ Spec.events H p w1) :
    ((∃ e, (importStart H v name false).1 = .error e) ∨
     ((importStart H v name false).1 = .ok .loaded ∧ name ∈ v.loaded) ∨
     ((importStart H v name false).1 = .ok .contract ∧ Spec.deployed v.driver name)) ∧
    ('.' ∉ name → packagesLoaded H v name = []) := by
  have hr1 : w1.restricted = true := by
    obtain ⟨fn, kwargs, w', sub, _, _, _, rfl, _⟩ := fnWorld_cases h1; rfl
  have hr : v.restricted = true :=
    ((events_inv (H := H) (P := fun _ => True) (Inv := fun w => w.restricted = true)
      (fun w e _ hw => (run_restricted H w e).trans hw) p p.all_true w1 hr1).1 _ hx).1
  refine ⟨?_, ?_⟩
  · cases hi : importStart H v name false with
    | mk r v' =>
      cases r with
      | error e => exact .inl ⟨e, rfl⟩
      | ok f =>
        rcases restricted_import hr hi with ⟨rfl, hm⟩ | ⟨rfl, hm⟩
        · exact .inr (.inl ⟨rfl, hm⟩)
        · exact .inr (.inr ⟨rfl, hm⟩)
  · intro hd; unfold packagesLoaded; simp [hd]

/-- **C61, what is run.** If an import of either kind finds a contract to run, its compiled code is stored now. -/
theorem C61_compiled {H : Host} {w w' : World} {name : Str} {dyn : Bool} (h : importStart H w name dyn = (.ok .contract, w')) :
    ∃ v, (w.driver.get (makeKey name (py! "__compiled__"))).1 = .ok v ∧ ((∃ b, v = .bytes b) ∨ ∃ s, v = .str s) := by
  have key : ∀ (d : Driver) k, (d.get k).1 = d.find k := by
    intro d k; unfold Driver.get; split <;> simp_all
  unfold importStart at h
  have h1 : ∃ rd, (if dyn = true then dynChecks H w name else restrictedCheck H w name).2 =
      { w with driver := { w.driver with pendingReads := rd } } := by
    split
    · exact dynChecks_frame H w name
    · exact restrictedCheck_frame H w name
  generalize (if dyn = true then dynChecks H w name else restrictedCheck H w name) = x at h h1
  obtain ⟨r, w1⟩ := x
  obtain ⟨rd, h1⟩ := h1
  simp only at h1
  cases r with
  | error e => cases h
  | ok u =>
    simp only at h
    have h2 := lookup_frame H w1 name
    cases hl : lookup H w1 name with
    | mk r w2 =>
      rw [hl] at h h2
      obtain ⟨rd2, h2⟩ := h2
      simp only at h2
      cases r with
      | error e => cases h
      | ok f =>
        cases f with
        | contract =>
          simp only at h
          cases hf : fetchCompiled w2 name with
          | mk r w3 =>
            rw [hf] at h
            cases r with
            | error e => cases h
            | ok u =>
              unfold fetchCompiled at hf
              cases hg : w2.driver.get (makeKey name (py! "__compiled__")) with
              | mk r d =>
                rw [hg] at hf
                have hg' : (w.driver.get (makeKey name (py! "__compiled__"))).1 = r := by
                  rw [key]
                  have : (w2.driver.get (makeKey name (py! "__compiled__"))).1 = r := by rw [hg]
                  rw [key, h2, h1] at this
                  exact this
                cases r with
                | error e => cases hf
                | ok v =>
                  refine ⟨v, hg', ?_⟩
                  cases v with
                  | bytes b => exact .inl ⟨b, rfl⟩
                  | str s => exact .inr ⟨s, rfl⟩
                  | _ => cases hf
        | _ => cases h

theorem before_dot : ∀ name : Str, '.' ∉ name.takeWhile (fun c => decide (c ≠ '.')) ∧
    ('.' ∈ name → name.takeWhile (fun c => decide (c ≠ '.')) ++ ['.'] <+: name)
  | [] => ⟨by simp, fun h => by cases h⟩
  | c :: r => by
    obtain ⟨h1, h2⟩ := before_dot r
    by_cases hc : c = '.'
    · subst hc
      refine ⟨by simp, fun _ => ?_⟩
      rw [List.takeWhile_cons_of_neg (by simp)]
      exact ⟨r, rfl⟩
    · rw [List.takeWhile_cons_of_pos (by simpa using hc)]
      refine ⟨?_, fun h => ?_⟩
      · rw [List.mem_cons, not_or]
        exact ⟨fun h => hc h.symm, h1⟩
      · rcases List.mem_cons.1 h with h | h
        · exact absurd h.symm hc
        · obtain ⟨t, ht⟩ := h2 h
          exact ⟨t, by rw [List.cons_append, List.cons_append, ht]⟩

/-- **C61, host packages.** The code of a host package is run by an import only if the name has a dot, the part before
it is the package, and that is neither imported yet nor the name of a loaded or stored contract. -/
theorem C61_packages {H : Host} {w : World} {name p : Str} (h : p ∈ packagesLoaded H w name) :
    p ++ ['.'] <+: name ∧ '.' ∉ p ∧ p ∉ w.loaded ∧ H.imported p = false ∧ H.importable p = true ∧ ¬ Spec.deployed w.driver p := by
  unfold packagesLoaded at h
  simp only at h
  split at h
  · cases h
  · rename_i h1
    split at h
    · cases h
    · rename_i h2
      simp only [Bool.or_eq_true, decide_eq_true_eq, not_or, Bool.not_eq_true] at h1 h2
      split at h
      · cases h
      · rename_i v hv
        split at h
        · rename_i h3
          simp only [Bool.and_eq_true] at h3
          rw [List.mem_singleton] at h
          subst h
          refine ⟨?_, ?_, h2.1, h2.2, h3.2, ?_⟩
          · exact (before_dot name).2 (by simpa using h1.1.1)
          · exact (before_dot name).1
          · rintro ⟨u, hu, hn⟩
            rw [hv] at hu
            cases hu
            exact hn (isNone_iff.1 h3.1)
        · cases h

example : packagesLoaded { Demo.host with importable := fun s => s = py! "antigravity" } Demo.w0 (py! "antigravity.x.y") = [py! "antigravity"] := by
  decide +kernel

/-- **C61, no false alarm**: an import of a deployed contract is never refused by the restriction. -/
theorem C61_accepts {H : Host} {w : World} {name : Str} (hd : Spec.deployed w.driver name) (hdot : '.' ∉ name)
    (hi : H.imported name = false) : (restrictedCheck H w name).1 = .ok () := by
  unfold restrictedCheck
  split
  · rcases lookup_deployed (w := w) hd hdot hi with ⟨h, _⟩ | h
    all_goals
      cases hl : lookup H w name with
      | mk r w1 =>
        rw [hl] at h
        simp only at h
        subst h
        rfl
  · rfl

/-- A contract whose function imports `con_b`. -/
def Demo.importer : Tx := Demo.tx (.load (py! "con_b") false (.ret .none) (Demo.andThen (.ret .none)))

example :
    ((Spec.txPrepared {} Demo.importer (Demo.world (Demo.stored Demo.conA ++ Demo.stored (py! "con_b") ++ [(Demo.bobKey, .int 100)]))).bind
      fun w0 => (Spec.fnWorld Demo.host {} Demo.importer w0).map fun y => (Spec.events Demo.host y.2 y.1).any fun x =>
        match x.2 with
        | .importStart n false => n = py! "con_b" && (importStart Demo.host x.1 n false).1.isOk
        | _ => false) = some true := by decide +kernel

/-- **C61 is false.** The top level of the module a transaction calls runs before the restriction is switched on
(executor.py:115, 126), so an `import` there reaches any module of the host; and a dotted import runs the
code of a host package even when it is refused. -/
theorem C61_refuted :
    (let tx : Tx := { Demo.tx (.ret .none) with
        code := { top := .load (py! "os") false (.ret .none) (Demo.andThen (.ret .none)), fn := some (true, fun _ => .ret .none) } }
     (Spec.txEvents Demo.host {} tx Demo.w0).any (fun x => match x.2 with
        | .importStart n d => Spec.foundHost (importStart Demo.host x.1 n d).1
        | _ => false) = true) ∧
    (let H : Host := { Demo.host with importable := fun s => s = py! "antigravity" }
     let tx : Tx := Demo.tx (.load (py! "antigravity.x") false (.ret .none) (Demo.andThen (.ret .none)))
     (Spec.txEvents H {} tx Demo.w0).any (fun x => x.1.restricted && match x.2 with
        | .importStart n _ => packagesLoaded H x.1 n = [py! "antigravity"]
        | _ => false) = true) := by
  decide +kernel

/-! ## C62: what `execute` can reach -/

theorem find_get (d : Driver) (k : Str) : (d.get k).1 = d.find k := by
  unfold Driver.get; split <;> simp_all

/-- **C62.** A transaction that succeeds has run a function of a contract stored under the name it gave, in a process
where no module of that name is (or can be) imported from the host; no host function was called. (For names of
host modules it is false: `C62_refuted`.) -/
theorem C62_reach {H : Host} {cfg : ExecCfg} {tx : Tx} {w w' : World} {o : Output} (hw : Spec.Served H w)
    (h : execute H cfg tx w = (.ok o, w')) (hs : o.status = 0)
    (hi : H.imported tx.contract = false) (hm : H.importable tx.contract = false) :
    Spec.deployed w.driver tx.contract ∧ '.' ∉ tx.contract ∧ ∃ fn, tx.code.fn = some fn := by
  obtain ⟨v, w1, ha, _⟩ := execute_success h hs
  obtain ⟨_, _, _, hld, _⟩ := hw.shape
  rw [attempt_pre] at ha
  cases hp : attemptPre H cfg tx (tx.metered cfg) (startWorld w) with
  | mk r w2 =>
    rw [hp] at ha
    cases r with
    | error e => cases ha
    | ok host =>
      simp only at ha
      have hcon : host = false ∧ Spec.deployed w.driver tx.contract ∧ '.' ∉ tx.contract := by
        unfold attemptPre at hp
        have hc1 : ∃ r, (if tx.metered cfg then checkFunds cfg tx (startWorld w) else (.ok (), startWorld w)).2 =
            { startWorld w with driver := { (startWorld w).driver with pendingReads := r } } := by
          cases tx.metered cfg
          · exact ⟨_, rfl⟩
          · exact checkFunds_frame cfg tx _
        cases hc : (if tx.metered cfg then checkFunds cfg tx (startWorld w) else (.ok (), startWorld w)) with
        | mk r v1 =>
          rw [hc] at hp hc1
          obtain ⟨rd, hc1⟩ := hc1
          simp only at hc1
          cases r with
          | error e => cases hp
          | ok u =>
            simp only at hp
            obtain ⟨rb, b, hb⟩ := setBase_frame tx { v1 with env := Dict.update v1.env tx.environment }
            cases hs2 : setBase tx { v1 with env := Dict.update v1.env tx.environment } with
            | mk r v2 =>
              rw [hs2] at hp hb
              simp only at hb
              cases r with
              | error e => cases hp
              | ok u =>
                simp only at hp
                have hfind : ∀ k, v2.driver.find k = w.driver.find k := by intro k; rw [hb, hc1]; rfl
                have hl : v2.loaded = [] := by rw [hb, hc1]; exact hld
                unfold loadEntry at hp
                cases hlk : lookup H v2 tx.contract with
                | mk r v3 =>
                  rw [hlk] at hp
                  cases r with
                  | error e => cases hp
                  | ok f =>
                    cases f with
                    | missing => cases hp
                    | loaded =>
                      exfalso
                      unfold lookup at hlk
                      rw [if_neg (by rw [hl]; simp), if_neg (by rw [hi]; simp)] at hlk
                      split at hlk
                      · split at hlk <;> cases hlk
                      · split at hlk
                        · cases hlk
                        · simp only at hlk
                          split at hlk
                          · split at hlk <;> cases hlk
                          · cases hlk
                    | host =>
                      exfalso
                      unfold lookup at hlk
                      rw [if_neg (by rw [hl]; simp), if_neg (by rw [hi]; simp), hm] at hlk
                      split at hlk
                      · cases hlk
                      · split at hlk
                        · cases hlk
                        · simp only at hlk
                          split at hlk <;> cases hlk
                    | contract =>
                      obtain ⟨⟨x, hx, hne⟩, hdot⟩ := lookup_contract (H := H) (w := v2) (name := tx.contract) (by rw [hlk])
                      refine ⟨?_, ⟨x, ?_, hne⟩, hdot⟩
                      · simp only at hp
                        split at hp
                        · cases hp
                        · split at hp
                          · cases hp
                          · cases hp; rfl
                      · rw [find_get] at hx ⊢
                        rw [← hfind]; exact hx
      obtain ⟨rfl, hdep, hdot⟩ := hcon
      refine ⟨hdep, hdot, ?_⟩
      unfold invoke at ha
      rw [if_neg (by simp)] at ha
      cases hfn : tx.code.fn with
      | none => rw [hfn] at ha; cases ha
      | some fn => exact ⟨fn, rfl⟩

/-- **C62 is false**: `execute(contract_name='os', function_name='system', ...)` calls the host's function; no contract of
that name exists. -/
theorem C62_refuted :
    let tx : Tx := { Demo.tx (.ret .none) with contract := py! "os", function := py! "system", code := { top := .ret .none, fn := none } }
    let r := execute Demo.host {} tx Demo.w0
    r.1.map Output.status = .ok 0 ∧ r.2.hostCalls = [(py! "os", py! "system")] := by
  decide +kernel

end Verif
