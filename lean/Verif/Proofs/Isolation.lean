import Verif.Proofs.Executor
/-! # Two runs from states that differ only in what no contract can see -/
namespace Verif

/-- Same process, except for the generator's state while unseeded and the record of host calls. -/
def SameBut (a b : World) : Prop :=
  ∃ rng calls, b = { a with rng := rng, hostCalls := calls } ∧ (a.seeded = true → rng = a.rng)

theorem SameBut.refl (a : World) : SameBut a a := ⟨a.rng, a.hostCalls, rfl, fun _ => rfl⟩

/-- Same result, and states that stay alike. -/
def SameRun {α : Type} (r s : α × World) : Prop := r.1 = s.1 ∧ SameBut r.2 s.2

theorem Action.sameRun {H : Host} {a : Action} {w w' : World} (h : SameBut w w') : SameRun (a.run H w) (a.run H w') := by
  obtain ⟨rng, calls, rfl, hr⟩ := h
  have triv : ∀ {r : Except PyErr PyVal} {w : World}, (w.seeded = true → rng = w.rng) →
      SameRun (r, w) (r, { w with rng := rng, hostCalls := calls }) := fun h => ⟨rfl, rng, calls, rfl, h⟩
  cases a with
  | newLog ev ps =>
    simp only [Action.run]
    unfold Verif.newLog
    simp only
    split
    · exact triv hr
    · split
      · exact triv hr
      · split
        · exact triv hr
        · exact triv hr
  | emit l data =>
    simp only [Action.run]
    split
    · exact triv hr
    · unfold emitEvent
      split
      · exact triv hr
      · split
        · exact triv hr
        · split
          · exact triv hr
          · simp only [World.current]
            split
            · exact triv hr
            · split
              · exact triv hr
              · exact triv hr
  | seed salt =>
    simp only [Action.run]
    unfold doSeed
    simp only
    split
    · exact triv hr
    · exact ⟨rfl, _, calls, rfl, fun _ => rfl⟩
  | getrandbits k =>
    simp only [Action.run]
    unfold doGetrandbits
    by_cases hs : w.seeded = true
    · have hb : ¬ (!w.seeded) = true := by rw [hs]; decide
      have := hr hs
      subst this
      rw [if_neg hb, if_neg hb]
      simp only
      split
      · exact ⟨rfl, _, calls, rfl, fun _ => rfl⟩
      · exact ⟨rfl, _, calls, rfl, fun _ => rfl⟩
    · have hb : (!w.seeded) = true := by simpa using hs
      rw [if_pos hb, if_pos hb]
      exact ⟨rfl, rng, calls, rfl, hr⟩
  | draw q =>
    simp only [Action.run]
    unfold doDraw
    by_cases hs : w.seeded = true
    · have hb : ¬ (!w.seeded) = true := by rw [hs]; decide
      have := hr hs
      subst this
      rw [if_neg hb, if_neg hb]
      exact ⟨rfl, _, calls, rfl, fun _ => rfl⟩
    · have hb : (!w.seeded) = true := by simpa using hs
      rw [if_pos hb, if_pos hb]
      exact ⟨rfl, rng, calls, rfl, hr⟩
  | _ => exact ⟨rfl, rng, calls, rfl, hr⟩

theorem addState_sameBut {f : Frame} {w w' : World} (h : SameBut w w') : SameBut (w.addState f) (w'.addState f) := by
  obtain ⟨rng, calls, rfl, hr⟩ := h
  unfold World.addState
  have hc : World.current { w with rng := rng, hostCalls := calls } = w.current := rfl
  rw [hc]
  by_cases hx : w.current.this ≠ f.this ∧ w.stack.length < World.maxFrames
  · rw [if_pos hx, if_pos hx]; exact ⟨rng, calls, rfl, hr⟩
  · rw [if_neg hx, if_neg hx]; exact ⟨rng, calls, rfl, hr⟩

theorem enter_sameRun {c : Str} {w w' : World} (h : SameBut w w') : SameRun (enter c w) (enter c w') := by
  obtain ⟨rng, calls, rfl, hr⟩ := h
  unfold enter
  have hc : World.current { w with rng := rng, hostCalls := calls } = w.current := rfl
  rw [hc]
  by_cases hx : w.current.this ≠ some c
  · rw [if_pos hx, if_pos hx]
    cases hg : w.driver.getOwner c with
    | mk r d =>
      cases r with
      | error e => simp only [hg]; exact ⟨rfl, rng, calls, rfl, hr⟩
      | ok owner =>
        simp only [hg]
        have hadd := addState_sameBut (f :=
          { owner := owner, caller := w.current.this, signer := w.current.signer, this := some c, entry := w.current.entry,
            submission := w.current.submission })
          (show SameBut { w with driver := d } { { w with driver := d } with rng := rng, hostCalls := calls } from
            ⟨rng, calls, rfl, hr⟩)
        by_cases ho : ownerRefuses owner w.current.this = true
        · rw [if_pos ho, if_pos ho]; exact ⟨rfl, hadd⟩
        · rw [if_neg ho, if_neg ho]; exact ⟨rfl, hadd⟩
  · rw [if_neg hx, if_neg hx]
    unfold World.insState
    simp only
    split <;> exact ⟨rfl, rng, calls, rfl, hr⟩

theorem popState_sameBut {w w' : World} (h : SameBut w w') : SameBut w.popState w'.popState := by
  obtain ⟨rng, calls, rfl, hr⟩ := h
  unfold World.popState
  simp only
  split
  · exact ⟨rng, calls, rfl, hr⟩
  · split <;> exact ⟨rng, calls, rfl, hr⟩

theorem lookup_sameRun {H : Host} {w w' : World} {name : Str} (h : SameBut w w') :
    SameRun (lookup H w name) (lookup H w' name) := by
  obtain ⟨rng, calls, rfl, hr⟩ := h
  unfold lookup
  simp only
  split
  · exact ⟨rfl, rng, calls, rfl, hr⟩
  · split
    · exact ⟨rfl, rng, calls, rfl, hr⟩
    · split
      · exact ⟨rfl, rng, calls, rfl, hr⟩
      · split
        · exact ⟨rfl, rng, calls, rfl, hr⟩
        · split <;> exact ⟨rfl, rng, calls, rfl, hr⟩

theorem fetchCompiled_sameRun {w w' : World} {name : Str} (h : SameBut w w') :
    SameRun (fetchCompiled w name) (fetchCompiled w' name) := by
  obtain ⟨rng, calls, rfl, hr⟩ := h
  unfold fetchCompiled
  simp only
  split
  · exact ⟨rfl, rng, calls, rfl, hr⟩
  · split <;> exact ⟨rfl, rng, calls, rfl, hr⟩

theorem dynChecks_sameRun {H : Host} {w w' : World} {name : Str} (h : SameBut w w') :
    SameRun (dynChecks H w name) (dynChecks H w' name) := by
  obtain ⟨rng, calls, rfl, hr⟩ := h
  unfold dynChecks
  simp only
  split
  · exact ⟨rfl, rng, calls, rfl, hr⟩
  · split
    · exact ⟨rfl, rng, calls, rfl, hr⟩
    · split
      · exact ⟨rfl, rng, calls, rfl, hr⟩
      · split
        · exact ⟨rfl, rng, calls, rfl, hr⟩
        · split
          · exact ⟨rfl, rng, calls, rfl, hr⟩
          · split <;> exact ⟨rfl, rng, calls, rfl, hr⟩

theorem restrictedCheck_sameRun {H : Host} {w w' : World} {name : Str} (h : SameBut w w') :
    SameRun (restrictedCheck H w name) (restrictedCheck H w' name) := by
  have hl := lookup_sameRun (H := H) (name := name) h
  obtain ⟨rng, calls, rfl, hr⟩ := h
  unfold restrictedCheck
  simp only
  split
  · obtain ⟨h1, h2⟩ := hl
    cases ha : lookup H w name with
    | mk r w1 =>
      cases hb : lookup H { w with rng := rng, hostCalls := calls } name with
      | mk s w2 =>
        rw [ha, hb] at h1 h2
        simp only at h1 h2
        subst h1
        cases r with
        | error e => exact ⟨rfl, h2⟩
        | ok f => cases f <;> exact ⟨rfl, h2⟩
  · exact ⟨rfl, rng, calls, rfl, hr⟩

/-- Sequencing. -/
theorem SameRun.cases {α : Type} {r s : Except PyErr α × World} (h : SameRun r s) :
    (∃ e w w', r = (.error e, w) ∧ s = (.error e, w') ∧ SameBut w w') ∨
    (∃ v w w', r = (.ok v, w) ∧ s = (.ok v, w') ∧ SameBut w w') := by
  obtain ⟨r1, w⟩ := r
  obtain ⟨s1, w'⟩ := s
  obtain ⟨h1, h2⟩ := h
  simp only at h1
  subst h1
  cases r1 with
  | error e => exact Or.inl ⟨e, w, w', rfl, rfl, h2⟩
  | ok v => exact Or.inr ⟨v, w, w', rfl, rfl, h2⟩

theorem importStart_sameRun {H : Host} {w w' : World} {name : Str} {dyn : Bool} (h : SameBut w w') :
    SameRun (importStart H w name dyn) (importStart H w' name dyn) := by
  unfold importStart
  have h1 : SameRun (if dyn then dynChecks H w name else restrictedCheck H w name)
      (if dyn then dynChecks H w' name else restrictedCheck H w' name) := by
    cases dyn
    · exact restrictedCheck_sameRun h
    · exact dynChecks_sameRun h
  rcases h1.cases with ⟨e, a, b, ha, hb, hs⟩ | ⟨v, a, b, ha, hb, hs⟩
  · rw [ha, hb]; exact ⟨rfl, hs⟩
  · rw [ha, hb]
    simp only
    rcases (lookup_sameRun (H := H) (name := name) hs).cases with ⟨e, c, d, hc, hd, hs⟩ | ⟨f, c, d, hc, hd, hs⟩
    · rw [hc, hd]; exact ⟨rfl, hs⟩
    · rw [hc, hd]
      cases f with
      | contract =>
        simp only
        rcases (fetchCompiled_sameRun (name := name) hs).cases with ⟨e, c, d, hc, hd, hs⟩ | ⟨f, c, d, hc, hd, hs⟩
        · rw [hc, hd]; exact ⟨rfl, hs⟩
        · rw [hc, hd]; exact ⟨rfl, hs⟩
      | _ => exact ⟨rfl, hs⟩

theorem Prog.sameRun {H : Host} : ∀ (p : Prog) {w w' : World}, SameBut w w' → SameRun (p.run H w) (p.run H w') := by
  intro p
  induction p with
  | ret v => intro w w' h; exact ⟨rfl, h⟩
  | raise e => intro w w' h; exact ⟨rfl, h⟩
  | act a k ih =>
    intro w w' h
    obtain ⟨h1, h2⟩ := Action.sameRun (H := H) (a := a) h
    simp only [Prog.run]
    rw [h1]
    exact ih _ h2
  | call c body k ihb ihk =>
    intro w w' h
    simp only [Prog.run]
    rcases (enter_sameRun (c := c) h).cases with ⟨e, a, b, ha, hb, hs⟩ | ⟨v, a, b, ha, hb, hs⟩
    · rw [ha, hb]; exact ihk _ hs
    · rw [ha, hb]
      simp only
      obtain ⟨h1, h2⟩ := ihb hs
      rw [h1]
      exact ihk _ (popState_sameBut h2)
  | load name dyn body k ihb ihk =>
    intro w w' h
    simp only [Prog.run]
    rcases (importStart_sameRun (H := H) (name := name) (dyn := dyn) h).cases with ⟨e, a, b, ha, hb, hs⟩ | ⟨f, a, b, ha, hb, hs⟩
    · rw [ha, hb]; exact ihk _ hs
    · rw [ha, hb]
      cases f with
      | contract =>
        simp only
        rcases (ihb hs).cases with ⟨e, c, d, hc, hd, hs⟩ | ⟨v, c, d, hc, hd, hs⟩
        · rw [hc, hd]; exact ihk _ hs
        · rw [hc, hd]
          refine ihk _ ?_
          obtain ⟨rng, calls, rfl, hr⟩ := hs
          exact ⟨rng, calls, rfl, hr⟩
      | _ => exact ihk _ hs

/-- The same, also up to the base frame: what matters before the base frame is set. -/
def SameButBase (a b : World) : Prop :=
  ∃ rng calls base, b = { a with rng := rng, hostCalls := calls, base := base } ∧ (a.seeded = true → rng = a.rng)

theorem callEntry_sameRun {H : Host} {tx : Tx} {kwargs : Dict Str PyVal} {fn : Bool × (Dict Str PyVal → Prog)} {w w' : World}
    (h : SameBut w w') : SameRun (callEntry H tx kwargs fn w) (callEntry H tx kwargs fn w') := by
  unfold callEntry
  split <;> exact Prog.sameRun _ h

theorem setUp_sameBut {tx : Tx} {m : Bool} {w w' : World} (h : SameBut w w') : SameBut (setUp tx m w) (setUp tx m w') := by
  obtain ⟨rng, calls, rfl, hr⟩ := h
  unfold setUp
  split <;> exact ⟨rng, calls, rfl, hr⟩

theorem loadEntry_sameRun {H : Host} {tx : Tx} {w w' : World} (h : SameBut w w') :
    SameRun (loadEntry H tx w) (loadEntry H tx w') := by
  unfold loadEntry
  rcases (lookup_sameRun (H := H) (name := tx.contract) h).cases with ⟨e, a, b, ha, hb, hs⟩ | ⟨f, a, b, ha, hb, hs⟩
  · rw [ha, hb]; exact ⟨rfl, hs⟩
  · rw [ha, hb]
    cases f with
    | contract =>
      simp only
      rcases (fetchCompiled_sameRun (name := tx.contract) hs).cases with ⟨e, c, d, hc, hd, hs⟩ | ⟨f, c, d, hc, hd, hs⟩
      · rw [hc, hd]; exact ⟨rfl, hs⟩
      · rw [hc, hd]
        simp only
        rcases (Prog.sameRun (H := H) tx.code.top hs).cases with ⟨e, c, d, hc, hd, hs⟩ | ⟨f, c, d, hc, hd, hs⟩
        · rw [hc, hd]; exact ⟨rfl, hs⟩
        · rw [hc, hd]
          obtain ⟨rng, calls, rfl, hr⟩ := hs
          exact ⟨rfl, rng, calls, rfl, hr⟩
    | _ => exact ⟨rfl, hs⟩

theorem invoke_sameRun {H : Host} {tx : Tx} {m host : Bool} {w w' : World} (h : SameBut w w') :
    SameRun (invoke H tx m host w) (invoke H tx m host w') := by
  unfold invoke
  split
  · refine ⟨rfl, setUp_sameBut ?_⟩
    obtain ⟨rng, calls, rfl, hr⟩ := h
    exact ⟨rng, _, rfl, hr⟩
  · split
    · exact ⟨rfl, h⟩
    · have hb : SameBut
          (if tx.contract = py! "submission" then
            { w with base := { w.base with submission := (Dict.get? tx.kwargs (py! "name")).getD .none } } else w)
          (if tx.contract = py! "submission" then
            { w' with base := { w'.base with submission := (Dict.get? tx.kwargs (py! "name")).getD .none } } else w') := by
        obtain ⟨rng, calls, rfl, hr⟩ := h
        split <;> exact ⟨rng, calls, rfl, hr⟩
      simp only
      split
      · exact ⟨rfl, hb⟩
      · exact callEntry_sameRun (setUp_sameBut hb)

/-- Same result; states alike up to the base frame. -/
def SameRunBase {α : Type} (r s : α × World) : Prop := r.1 = s.1 ∧ SameButBase r.2 s.2

theorem SameRun.base {α : Type} {r s : α × World} (h : SameRun r s) : SameRunBase r s := by
  obtain ⟨h1, rng, calls, h2, h3⟩ := h
  exact ⟨h1, rng, calls, r.2.base, by rw [h2], h3⟩

/-- An attempt in two states that differ in the base frame, too: it replaces the base frame, and looks at
it only through an empty stack. -/
theorem attempt_sameRun {H : Host} {cfg : ExecCfg} {tx : Tx} {m : Bool} {w w' : World}
    (h : SameButBase w w') : SameRunBase (attempt H cfg tx m w) (attempt H cfg tx m w') := by
  obtain ⟨rng, calls, base, rfl, hr⟩ := h
  have key : ∀ (u : Except PyErr Unit × World), (u.2.seeded = true → rng = u.2.rng) →
      SameRunBase
        (match u with
          | (.error e, w) => ((.error e, w) : Except PyErr PyVal × World)
          | (.ok _, w) =>
            match setBase tx { w with env := Dict.update w.env tx.environment } with
            | (.error e, w) => (.error e, w)
            | (.ok _, w) =>
              match loadEntry H tx w with
              | (.error e, w) => (.error e, w)
              | (.ok host, w) => invoke H tx m host w)
        (match (u.1, ({ u.2 with rng := rng, hostCalls := calls, base := base } : World)) with
          | (.error e, w) => (.error e, w)
          | (.ok _, w) =>
            match setBase tx { w with env := Dict.update w.env tx.environment } with
            | (.error e, w) => (.error e, w)
            | (.ok _, w) =>
              match loadEntry H tx w with
              | (.error e, w) => (.error e, w)
              | (.ok host, w) => invoke H tx m host w) := by
    rintro ⟨r, w⟩ hr
    cases r with
    | error e => exact ⟨rfl, rng, calls, base, rfl, hr⟩
    | ok u =>
      simp only
      have cont : ∀ {r s : Except PyErr Unit × World}, SameRun r s →
          SameRun
            (match r with
              | (.error e, w) => ((.error e, w) : Except PyErr PyVal × World)
              | (.ok _, w) =>
                match loadEntry H tx w with
                | (.error e, w) => (.error e, w)
                | (.ok host, w) => invoke H tx m host w)
            (match s with
              | (.error e, w) => (.error e, w)
              | (.ok _, w) =>
                match loadEntry H tx w with
                | (.error e, w) => (.error e, w)
                | (.ok host, w) => invoke H tx m host w) := by
        intro r s hrs
        rcases hrs.cases with ⟨e, a, b, ha, hb, hs⟩ | ⟨v, a, b, ha, hb, hs⟩
        · rw [ha, hb]; exact ⟨rfl, hs⟩
        · rw [ha, hb]
          simp only
          rcases (loadEntry_sameRun (H := H) (tx := tx) hs).cases with ⟨e, c, d, hc, hd, hs⟩ | ⟨v, c, d, hc, hd, hs⟩
          · rw [hc, hd]; exact ⟨rfl, hs⟩
          · rw [hc, hd]; exact invoke_sameRun hs
      cases hg : w.driver.getOwner tx.contract with
      | mk r d =>
        cases r with
        | error e =>
          unfold setBase
          simp only [hg]
          exact ⟨rfl, rng, calls, base, rfl, hr⟩
        | ok owner =>
          refine (cont ?_).base
          unfold setBase
          simp only [hg]
          generalize hw : ({ w with env := Dict.update w.env tx.environment, driver := d, base :=
            { signer := some tx.sender, caller := some tx.sender, this := some tx.contract,
              entry := some (tx.contract, tx.function), owner := owner, submission := .none } } : World) = v
          have hv : v.seeded = true → rng = v.rng := by rw [← hw]; exact hr
          have hw2 : ({ w with env := Dict.update w.env tx.environment, driver := d, rng := rng, hostCalls := calls, base :=
            { signer := some tx.sender, caller := some tx.sender, this := some tx.contract,
              entry := some (tx.contract, tx.function), owner := owner, submission := .none } } : World) =
              { v with rng := rng, hostCalls := calls } := by rw [← hw]
          rw [hw2]
          have hc : World.current { v with rng := rng, hostCalls := calls } = v.current := rfl
          rw [hc]
          by_cases ho : ownerRefuses v.current.owner v.current.caller = true
          · rw [if_pos ho, if_pos ho]; exact ⟨rfl, rng, calls, rfl, hv⟩
          · rw [if_neg ho, if_neg ho]; exact ⟨rfl, rng, calls, rfl, hv⟩
  unfold attempt
  cases m with
  | false => exact key (.ok (), w) hr
  | true =>
    have hcf : checkFunds cfg tx { w with rng := rng, hostCalls := calls, base := base } =
        ((checkFunds cfg tx w).1, { (checkFunds cfg tx w).2 with rng := rng, hostCalls := calls, base := base }) := by
      unfold checkFunds
      simp only
      split
      · rfl
      · split <;> rfl
    rw [if_pos rfl, if_pos rfl, hcf]
    refine key (checkFunds cfg tx w) ?_
    obtain ⟨r, h⟩ := checkFunds_frame cfg tx w
    rw [h]; exact hr

end Verif

namespace Verif

theorem SameRunBase.cases {α : Type} {r s : Except PyErr α × World} (h : SameRunBase r s) :
    (∃ e w w', r = (.error e, w) ∧ s = (.error e, w') ∧ SameButBase w w') ∨
    (∃ v w w', r = (.ok v, w) ∧ s = (.ok v, w') ∧ SameButBase w w') := by
  obtain ⟨r1, w⟩ := r
  obtain ⟨s1, w'⟩ := s
  obtain ⟨h1, h2⟩ := h
  simp only at h1
  subst h1
  cases r1 with
  | error e => exact Or.inl ⟨e, w, w', rfl, rfl, h2⟩
  | ok v => exact Or.inr ⟨v, w, w', rfl, rfl, h2⟩

theorem tryBlock_sameRun {H : Host} {cfg : ExecCfg} {tx : Tx} {m : Bool} {snap : Dict Str PyVal} {w w' : World}
    (h : SameButBase w w') : SameRunBase (tryBlock H cfg tx m snap w) (tryBlock H cfg tx m snap w') := by
  unfold tryBlock
  rcases (attempt_sameRun (H := H) (cfg := cfg) (tx := tx) (m := m) h).cases with ⟨e, a, b, ha, hb, hs⟩ | ⟨v, a, b, ha, hb, hs⟩
  · rw [ha, hb]
    obtain ⟨rng, calls, base, rfl, hr⟩ := hs
    exact ⟨rfl, rng, calls, base, rfl, hr⟩
  · rw [ha, hb]
    obtain ⟨rng, calls, base, rfl, hr⟩ := hs
    simp only
    split
    · split
      · exact ⟨rfl, rng, calls, base, rfl, hr⟩
      · exact ⟨rfl, rng, calls, base, rfl, hr⟩
    · exact ⟨rfl, rng, calls, base, rfl, hr⟩

theorem chargeFee_sameRun {H : Host} {cfg : ExecCfg} {tx : Tx} {used : Int} {writes : Dict Str PyVal} {w w' : World}
    (h : SameButBase w w') : SameRunBase (chargeFee H cfg tx used writes w) (chargeFee H cfg tx used writes w') := by
  obtain ⟨rng, calls, base, rfl, hr⟩ := h
  unfold chargeFee
  split
  · exact ⟨rfl, rng, calls, base, rfl, hr⟩
  · simp only
    split
    · exact ⟨rfl, rng, calls, base, rfl, hr⟩
    · split
      · exact ⟨rfl, rng, calls, base, rfl, hr⟩
      · split
        · exact ⟨rfl, rng, calls, base, rfl, hr⟩
        · split
          · split
            · exact ⟨rfl, rng, calls, base, rfl, hr⟩
            · exact ⟨rfl, rng, calls, base, rfl, hr⟩
          · exact ⟨rfl, rng, calls, base, rfl, hr⟩

theorem execute_sameRun {H : Host} {cfg : ExecCfg} {tx : Tx} {w w' : World} (h : SameButBase w w') :
    SameRunBase (execute H cfg tx w) (execute H cfg tx w') := by
  have h0 : SameButBase (startWorld w) (startWorld w') := by
    obtain ⟨rng, calls, base, rfl, hr⟩ := h
    exact ⟨rng, calls, base, rfl, hr⟩
  have hp : w'.driver.pendingWrites = w.driver.pendingWrites := by
    obtain ⟨rng, calls, base, rfl, hr⟩ := h
    rfl
  unfold execute
  simp only [hp]
  split
  · exact ⟨rfl, h0⟩
  · have ht := tryBlock_sameRun (H := H) (cfg := cfg) (tx := tx) (m := tx.metering.getD cfg.metering)
      (snap := w.driver.pendingWrites) h0
    unfold startWorld at ht
    generalize tryBlock H cfg tx (tx.metering.getD cfg.metering) w.driver.pendingWrites
      { w with driver := w.driver.clearTxWrites.clearEvents } = r at ht
    generalize tryBlock H cfg tx (tx.metering.getD cfg.metering) w.driver.pendingWrites
      { w' with driver := w'.driver.clearTxWrites.clearEvents } = s at ht
    obtain ⟨o, v⟩ := r
    obtain ⟨o', v'⟩ := s
    obtain ⟨ho, hs⟩ := ht
    simp only at ho hs
    subst ho
    simp only
    have h1 : SameButBase { v with driver := v.driver.clearEvents.clearTxWrites, meter := v.meter.stop }
        { v' with driver := v'.driver.clearEvents.clearTxWrites, meter := v'.meter.stop } := by
      obtain ⟨rng, calls, base, rfl, hr⟩ := hs
      exact ⟨rng, calls, base, rfl, hr⟩
    generalize ({ v with driver := v.driver.clearEvents.clearTxWrites, meter := v.meter.stop } : World) = u at h1
    generalize ({ v' with driver := v'.driver.clearEvents.clearTxWrites, meter := v'.meter.stop } : World) = u' at h1
    have hu : stampsUsed tx u' = stampsUsed tx u := by
      obtain ⟨rng, calls, base, rfl, hr⟩ := h1
      rfl
    rw [hu]
    have hf : SameRunBase
        (if tx.metering.getD cfg.metering = true then chargeFee H cfg tx (stampsUsed tx u) o.writes u else (.ok o.writes, u))
        (if tx.metering.getD cfg.metering = true then chargeFee H cfg tx (stampsUsed tx u) o.writes u' else (.ok o.writes, u')) := by
      split
      · exact chargeFee_sameRun h1
      · exact ⟨rfl, h1⟩
    rcases hf.cases with ⟨e, a, b, ha, hb, hs⟩ | ⟨v, a, b, ha, hb, hs⟩
    · rw [ha, hb]; exact ⟨rfl, hs⟩
    · rw [ha, hb]
      obtain ⟨rng, calls, base, rfl, hr⟩ := hs
      exact ⟨rfl, rng, calls, base, rfl, fun h => by cases h⟩

end Verif
