import Verif.Proofs.Executor
import Verif.Spec.Context
/-! # The context stack against the lexical reference -/
namespace Verif

/-- Put another context into a world. -/
def World.inCtx (w : World) (b : Frame) : World := { w with base := b, stack := [] }

theorem inCtx_of_forget {w v : World} (h : v.forget = w.forget) (b : Frame) : v.inCtx b = w.inCtx b := by
  have : v.inCtx b = v.forget.inCtx b := rfl
  rw [this, h]; rfl

theorem Action.run_inCtx (H : Host) (a : Action) (w : World) :
    a.run H (w.inCtx w.current) = ((a.run H w).1, (a.run H w).2.inCtx w.current) := by
  have hc : (w.inCtx w.current).current = w.current := rfl
  cases a with
  | newLog ev ps =>
    simp only [Action.run]
    unfold Verif.newLog
    rw [hc]
    simp only
    split
    · rfl
    · split
      · rfl
      · split <;> rfl
  | emit l data =>
    simp only [Action.run]
    have hl : (w.inCtx w.current).logs = w.logs := rfl
    rw [hl]
    cases w.logs[l]? with
    | none => rfl
    | some lg =>
      simp only
      unfold emitEvent
      rw [hc]
      have hm : (w.inCtx w.current).meter = w.meter := rfl
      rw [hm]
      split
      · rfl
      · split
        · rfl
        · split
          · rfl
          · simp only
            split
            · rfl
            · split <;> rfl
  | seed salt =>
    simp only [Action.run]
    unfold doSeed
    have : (w.inCtx w.current).env = w.env := rfl
    rw [this]
    split <;> rfl
  | getrandbits k =>
    simp only [Action.run]
    unfold doGetrandbits
    have h1 : (w.inCtx w.current).seeded = w.seeded := rfl
    have h2 : (w.inCtx w.current).rng = w.rng := rfl
    rw [h1, h2]
    split
    · rfl
    · simp only
      split <;> rfl
  | draw q =>
    simp only [Action.run]
    unfold doDraw
    have h1 : (w.inCtx w.current).seeded = w.seeded := rfl
    rw [h1]
    split <;> rfl
  | _ => rfl

theorem Action.run_stack (H : Host) (a : Action) (w : World) : (a.run H w).2.stack = w.stack := by
  obtain ⟨-, h, -⟩ := Action.run_world H w a
  exact h

theorem forget_iff {w v : World} (h : v.forget = w.forget) : ∃ b s, v = { w with base := b, stack := s } := by
  obtain ⟨d1, m1, b1, s1, se1, r1, e1, l1, re1, lo1, h1⟩ := v
  obtain ⟨d2, m2, b2, s2, se2, r2, e2, l2, re2, lo2, h2⟩ := w
  simp only [World.forget, World.mk.injEq] at h
  obtain ⟨rfl, rfl, -, -, rfl, rfl, rfl, rfl, rfl, rfl, rfl⟩ := h
  exact ⟨b1, s1, rfl⟩

/-- The same result, and the same state up to the context. -/
def SameCtx {α : Type} (r s : α × World) : Prop := r.1 = s.1 ∧ r.2.forget = s.2.forget

theorem SameCtx.cases {α : Type} {r s : Except PyErr α × World} (h : SameCtx r s) :
    (∃ e w w', r = (.error e, w) ∧ s = (.error e, w') ∧ w.forget = w'.forget) ∨
    (∃ v w w', r = (.ok v, w) ∧ s = (.ok v, w') ∧ w.forget = w'.forget) := by
  obtain ⟨r1, w⟩ := r
  obtain ⟨s1, w'⟩ := s
  obtain ⟨h1, h2⟩ := h
  simp only at h1
  subst h1
  cases r1 with
  | error e => exact Or.inl ⟨e, w, w', rfl, rfl, h2⟩
  | ok v => exact Or.inr ⟨v, w, w', rfl, rfl, h2⟩

theorem lookup_ctx (H : Host) (name : Str) {w v : World} (h : v.forget = w.forget) : SameCtx (lookup H v name) (lookup H w name) := by
  obtain ⟨b, s, rfl⟩ := forget_iff h
  unfold lookup
  simp only
  split
  · exact ⟨rfl, rfl⟩
  · split
    · exact ⟨rfl, rfl⟩
    · split
      · exact ⟨rfl, rfl⟩
      · split
        · exact ⟨rfl, rfl⟩
        · split <;> exact ⟨rfl, rfl⟩

theorem fetchCompiled_ctx (name : Str) {w v : World} (h : v.forget = w.forget) :
    SameCtx (fetchCompiled v name) (fetchCompiled w name) := by
  obtain ⟨b, s, rfl⟩ := forget_iff h
  unfold fetchCompiled
  simp only
  split
  · exact ⟨rfl, rfl⟩
  · split <;> exact ⟨rfl, rfl⟩

theorem dynChecks_ctx (H : Host) (name : Str) {w v : World} (h : v.forget = w.forget) :
    SameCtx (dynChecks H v name) (dynChecks H w name) := by
  obtain ⟨b, s, rfl⟩ := forget_iff h
  unfold dynChecks
  simp only
  split
  · exact ⟨rfl, rfl⟩
  · split
    · exact ⟨rfl, rfl⟩
    · split
      · exact ⟨rfl, rfl⟩
      · split
        · exact ⟨rfl, rfl⟩
        · split
          · exact ⟨rfl, rfl⟩
          · split <;> exact ⟨rfl, rfl⟩

theorem restrictedCheck_ctx (H : Host) (name : Str) {w v : World} (h : v.forget = w.forget) :
    SameCtx (restrictedCheck H v name) (restrictedCheck H w name) := by
  have hl := lookup_ctx H name h
  unfold restrictedCheck
  have hr : v.restricted = w.restricted := by obtain ⟨b, s, rfl⟩ := forget_iff h; rfl
  rw [hr]
  split
  · rcases hl.cases with ⟨e, a, b, ha, hb, hs⟩ | ⟨f, a, b, ha, hb, hs⟩
    · rw [ha, hb]; exact ⟨rfl, hs⟩
    · rw [ha, hb]; cases f <;> exact ⟨rfl, hs⟩
  · exact ⟨rfl, h⟩

/-- Imports look at neither the base frame nor the stack. -/
theorem importStart_ctx (H : Host) (w v : World) (name : Str) (dyn : Bool) (h : v.forget = w.forget) :
    SameCtx (importStart H v name dyn) (importStart H w name dyn) := by
  unfold importStart
  have h1 : SameCtx (if dyn then dynChecks H v name else restrictedCheck H v name)
      (if dyn then dynChecks H w name else restrictedCheck H w name) := by
    cases dyn
    · exact restrictedCheck_ctx H name h
    · exact dynChecks_ctx H name h
  rcases h1.cases with ⟨e, a, b, ha, hb, hs⟩ | ⟨u, a, b, ha, hb, hs⟩
  · rw [ha, hb]; exact ⟨rfl, hs⟩
  · rw [ha, hb]
    simp only
    rcases (lookup_ctx H name hs).cases with ⟨e, c, d, hc, hd, hs⟩ | ⟨f, c, d, hc, hd, hs⟩
    · rw [hc, hd]; exact ⟨rfl, hs⟩
    · rw [hc, hd]
      cases f with
      | contract =>
        simp only
        rcases (fetchCompiled_ctx name hs).cases with ⟨e, c, d, hc, hd, hs⟩ | ⟨f, c, d, hc, hd, hs⟩
        · rw [hc, hd]; exact ⟨rfl, hs⟩
        · rw [hc, hd]; exact ⟨rfl, hs⟩
      | _ => exact ⟨rfl, hs⟩

/-- Every frame on the stack has a positive depth. -/
def World.Pos (w : World) : Prop := ∀ e ∈ w.stack, 1 ≤ e.2

theorem ownerRefuses_iff {owner : PyVal} {caller : Option Str} :
    ownerRefuses owner caller = true ↔ ¬ Spec.mayRun owner caller := by
  unfold ownerRefuses Spec.mayRun
  cases owner with
  | none => simp [PyVal.isNone]
  | str o =>
    cases caller with
    | none => simp [PyVal.isNone, ownerIs]
    | some c =>
      constructor
      · rintro h (h' | ⟨x, h1, h2⟩)
        · cases h'
        · cases h1; cases h2; simp [PyVal.isNone, ownerIs] at h
      · intro h
        have : o ≠ c := fun e => h (Or.inr ⟨o, rfl, by rw [e]⟩)
        simp [PyVal.isNone, ownerIs, this]
  | _ => cases caller <;> simp [PyVal.isNone, ownerIs]

theorem forget_driver {w v : World} (h : v.forget = w.forget) (d : Driver) :
    World.forget { v with driver := d } = World.forget { w with driver := d } := by
  have : World.forget { v with driver := d } = { v.forget with driver := d } := rfl
  rw [this, h]; rfl

theorem popState_pos {w : World} (h : w.Pos) : w.popState.Pos := by
  unfold World.popState
  split
  · exact h
  · rename_i f n s hs
    have h' : ∀ e ∈ s, 1 ≤ e.2 := fun e he => h e (by rw [hs]; exact List.mem_cons_of_mem _ he)
    split
    · exact h'
    · intro e he
      rcases List.mem_cons.1 he with rfl | he
      · simp only; omega
      · exact h' e he

theorem popState_forget (w : World) : w.popState.forget = w.forget := by
  obtain ⟨s, h⟩ := popState_frame w
  rw [h]; rfl

/-- A run in the machine with the context stack agrees with the lexical reference. -/
theorem Prog.run_lex {H : Host} : ∀ (p : Prog), p.NoCatch → ∀ (n : Nat), p.Nests n → ∀ (w v : World), v.forget = w.forget →
    w.Pos → w.stack.length + n ≤ 1024 →
    (p.run H w).1 = (Spec.runLex H p w.current v).1 ∧
    (p.run H w).2.forget = (Spec.runLex H p w.current v).2.forget ∧
    (∀ x, (p.run H w).1 = .ok x → (p.run H w).2.stack = w.stack ∧ (p.run H w).2.base = w.base) := by
  intro p
  induction p with
  | ret x => intro _ n _ w v hv _ _; exact ⟨rfl, hv.symm, fun _ _ => ⟨rfl, rfl⟩⟩
  | raise e => intro _ n _ w v hv _ _; exact ⟨rfl, hv.symm, fun _ h => by cases h⟩
  | act a k ih =>
    intro hn n hd w v hv hp hl
    simp only [Prog.run, Spec.runLex]
    have hc : ({ v with base := w.current, stack := [] } : World) = w.inCtx w.current := inCtx_of_forget hv _
    rw [hc, Action.run_inCtx]
    simp only
    have hst := Action.run_stack H a w
    obtain ⟨hb, -⟩ := Action.run_world H w a
    have hcur : (a.run H w).2.current = w.current := by unfold World.current; rw [hst, hb]
    have hfo : ((a.run H w).2.inCtx w.current).forget = (a.run H w).2.forget := rfl
    cases hr : (a.run H w).1 with
    | error e =>
      rw [hn.1 e]
      simp only [Prog.run, Spec.runLex]
      exact ⟨trivial, rfl, fun _ h => by cases h⟩
    | ok x =>
      have := ih (.ok x) (hn.2 x) n (hd _) (a.run H w).2 _ hfo (by unfold World.Pos; rw [hst]; exact hp) (by rw [hst]; exact hl)
      rw [hcur, hst, hb] at this
      exact this
  | call c body k ihb ihk =>
    intro hn n hd w v hv hp hl
    obtain ⟨hnb, hne, hnk⟩ := hn
    obtain ⟨hn0, hdb, hdk⟩ := hd
    have hvd : v.driver = w.driver := by obtain ⟨b, s, h⟩ := forget_iff hv; rw [h]
    simp only [Prog.run, Spec.runLex]
    unfold enter
    by_cases hx : w.current.this = some c
    · rw [if_neg (by simpa using hx), if_pos hx]
      simp only
      -- a call within the same contract
      have hins : w.insState.forget = w.forget := by unfold World.insState; split <;> rfl
      have hcur : w.insState.current = w.current := by
        unfold World.insState World.current
        cases hs : w.stack with
        | nil => simp only [hs]
        | cons e s => rfl
      have hpos : w.insState.Pos := by
        unfold World.insState
        split
        · exact hp
        · rename_i f m s hs
          intro e he
          rcases List.mem_cons.1 he with rfl | he
          · simp only; omega
          · exact hp e (by rw [hs]; exact List.mem_cons_of_mem _ he)
      have hlen : w.insState.stack.length = w.stack.length := by
        unfold World.insState
        split <;> simp_all
      have hback : ∀ u : World, u.stack = w.insState.stack → u.popState.stack = w.stack := by
        intro u hu
        unfold World.popState
        rw [hu]
        unfold World.insState
        cases hs : w.stack with
        | nil =>
          simp only [hs]
          rw [hu]
          unfold World.insState
          rw [hs]
          exact hs
        | cons e s =>
          obtain ⟨f, m⟩ := e
          have : 1 ≤ m := hp (f, m) (by rw [hs]; exact List.mem_cons_self)
          simp only
          rw [if_neg (by omega)]
          simp
      obtain ⟨b1, b2, b3⟩ := ihb hnb (n - 1) hdb w.insState v (by rw [hins]; exact hv) hpos (by rw [hlen]; omega)
      rw [hcur] at b1 b2
      rw [← b1]
      cases hr : (body.run H w.insState).1 with
      | error e =>
        rw [hne e]
        simp only [Prog.run, Spec.runLex]
        exact ⟨trivial, by rw [popState_forget]; exact b2, fun _ h => by cases h⟩
      | ok x =>
        obtain ⟨s1, s2⟩ := b3 x hr
        have hb0 : w.insState.base = w.base := by unfold World.insState; split <;> rfl
        have hs' := hback _ s1
        have hbase : (body.run H w.insState).2.popState.base = w.base := by
          obtain ⟨s, h⟩ := popState_frame (body.run H w.insState).2
          rw [h]; exact s2.trans hb0
        have hcur2 : (body.run H w.insState).2.popState.current = w.current := by
          unfold World.current; rw [hs', hbase]
        have := ihk (.ok x) (hnk x) n (hdk _) (body.run H w.insState).2.popState _
          (b2.symm.trans (popState_forget _).symm) (by unfold World.Pos; rw [hs']; exact hp) (by rw [hs']; exact hl)
        rw [hcur2, hs', hbase] at this
        exact this
    · rw [if_pos (by simpa using hx), if_neg hx, hvd]
      cases hg : w.driver.getOwner c with
      | mk r d =>
        cases r with
        | error e =>
          simp only
          rw [hne e]
          simp only [Prog.run, Spec.runLex]
          exact ⟨trivial, (forget_driver hv d).symm, fun _ h => by cases h⟩
        | ok owner =>
          simp only
          have hadd : World.addState { w with driver := d }
              { owner := owner, caller := w.current.this, signer := w.current.signer, this := some c, entry := w.current.entry,
                submission := w.current.submission } =
              { w with driver := d, stack := (Spec.callee w.current c owner, 1) :: w.stack } := by
            unfold World.addState
            rw [if_pos]
            · rfl
            · refine ⟨hx, ?_⟩
              simp only [World.maxFrames]; omega
          rw [hadd]
          by_cases ho : Spec.mayRun owner w.current.this
          · rw [if_pos ho, if_neg (by rw [ownerRefuses_iff]; exact fun h => h ho)]
            simp only
            obtain ⟨b1, b2, b3⟩ := ihb hnb (n - 1) hdb { w with driver := d, stack := (Spec.callee w.current c owner, 1) :: w.stack }
              { v with driver := d } (forget_driver hv d)
              (by
                intro e he
                rcases List.mem_cons.1 he with rfl | he
                · exact Nat.le_refl _
                · exact hp e he)
              (by simp only [List.length_cons]; omega)
            have hcc : World.current { w with driver := d, stack := (Spec.callee w.current c owner, 1) :: w.stack } =
                Spec.callee w.current c owner := rfl
            rw [hcc] at b1 b2
            rw [← b1]
            generalize hR : body.run H { w with driver := d, stack := (Spec.callee w.current c owner, 1) :: w.stack } = R at *
            cases hr : R.1 with
            | error e =>
              rw [hne e]
              simp only [Prog.run, Spec.runLex]
              exact ⟨trivial, by rw [popState_forget]; exact b2, fun _ h => by cases h⟩
            | ok x =>
              obtain ⟨s1, s2⟩ := b3 x hr
              have hs' : R.2.popState.stack = w.stack := by
                unfold World.popState
                rw [s1]
                rfl
              have hbase : R.2.popState.base = w.base := by
                obtain ⟨s, h⟩ := popState_frame R.2
                rw [h]; exact s2
              have hcur2 : R.2.popState.current = w.current := by
                unfold World.current; rw [hs', hbase]
              have := ihk (.ok x) (hnk x) n (hdk _) R.2.popState _
                (b2.symm.trans (popState_forget _).symm) (by unfold World.Pos; rw [hs']; exact hp) (by rw [hs']; exact hl)
              rw [hcur2, hs', hbase] at this
              exact this
          · rw [if_neg ho, if_pos (by rw [ownerRefuses_iff]; exact ho)]
            simp only
            rw [hne]
            simp only [Prog.run, Spec.runLex]
            exact ⟨trivial, (forget_driver hv d).symm, fun _ h => by cases h⟩
  | load name dyn body k ihb ihk =>
    intro hn n hd w v hv hp hl
    obtain ⟨hnb, hne, hnk⟩ := hn
    obtain ⟨hdb, hdk⟩ := hd
    simp only [Prog.run, Spec.runLex]
    obtain ⟨i1, i2⟩ : _ ∧ _ := importStart_ctx H w v name dyn hv
    obtain ⟨r, hfr⟩ := importStart_frame H w name dyn
    have hst : (importStart H w name dyn).2.stack = w.stack := by rw [hfr]
    have hba : (importStart H w name dyn).2.base = w.base := by rw [hfr]
    have hcu : (importStart H w name dyn).2.current = w.current := by unfold World.current; rw [hst, hba]
    cases ha : importStart H v name dyn with
    | mk r v1 =>
      cases hb : importStart H w name dyn with
      | mk s w1 =>
        rw [ha, hb] at i1 i2
        rw [hb] at hst hba hcu
        simp only at i1 i2 hst hba hcu
        subst i1
        have go : ∀ x, (∀ e, x ≠ Except.error e) → ∀ (w2 v2 : World), v2.forget = w2.forget → w2.stack = w.stack → w2.base = w.base →
            ((k x).run H w2).1 = (Spec.runLex H (k x) w.current v2).1 ∧
            ((k x).run H w2).2.forget = (Spec.runLex H (k x) w.current v2).2.forget ∧
            (∀ y, ((k x).run H w2).1 = .ok y → ((k x).run H w2).2.stack = w.stack ∧ ((k x).run H w2).2.base = w.base) := by
          intro x hxe w2 v2 hf h1 h2
          cases x with
          | error e => exact absurd rfl (hxe e)
          | ok y =>
            have hc2 : w2.current = w.current := by unfold World.current; rw [h1, h2]
            have := ihk (.ok y) (hnk y) n (hdk _) w2 v2 hf (by unfold World.Pos; rw [h1]; exact hp) (by rw [h1]; exact hl)
            rw [hc2, h1, h2] at this
            exact this
        have goe : ∀ e (w2 v2 : World), v2.forget = w2.forget →
            ((k (.error e)).run H w2).1 = (Spec.runLex H (k (.error e)) w.current v2).1 ∧
            ((k (.error e)).run H w2).2.forget = (Spec.runLex H (k (.error e)) w.current v2).2.forget ∧
            (∀ y, ((k (.error e)).run H w2).1 = .ok y →
              ((k (.error e)).run H w2).2.stack = w.stack ∧ ((k (.error e)).run H w2).2.base = w.base) := by
          intro e w2 v2 hf
          rw [hne e]
          exact ⟨rfl, hf.symm, fun _ h => by cases h⟩
        cases r with
        | error e => exact goe e w1 v1 i2
        | ok f =>
          cases f with
          | missing => exact goe _ w1 v1 i2
          | host => exact go _ (fun e h => by cases h) w1 v1 i2 hst hba
          | loaded => exact go _ (fun e h => by cases h) w1 v1 i2 hst hba
          | contract =>
            simp only
            obtain ⟨b1, b2, b3⟩ := ihb hnb n hdb w1 v1 i2 (by unfold World.Pos; rw [hst]; exact hp) (by rw [hst]; exact hl)
            rw [hcu] at b1 b2
            cases hc : body.run H w1 with
            | mk r w2 =>
              cases hd : Spec.runLex H body w.current v1 with
              | mk s v2 =>
                rw [hc, hd] at b1 b2
                rw [hc] at b3
                simp only at b1 b2 b3
                subst b1
                cases r with
                | error e => exact goe e w2 v2 b2.symm
                | ok x =>
                  obtain ⟨s1, s2⟩ := b3 x rfl
                  refine go _ (fun e h => by cases h) (w2.addLoaded name) (v2.addLoaded name) ?_ (s1.trans hst) (s2.trans hba)
                  have h1 : (v2.addLoaded name).forget = v2.forget.addLoaded name := rfl
                  rw [h1, ← b2]; rfl

/-! ### Counting the context units -/

/-- Sum of the depths on the stack. -/
def World.units (w : World) : Nat := (w.stack.map fun e => e.2).sum

theorem units_zero {w : World} (hp : w.Pos) (h : w.units = 0) : w.stack = [] := by
  unfold World.units at h
  cases hs : w.stack with
  | nil => rfl
  | cons e s =>
    rw [hs] at h
    have := hp e (by rw [hs]; exact List.mem_cons_self)
    simp at h
    omega

theorem popState_units {w : World} (hp : w.Pos) : w.popState.units = w.units - 1 := by
  unfold World.popState
  split
  · rename_i h; unfold World.units; rw [h]; rfl
  · rename_i f n s hs
    have : 1 ≤ n := hp (f, n) (by rw [hs]; exact List.mem_cons_self)
    split
    · unfold World.units; rw [hs]; simp; omega
    · unfold World.units; rw [hs]; simp; omega

theorem enter_units {c : Str} {w : World} (hp : w.Pos) :
    (enter c w).2.Pos ∧ (enter c w).2.units ≤ w.units + 1 := by
  unfold enter
  split
  · cases hg : w.driver.getOwner c with
    | mk r d =>
      cases r with
      | error e => exact ⟨hp, Nat.le_succ _⟩
      | ok owner =>
        simp only
        have hadd : ∀ f, (World.addState { w with driver := d } f).Pos ∧ (World.addState { w with driver := d } f).units ≤ w.units + 1 := by
          intro f
          unfold World.addState
          split
          · refine ⟨fun e he => ?_, ?_⟩
            · rcases List.mem_cons.1 he with rfl | he
              · exact Nat.le_refl _
              · exact hp e he
            · unfold World.units; simp; omega
          · exact ⟨hp, Nat.le_succ _⟩
        split <;> exact hadd _
  · unfold World.insState
    split
    · exact ⟨hp, Nat.le_succ _⟩
    · rename_i f n s hs
      refine ⟨fun e he => ?_, ?_⟩
      · rcases List.mem_cons.1 he with rfl | he
        · simp only; omega
        · exact hp e (by rw [hs]; exact List.mem_cons_of_mem _ he)
      · unfold World.units; rw [hs]; simp; omega

/-- 1 for an exception, 0 for a value. -/
def slack : Except PyErr PyVal → Nat
  | .ok _ => 0
  | .error _ => 1

/-- An exception leaves at most one unit too many on the stack; a normal end leaves none. -/
theorem Prog.run_units {H : Host} : ∀ (p : Prog), p.NoCatch → ∀ (w : World), w.Pos →
    (p.run H w).2.Pos ∧ (p.run H w).2.units ≤ w.units + slack (p.run H w).1 := by
  intro p
  induction p with
  | ret x => intro _ w hp; exact ⟨hp, Nat.le_refl _⟩
  | raise e => intro _ w hp; exact ⟨hp, Nat.le_succ _⟩
  | act a k ih =>
    intro hn w hp
    simp only [Prog.run]
    have hst := Action.run_stack H a w
    have hu : (a.run H w).2.units = w.units := by unfold World.units; rw [hst]
    have hp' : (a.run H w).2.Pos := by unfold World.Pos; rw [hst]; exact hp
    cases hr : (a.run H w).1 with
    | error e => rw [hn.1 e]; exact ⟨hp', by rw [← hu]; exact Nat.le_succ _⟩
    | ok x => rw [← hu]; exact ih _ (hn.2 x) _ hp'
  | call c body k ihb ihk =>
    intro hn w hp
    obtain ⟨hnb, hne, hnk⟩ := hn
    simp only [Prog.run]
    obtain ⟨e1, e2⟩ := enter_units (c := c) hp
    cases he : enter c w with
    | mk r w1 =>
      rw [he] at e1 e2
      simp only at e1 e2
      cases r with
      | error e =>
        simp only
        rw [hne e]
        exact ⟨e1, e2⟩
      | ok u =>
        simp only
        obtain ⟨b1, b2⟩ := ihb hnb w1 e1
        have p1 := popState_pos b1
        have p2 := popState_units b1
        generalize body.run H w1 = R at *
        cases hr : R.1 with
        | error e =>
          rw [hne e]
          simp only [hr] at b2
          refine ⟨p1, ?_⟩
          simp only [Prog.run]
          rw [p2]
          simp only [slack] at b2 ⊢
          omega
        | ok x =>
          obtain ⟨k1, k2⟩ := ihk (.ok x) (hnk x) R.2.popState p1
          refine ⟨k1, le_trans k2 ?_⟩
          rw [p2]
          simp only [hr, slack] at b2 ⊢
          omega
  | load name dyn body k ihb ihk =>
    intro hn w hp
    obtain ⟨hnb, hne, hnk⟩ := hn
    simp only [Prog.run]
    obtain ⟨r, hfr⟩ := importStart_frame H w name dyn
    have hst : (importStart H w name dyn).2.stack = w.stack := by rw [hfr]
    cases hi : importStart H w name dyn with
    | mk r w1 =>
      rw [hi] at hst
      simp only at hst
      have hu : w1.units = w.units := by unfold World.units; rw [hst]
      have hp' : w1.Pos := by unfold World.Pos; rw [hst]; exact hp
      cases r with
      | error e =>
        simp only
        rw [hne e]
        exact ⟨hp', by rw [← hu]; exact Nat.le_succ _⟩
      | ok f =>
        cases f with
        | missing =>
          simp only
          rw [hne]
          exact ⟨hp', by rw [← hu]; exact Nat.le_succ _⟩
        | host => rw [← hu]; exact ihk _ (hnk _) _ hp'
        | loaded => rw [← hu]; exact ihk _ (hnk _) _ hp'
        | contract =>
          simp only
          obtain ⟨b1, b2⟩ := ihb hnb w1 hp'
          cases hb : body.run H w1 with
          | mk r w2 =>
            rw [hb] at b1 b2
            simp only at b1 b2
            cases r with
            | error e =>
              simp only
              rw [hne e]
              refine ⟨b1, ?_⟩
              simp only [slack, Prog.run] at b2 ⊢
              omega
            | ok x =>
              simp only
              have h3 : (w2.addLoaded name).units = w2.units := rfl
              obtain ⟨k1, k2⟩ := ihk (.ok .none) (hnk _) (w2.addLoaded name) b1
              refine ⟨k1, le_trans k2 ?_⟩
              simp only [slack] at b2 ⊢
              omega

/-- If no call is refused, no unit is left on the stack, however the program ends. -/
theorem Prog.run_units_unrefused {H : Host} : ∀ (p : Prog), p.NoCatch → ∀ (w : World), w.Pos →
    (∀ x ∈ Spec.events H p w, ¬ Spec.Refused x) →
    (p.run H w).2.Pos ∧ (p.run H w).2.units ≤ w.units := by
  intro p
  induction p with
  | ret x => intro _ w hp _; exact ⟨hp, Nat.le_refl _⟩
  | raise e => intro _ w hp _; exact ⟨hp, Nat.le_refl _⟩
  | act a k ih =>
    intro hn w hp hnr
    simp only [Prog.run]
    have hst := Action.run_stack H a w
    have hu : (a.run H w).2.units = w.units := by unfold World.units; rw [hst]
    have hp' : (a.run H w).2.Pos := by unfold World.Pos; rw [hst]; exact hp
    cases hr : (a.run H w).1 with
    | error e => rw [hn.1 e]; exact ⟨hp', by rw [← hu]; exact Nat.le_refl _⟩
    | ok x =>
      rw [← hu]
      exact ih _ (hn.2 x) _ hp' (fun y hy => hnr y (by simp only [Spec.events, hr]; exact List.mem_cons_of_mem _ hy))
  | call c body k ihb ihk =>
    intro hn w hp hnr
    obtain ⟨hnb, hne, hnk⟩ := hn
    simp only [Prog.run]
    obtain ⟨e1, e2⟩ := enter_units (c := c) hp
    cases he : enter c w with
    | mk r w1 =>
      rw [he] at e1 e2
      simp only at e1 e2
      cases r with
      | error e =>
        exact absurd ⟨c, e, rfl, by rw [he]⟩ (hnr (w, .enter c) (by simp only [Spec.events]; exact List.mem_cons_self))
      | ok u =>
        simp only
        have hev : Spec.events H (.call c body k) w = (w, .enter c) :: (Spec.events H body w1 ++ ((body.run H w1).2, .exit) ::
            Spec.events H (k (body.run H w1).1) (body.run H w1).2.popState) := by simp only [Spec.events, he]
        obtain ⟨b1, b2⟩ := ihb hnb w1 e1 (fun y hy => hnr y (by rw [hev]; simp [hy]))
        have p1 := popState_pos b1
        have p2 := popState_units b1
        generalize body.run H w1 = R at *
        cases hr : R.1 with
        | error e =>
          rw [hne e]
          refine ⟨p1, ?_⟩
          simp only [Prog.run]
          rw [p2]
          omega
        | ok x =>
          obtain ⟨k1, k2⟩ := ihk (.ok x) (hnk x) R.2.popState p1 (fun y hy => hnr y (by rw [hev, hr]; simp [hy]))
          refine ⟨k1, le_trans k2 ?_⟩
          rw [p2]
          omega
  | load name dyn body k ihb ihk =>
    intro hn w hp hnr
    obtain ⟨hnb, hne, hnk⟩ := hn
    simp only [Prog.run]
    obtain ⟨r, hfr⟩ := importStart_frame H w name dyn
    have hst : (importStart H w name dyn).2.stack = w.stack := by rw [hfr]
    cases hi : importStart H w name dyn with
    | mk r w1 =>
      rw [hi] at hst
      simp only at hst
      have hu : w1.units = w.units := by unfold World.units; rw [hst]
      have hp' : w1.Pos := by unfold World.Pos; rw [hst]; exact hp
      cases r with
      | error e =>
        simp only
        rw [hne e]
        exact ⟨hp', by rw [← hu]; exact Nat.le_refl _⟩
      | ok f =>
        cases f with
        | missing =>
          simp only
          rw [hne]
          exact ⟨hp', by rw [← hu]; exact Nat.le_refl _⟩
        | host => rw [← hu]; exact ihk _ (hnk _) _ hp' (fun y hy => hnr y (by simp only [Spec.events, hi]; exact List.mem_cons_of_mem _ hy))
        | loaded => rw [← hu]; exact ihk _ (hnk _) _ hp' (fun y hy => hnr y (by simp only [Spec.events, hi]; exact List.mem_cons_of_mem _ hy))
        | contract =>
          simp only
          obtain ⟨b1, b2⟩ := ihb hnb w1 hp' (fun y hy => hnr y (by
            simp only [Spec.events, hi]; exact List.mem_cons_of_mem _ (List.mem_append_left _ hy)))
          cases hb : body.run H w1 with
          | mk r w2 =>
            rw [hb] at b1 b2
            simp only at b1 b2
            cases r with
            | error e =>
              simp only
              rw [hne e]
              refine ⟨b1, ?_⟩
              simp only [Prog.run] at b2 ⊢
              omega
            | ok x =>
              simp only
              have h3 : (w2.addLoaded name).units = w2.units := rfl
              obtain ⟨k1, k2⟩ := ihk (.ok .none) (hnk _) (w2.addLoaded name) b1 (fun y hy => hnr y (by
                simp only [Spec.events, hi, hb]
                exact List.mem_cons_of_mem _ (List.mem_append_right _ (List.mem_cons_of_mem _ hy))))
              exact ⟨k1, le_trans k2 (by omega)⟩

theorem Prog.run_nocalls_stack {H : Host} : ∀ (p : Prog), p.NoCalls → ∀ w : World, (p.run H w).2.stack = w.stack := by
  intro p
  induction p with
  | ret x => intro _ w; rfl
  | raise e => intro _ w; rfl
  | act a k ih => intro hn w; simp only [Prog.run]; rw [ih _ (hn _)]; exact Action.run_stack H a w
  | call c body k _ _ => intro hn; exact absurd hn (by simp [Prog.NoCalls])
  | load name dyn body k ihb ihk =>
    intro hn w
    simp only [Prog.run]
    obtain ⟨r, hfr⟩ := importStart_frame H w name dyn
    have hst : (importStart H w name dyn).2.stack = w.stack := by rw [hfr]
    cases hi : importStart H w name dyn with
    | mk r w1 =>
      rw [hi] at hst
      simp only at hst
      cases r with
      | error e => simp only; rw [ihk _ (hn.2 _)]; exact hst
      | ok f =>
        cases f with
        | missing => simp only; rw [ihk _ (hn.2 _)]; exact hst
        | host => simp only; rw [ihk _ (hn.2 _)]; exact hst
        | loaded => simp only; rw [ihk _ (hn.2 _)]; exact hst
        | contract =>
          simp only
          have hb := ihb hn.1 w1
          cases hbr : body.run H w1 with
          | mk r w2 =>
            rw [hbr] at hb
            simp only at hb
            cases r with
            | error e => simp only; rw [ihk _ (hn.2 _)]; exact hb.trans hst
            | ok x => simp only; rw [ihk _ (hn.2 _)]; exact hb.trans hst

end Verif

namespace Verif

/-- executor.py:72-115: everything before the function is looked up. -/
def attemptPre (H : Host) (cfg : ExecCfg) (tx : Tx) (metering : Bool) (w : World) : Except PyErr Bool × World :=
  match (if metering then checkFunds cfg tx w else (.ok (), w)) with
  | (.error e, w) => (.error e, w)
  | (.ok _, w) =>
    match setBase tx { w with env := Dict.update w.env tx.environment } with
    | (.error e, w) => (.error e, w)
    | (.ok _, w) => loadEntry H tx w

theorem attempt_pre (H : Host) (cfg : ExecCfg) (tx : Tx) (m : Bool) (w : World) :
    attempt H cfg tx m w = match attemptPre H cfg tx m w with
      | (.error e, w) => (.error e, w)
      | (.ok host, w) => invoke H tx m host w := by
  unfold attempt attemptPre
  cases (if m then checkFunds cfg tx w else (.ok (), w)) with
  | mk r w1 =>
    cases r with
    | error e => rfl
    | ok u =>
      simp only
      cases setBase tx { w1 with env := Dict.update w1.env tx.environment } with
      | mk r w2 =>
        cases r with
        | error e => rfl
        | ok u => rfl

theorem loadEntry_rel {H : Host} {tx : Tx} {R : World → World → Prop} (htrans : ∀ a b c, R a b → R b c → R a c)
    (hreads : ∀ w r, R w { w with driver := { w.driver with pendingReads := r } })
    (hloaded : ∀ w : World, ∀ name, R w (w.addLoaded name))
    (htop : ∀ w, R w (tx.code.top.run H w).2) (w2 : World) : R w2 (loadEntry H tx w2).2 := by
  have honly : ∀ w w', OnlyReads w w' → R w w' := by rintro w _ ⟨r, rfl⟩; exact hreads w r
  unfold loadEntry
  have hl := honly _ _ (lookup_frame H w2 tx.contract)
  cases hlk : lookup H w2 tx.contract with
  | mk r w3 =>
    rw [hlk] at hl
    cases r with
    | error e => exact hl
    | ok f =>
      cases f with
      | contract =>
        simp only
        have hf := honly _ _ (fetchCompiled_frame w3 tx.contract)
        cases hfc : fetchCompiled w3 tx.contract with
        | mk r w4 =>
          rw [hfc] at hf
          cases r with
          | error e => exact htrans _ _ _ hl hf
          | ok u =>
            simp only
            have ht := htop w4
            cases htr : tx.code.top.run H w4 with
            | mk r w5 =>
              rw [htr] at ht
              cases r with
              | error e => exact htrans _ _ _ hl (htrans _ _ _ hf ht)
              | ok v => exact htrans _ _ _ hl (htrans _ _ _ hf (htrans _ _ _ ht (hloaded _ _)))
      | _ => exact hl

/-- After the prelude, the base frame is the transaction's. -/
theorem attemptPre_base {H : Host} {cfg : ExecCfg} {tx : Tx} {m host : Bool} {w w1 : World}
    (h : attemptPre H cfg tx m w = (.ok host, w1)) : ∃ owner, w1.base = Spec.entryFrame tx owner .none := by
  unfold attemptPre at h
  cases hc : (if m then checkFunds cfg tx w else (.ok (), w)) with
  | mk r v =>
    rw [hc] at h
    cases r with
    | error e => cases h
    | ok u =>
      simp only at h
      cases hb : setBase tx { v with env := Dict.update v.env tx.environment } with
      | mk r v2 =>
        rw [hb] at h
        cases r with
        | error e => cases h
        | ok u =>
          simp only at h
          have hbase : ∃ owner, v2.base = Spec.entryFrame tx owner .none := by
            unfold setBase at hb
            simp only at hb
            split at hb
            · cases hb
            · rename_i owner d _
              split at hb
              · cases hb
              · cases hb; exact ⟨owner, rfl⟩
          have hl : v2.base = (loadEntry H tx v2).2.base :=
            loadEntry_rel (H := H) (tx := tx) (R := fun a b => a.base = b.base) (fun _ _ _ h h' => h.trans h')
              (fun _ _ => rfl) (fun _ _ => rfl) (fun w => (Prog.run_outside H tx.code.top w).2.2.2.1.symm) v2
          rw [h] at hl
          rw [← hl]
          exact hbase

theorem attemptPre_stack {H : Host} {cfg : ExecCfg} {tx : Tx} {m : Bool} {w : World}
    (ht : ∀ w : World, w.stack = [] → (tx.code.top.run H w).2.stack = []) (hw0 : w.stack = []) :
    (attemptPre H cfg tx m w).2.stack = w.stack := by
  unfold attemptPre
  have h1 : (if m then checkFunds cfg tx w else (.ok (), w)).2.stack = w.stack := by
    cases m
    · rfl
    · obtain ⟨r, h⟩ := checkFunds_frame cfg tx w
      rw [if_pos rfl, h]
  cases hc : (if m then checkFunds cfg tx w else (.ok (), w)) with
  | mk r v =>
    rw [hc] at h1
    simp only at h1
    cases r with
    | error e => exact h1
    | ok u =>
      simp only
      obtain ⟨r, b, hb⟩ := setBase_frame tx { v with env := Dict.update v.env tx.environment }
      cases hs : setBase tx { v with env := Dict.update v.env tx.environment } with
      | mk r v2 =>
        rw [hs] at hb
        simp only at hb
        have h2 : v2.stack = w.stack := by rw [hb]; exact h1
        cases r with
        | error e => exact h2
        | ok u =>
          simp only
          have hl : v2.stack = [] → (loadEntry H tx v2).2.stack = [] :=
            loadEntry_rel (H := H) (tx := tx) (R := fun a b => a.stack = [] → b.stack = []) (fun _ _ _ h h' => fun x => h' (h x))
              (fun _ _ => id) (fun _ _ => id) ht v2
          rw [hw0] at h2 ⊢
          exact hl h2

/-- Outside the attempt, `execute` leaves the stack alone. -/
theorem execute_stack (H : Host) (cfg : ExecCfg) (tx : Tx) (w : World) :
    (execute H cfg tx w).2.stack = w.stack ∨
    (execute H cfg tx w).2.stack = (attempt H cfg tx (tx.metered cfg) (startWorld w)).2.stack := by
  have ht : ∀ m snap w, (tryBlock H cfg tx m snap w).2.stack = (attempt H cfg tx m w).2.stack := by
    intro m snap w
    unfold tryBlock
    cases attempt H cfg tx m w with
    | mk r w1 =>
      cases r with
      | error e => rfl
      | ok v =>
        simp only
        split
        · split <;> rfl
        · rfl
  have hf : ∀ used writes w, (chargeFee H cfg tx used writes w).2.stack = w.stack := by
    intro used writes w
    unfold chargeFee
    split
    · rfl
    · simp only
      split
      · rfl
      · split
        · rfl
        · split
          · rfl
          · split
            · split <;> rfl
            · rfl
  unfold execute
  simp only
  split
  · exact Or.inl rfl
  · right
    have h1 := ht (tx.metering.getD cfg.metering) w.driver.pendingWrites (startWorld w)
    unfold startWorld at h1 ⊢
    unfold Tx.metered
    rw [← h1]
    generalize tryBlock H cfg tx (tx.metering.getD cfg.metering) w.driver.pendingWrites
      { w with driver := w.driver.clearTxWrites.clearEvents } = t
    have h2 := hf (stampsUsed tx { t.2 with driver := t.2.driver.clearEvents.clearTxWrites, meter := t.2.meter.stop }) t.1.writes
      { t.2 with driver := t.2.driver.clearEvents.clearTxWrites, meter := t.2.meter.stop }
    cases hm : tx.metering.getD cfg.metering with
    | false => rfl
    | true =>
      simp only [if_true]
      split
      · rename_i heq; rw [heq] at h2; exact h2
      · rename_i heq; rw [heq] at h2; exact h2

end Verif
