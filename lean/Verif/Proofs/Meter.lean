import Verif.Proofs.Executor
/-! # Exact accounting of metered work -/
namespace Verif

/-- What an accepted metered operation charged. -/
structure Charged (m m' : Meter) (bytes lines : Nat) : Prop where
  cost : m'.cost = m.cost + 25 * bytes + lines
  writes : m'.writes = m.writes + bytes
  started : m'.started = true
  supplied : m'.supplied = m.supplied

theorem Charged.zero {m : Meter} (h : m.started = true) : Charged m m 0 0 := ⟨rfl, rfl, h, rfl⟩

theorem Charged.trans {a b c : Meter} {x y x' y' : Nat} (h : Charged a b x y) (h' : Charged b c x' y') :
    Charged a c (x + x') (y + y') :=
  ⟨by rw [h'.cost, h.cost]; ring, by rw [h'.writes, h.writes]; ring, h'.started, h'.supplied.trans h.supplied⟩

theorem deductWrite_charged {m m' : Meter} {n : Nat} (hs : m.started = true) (hw : Spec.Within m)
    (h : m.deductWrite n = (.ok (), m')) : Charged m m' n 0 ∧ Spec.Within m' := by
  unfold Meter.deductWrite at h
  rw [if_pos hs] at h
  simp only at h
  split at h
  · rename_i hlt
    unfold Meter.addCost at h
    simp only at h
    split at h
    · cases h
    · rename_i hno
      cases h
      push Not at hno
      refine ⟨⟨?_, rfl, hs, rfl⟩, ⟨hno.1, ?_, ?_, hw.2.2.2⟩⟩
      · simp only; ring
      · have := hno.2; simpa [maxStamps] using this
      · simpa [writeMax] using hlt
  · cases h

theorem set_charged {m m' : Meter} {d d' : Driver} {k : Str} {v : PyVal} {txn : Bool} (hs : m.started = true)
    (hw : Spec.Within m) (h : d.set m k v txn = (.ok (), m', d')) :
    Charged m m' (utf8Len k + Spec.textLen v) 0 ∧ Spec.Within m' := by
  obtain ⟨_, _, ⟨t, he, hd⟩, _⟩ := Driver.set_ok h
  have : Spec.textLen v = t.length := by unfold Spec.textLen; rw [he]; rfl
  rw [this]
  exact deductWrite_charged hs hw hd

theorem line_charged {m m' : Meter} {c : Bool} {op mem : Nat} (hs : m.started = true)
    (h : m.line c op mem = (.ok (), m')) (hw : Spec.Within m) :
    Charged m m' 0 (if c then op else 0) ∧ Spec.Within m' ∧ m'.calls = m.calls + 1 := by
  unfold Meter.line at h
  rw [if_pos hs] at h
  simp only at h
  split at h
  · cases h
  · rename_i hcalls
    have hcalls' : m.calls + 1 ≤ 800000 := by simpa [maxCallCount] using hcalls
    split at h
    · rename_i hc
      generalize (if m.lastMem = 0 then mem else m.lastMem) = last at h
      split at h
      · cases h
      · split at h
        · cases h
        · rename_i hno
          cases h
          push Not at hno
          have h2 := hno.2
          simp only [maxStamps] at h2
          refine ⟨⟨?_, rfl, hs, rfl⟩, ⟨hno.1, h2, hw.2.2.1, hcalls'⟩, rfl⟩
          simp only [hc, if_true]; ring
    · rename_i hc
      cases h
      refine ⟨⟨?_, rfl, hs, rfl⟩, ⟨hw.1, hw.2.1, hw.2.2.1, hcalls'⟩, rfl⟩
      rw [if_neg hc]
      simp only [Nat.mul_zero, Nat.add_zero]

theorem textLen_none : Spec.textLen .none = 4 := rfl

theorem deleteKeys_charged (ks : List Str) : ∀ {m m' : Meter} {d d' : Driver}, m.started = true → Spec.Within m →
    deleteKeys m d ks = (.ok (), m', d') → Charged m m' ((ks.map fun k => utf8Len k + 4).sum) 0 ∧ Spec.Within m' := by
  induction ks with
  | nil => intro m m' d d' hs hw h; cases h; exact ⟨Charged.zero hs, hw⟩
  | cons k ks ih =>
    intro m m' d d' hs hw h
    unfold deleteKeys at h
    cases hd : d.delete m k with
    | mk r md =>
      obtain ⟨m1, d1⟩ := md
      rw [hd] at h
      cases r with
      | error e => cases h
      | ok u =>
        have h1 := set_charged hs hw (show d.set m k .none false = _ from hd)
        rw [textLen_none] at h1
        have h2 := ih h1.1.started h1.2 h
        exact ⟨h1.1.trans h2.1, h2.2⟩

theorem chargeArgs_charged (ps : List (Str × PyVal)) : ∀ {m m' : Meter}, m.started = true → Spec.Within m →
    chargeArgs m ps = (.ok (), m') →
    Charged m m' ((ps.map fun p => utf8Len p.1 + Spec.textLen p.2).sum) 0 ∧ Spec.Within m' := by
  induction ps with
  | nil => intro m m' hs hw h; cases h; exact ⟨Charged.zero hs, hw⟩
  | cons p ps ih =>
    intro m m' hs hw h
    obtain ⟨k, v⟩ := p
    unfold chargeArgs at h
    cases he : encode v with
    | error e => rw [he] at h; cases h
    | ok t =>
      rw [he] at h
      simp only at h
      have ht : Spec.textLen v = t.length := by unfold Spec.textLen; rw [he]; rfl
      cases hd : m.deductWrite (utf8Len k + t.length) with
      | mk r m1 =>
        rw [hd] at h
        cases r with
        | error e => cases h
        | ok u =>
          have h1 := deductWrite_charged hs hw hd
          have h2 := ih h1.1.started h1.2 h
          rw [← ht] at h1
          exact ⟨h1.1.trans h2.1, h2.2⟩

/-- The arguments of an event, split by the `idx` flag, are all the declared ones. -/
theorem selectArgs_sum (params : Dict Str Param) (data : Dict Str PyVal) (f : Str × PyVal → Nat) :
    ((selectArgs params data true).map f).sum + ((selectArgs params data false).map f).sum =
      (params.map fun p => match Dict.get? data p.1 with | some v => f (p.1, v) | none => 0).sum := by
  unfold selectArgs
  induction params with
  | nil => rfl
  | cons p ps ih =>
    cases hi : p.2.idx <;> cases hg : Dict.get? data p.1 <;>
      simp only [List.filter_cons, hi, hg, List.map_cons, List.sum_cons, List.filterMap_cons, Option.map_some, Option.map_none,
        beq_self_eq_true, if_true, if_false, Bool.false_eq_true, beq_iff_eq, Bool.true_eq_false] <;> omega

/-- **Accounting of one API call.** -/
theorem Action.charged {H : Host} {w : World} {a : Action} {v : PyVal} {w' : World} (hg : a.NotGuarded)
    (hs : w.meter.started = true) (hw : Spec.Within w.meter) (h : a.run H w = (.ok v, w')) :
    Charged w.meter w'.meter (Spec.bytesWritten w a) (Spec.Ev.lineCost (.act a)) ∧ Spec.Within w'.meter := by
  have same : ∀ {w' : World}, w'.meter = w.meter → Charged w.meter w'.meter 0 0 ∧ Spec.Within w'.meter := by
    intro w' he; rw [he]; exact ⟨Charged.zero hs, hw⟩
  have hmd : ∀ {r : Except PyErr Unit × Meter × Driver} {n : Nat},
      (r.1 = .ok () → Charged w.meter r.2.1 n 0 ∧ Spec.Within r.2.1) → w.md r = (.ok v, w') →
      Charged w.meter w'.meter n 0 ∧ Spec.Within w'.meter := by
    intro r n hr h
    unfold World.md at h
    obtain ⟨r1, m, d⟩ := r
    cases r1 with
    | error e => cases h
    | ok u => cases h; exact hr rfl
  have hrd : ∀ {r : Except PyErr PyVal × Driver}, w.rd r = (.ok v, w') → Charged w.meter w'.meter 0 0 ∧ Spec.Within w'.meter := by
    intro r h
    have := congrArg Prod.snd h
    simp only [World.rd] at this
    rw [← this]; exact same rfl
  cases a with
  | line c op mem =>
    simp only [Action.run] at h
    cases hl : w.meter.line c op mem with
    | mk r m =>
      rw [hl] at h
      cases r with
      | error e => cases h
      | ok u =>
        cases h
        have := line_charged hs hl hw
        cases c
        · exact ⟨this.1, this.2.1⟩
        · exact ⟨this.1, this.2.1⟩
  | guarded n => exact absurd hg id
  | varSet x val =>
    refine hmd (r := x.set w.meter w.driver val) (fun hok => ?_) h
    have hset : ∀ r, x.set w.meter w.driver val = (.ok (), r) → w.driver.set w.meter x.key val true = (.ok (), r) := by
      intro r hr
      unfold Variable.set at hr
      split at hr
      · split at hr
        · cases hr
        · exact hr
      · exact hr
    exact set_charged hs hw (hset _ (Prod.ext hok rfl))
  | varGet x => exact hrd h
  | hashSet hv ix val =>
    refine hmd (r := hv.setItem w.meter w.driver ix val) (fun hok => ?_) h
    unfold HashVar.setItem at hok ⊢
    simp only [Spec.bytesWritten]
    cases hvk : validateKey ix with
    | error e => rw [hvk] at hok; cases hok
    | ok s =>
      rw [hvk] at hok
      simp only at hok ⊢
      exact set_charged hs hw (Prod.ext hok rfl)
  | hashGet hv ix => exact hrd h
  | hashAll hv args => exact hrd h
  | hashItems hv args => exact hrd h
  | hashClear hv args =>
    refine hmd (r := hv.clear w.meter w.driver args) (fun hok => ?_) h
    unfold HashVar.clear at hok ⊢
    simp only [Spec.bytesWritten]
    cases hi : hv.items w.driver args with
    | mk r d =>
      rw [hi] at hok
      cases r with
      | error e => cases hok
      | ok kvs =>
        simp only at hok ⊢
        exact deleteKeys_charged _ hs hw (Prod.ext hok rfl)
  | foreignVarSet x v => simp only [Action.run, foreignVariableSet, World.md] at h; cases h
  | foreignHashSet hv ix v => simp only [Action.run, foreignHashSetItem, World.md] at h; cases h
  | foreignHashClear hv args => simp only [Action.run, Verif.foreignHashClear, World.md] at h; cases h
  | newLog ev ps =>
    simp only [Action.run] at h
    unfold Verif.newLog at h
    simp only at h
    split at h
    · cases h
    · split at h
      · cases h
      · split at h
        · cases h
        · cases h; exact same rfl
  | emit l data =>
    simp only [Action.run] at h
    simp only [Spec.bytesWritten]
    cases hl : w.logs[l]? with
    | none => rw [hl] at h; cases h
    | some lg =>
      rw [hl] at h
      simp only at h
      unfold emitEvent at h
      split at h
      · cases h
      · split at h
        · cases h
        · split at h
          · cases h
          · simp only at h
            cases h1 : chargeArgs w.meter (selectArgs lg.params data true) with
            | mk r m1 =>
              rw [h1] at h
              cases r with
              | error e => cases h
              | ok u =>
                simp only at h
                cases h2 : chargeArgs m1 (selectArgs lg.params data false) with
                | mk r m2 =>
                  rw [h2] at h
                  cases r with
                  | error e => cases h
                  | ok u =>
                    cases h
                    have c1 := chargeArgs_charged _ hs hw h1
                    have c2 := chargeArgs_charged _ c1.1.started c1.2 h2
                    have c := c1.1.trans c2.1
                    rw [selectArgs_sum lg.params data (fun p => utf8Len p.1 + Spec.textLen p.2)] at c
                    exact ⟨c, c2.2⟩
  | seed salt =>
    simp only [Action.run] at h
    unfold doSeed at h
    split at h <;> cases h
    exact same rfl
  | getrandbits k =>
    simp only [Action.run] at h
    unfold doGetrandbits at h
    simp only at h
    split at h
    · cases h
    · split at h <;> cases h
      exact same rfl
  | draw q =>
    simp only [Action.run] at h
    unfold doDraw at h
    split at h
    · cases h
    · have := (congrArg Prod.snd h); simp only at this; rw [← this]; exact same rfl
  | ownerOf name => exact hrd h
  | rawGet key => exact hrd h
  | rawSet key val =>
    refine hmd (r := w.driver.set w.meter key val false) (fun hok => ?_) h
    exact set_charged hs hw (Prod.ext hok rfl)
  | _ => simp only [Action.run] at h; cases h; exact same rfl

theorem enter_meter (c : Str) (w : World) : (enter c w).2.meter = w.meter := by
  obtain ⟨r, s, h⟩ := enter_frame c w; rw [h]

theorem popState_meter (w : World) : w.popState.meter = w.meter := by
  obtain ⟨s, h⟩ := popState_frame w; rw [h]

theorem importStart_meter (H : Host) (w : World) (name : Str) (dyn : Bool) : (importStart H w name dyn).2.meter = w.meter := by
  obtain ⟨r, h⟩ := importStart_frame H w name dyn; rw [h]

theorem libLines_ok : ∀ (n : Nat) (m : Meter), m.started = true → m.calls + n ≤ 800000 →
    libLines m n = (.ok (), { m with calls := m.calls + n })
  | 0, m, _, _ => rfl
  | n + 1, m, hs, h => by
    unfold libLines Meter.line
    rw [if_pos hs]
    simp only [maxCallCount]
    rw [if_neg (by omega)]
    simp only [Bool.false_eq_true, if_false]
    rw [libLines_ok n { m with calls := m.calls + 1 } hs (show m.calls + 1 + n ≤ 800000 by omega)]
    simp only [Nat.add_assoc, Nat.add_comm 1 n]

/-- One event that did not raise. -/
theorem Ev.charged {H : Host} {w w' : World} {e : Spec.Ev} (hg : ¬ Spec.Struck w e) (hs : w.meter.started = true)
    (hw : Spec.Within w.meter) (h : e.run H w = (none, w')) :
    Charged w.meter w'.meter (e.bytes w) e.lineCost ∧ Spec.Within w'.meter ∧
      w'.meter.calls = w.meter.calls + e.lines := by
  have same : ∀ {w' : World}, w'.meter = w.meter → Charged w.meter w'.meter 0 0 ∧ Spec.Within w'.meter ∧ w'.meter.calls = w.meter.calls + 0 := by
    intro w' he; rw [he]; exact ⟨Charged.zero hs, hw, rfl⟩
  cases e with
  | act a =>
    simp only [Spec.Ev.run] at h
    cases ha : a.run H w with
    | mk r w1 =>
      rw [ha] at h
      cases r with
      | error e => cases h
      | ok v =>
        have hw' : w1 = w' := (congrArg Prod.snd h)
        subst hw'
        by_cases hgu : ∃ n, a = .guarded n
        · obtain ⟨n, rfl⟩ := hgu
          have hle : w.meter.calls + n ≤ 800000 := by
            by_contra hlt
            exact hg ⟨n, rfl, hs, by omega⟩
          simp only [Action.run, libLines_ok n w.meter hs hle] at ha
          cases ha
          exact ⟨⟨rfl, rfl, hs, rfl⟩, ⟨hw.1, hw.2.1, hw.2.2.1, hle⟩, rfl⟩
        have hng : a.NotGuarded := by cases a <;> first | trivial | exact absurd ⟨_, rfl⟩ hgu
        have h1 := Action.charged hng hs hw ha
        refine ⟨h1.1, h1.2, ?_⟩
        by_cases hl : ∃ c op mem, a = .line c op mem
        · obtain ⟨c, op, mem, rfl⟩ := hl
          simp only [Action.run] at ha
          cases hml : w.meter.line c op mem with
          | mk r m =>
            rw [hml] at ha
            cases r with
            | error e => cases ha
            | ok u => cases ha; exact (line_charged hs hml hw).2.2
        · have hnl : (Spec.Ev.act a).lines = 0 := by
            cases a <;> first | rfl | exact absurd ⟨_, _, _, rfl⟩ hl | exact absurd ⟨_, rfl⟩ hgu
          rw [hnl]
          have hsteps := Action.run_steps H w a (by rintro n rfl; exact hng)
          rw [ha] at hsteps
          have := Steps.rel (R := fun s s' => s'.1.calls = s.1.calls) (fun _ => rfl) (fun _ _ _ h h' => h'.trans h)
            (fun s p hp => ?_) hsteps
          · simpa using this
          · cases p with
            | write k v txn =>
              simp only [Prim.run]
              have hdw : ∀ (m : Meter) n, (m.deductWrite n).2.calls = m.calls := by
                intro m n
                unfold Meter.deductWrite Meter.addCost Meter.stop
                simp only
                split
                · split
                  · split <;> rfl
                  · rfl
                · rfl
              unfold Driver.set
              cases he : encode v with
              | error e => rfl
              | ok t =>
                simp only
                have := hdw s.1 (utf8Len k + t.length)
                cases hd : s.1.deductWrite (utf8Len k + t.length) with
                | mk r m =>
                  rw [hd] at this
                  cases r with
                  | error e => exact this
                  | ok u =>
                    simp only
                    split
                    · exact this
                    · split
                      · exact this
                      · exact this
            | line c op mem =>
              exact absurd hp (by cases a <;> first | exact absurd ⟨_, _, _, rfl⟩ hl | exact id)
            | charge n =>
              simp only [Prim.run]
              unfold Meter.deductWrite Meter.addCost Meter.stop
              simp only
              split
              · split
                · split <;> rfl
                · rfl
              · rfl
            | _ => rfl
  | enter c =>
    simp only [Spec.Ev.run] at h
    have : w' = (enter c w).2 := (congrArg Prod.snd h).symm
    rw [this]; exact same (enter_meter c w)
  | exit => cases h; exact same (popState_meter w)
  | importStart name dyn =>
    simp only [Spec.Ev.run] at h
    have : w' = (importStart H w name dyn).2 := (congrArg Prod.snd h).symm
    rw [this]; exact same (importStart_meter H w name dyn)
  | loaded name => cases h; exact same rfl

/-- **Accounting of a whole program.** -/
theorem Prog.charged {H : Host} : ∀ (p : Prog) {w w' : World} {v : PyVal}, p.NoCatch → (∀ x ∈ Spec.events H p w, ¬ Spec.Struck x.1 x.2) →
    w.meter.started = true → Spec.Within w.meter → p.run H w = (.ok v, w') →
    Charged w.meter w'.meter (Spec.bytes H p w) (Spec.lineCosts H p w) ∧ Spec.Within w'.meter := by
  intro p
  induction p with
  | ret v => intro w w' v' _ _ hs hw h; cases h; exact ⟨Charged.zero hs, hw⟩
  | raise e => intro w w' v' _ _ hs hw h; cases h
  | act a k ih =>
    intro w w' v hn hg hs hw h
    simp only [Prog.run] at h
    cases ha : a.run H w with
    | mk r w1 =>
      rw [ha] at h
      cases r with
      | error e => simp only at h; rw [hn.1 e] at h; cases h
      | ok u =>
        have hev : Spec.events H (.act a k) w = (w, .act a) :: Spec.events H (k (.ok u)) w1 := by simp only [Spec.events, ha]
        have h1 := Ev.charged (H := H) (w' := w1) (e := .act a) (hg (w, .act a) (by rw [hev]; simp)) hs hw (by simp only [Spec.Ev.run, ha])
        have h2 := ih _ (hn.2 u) (fun x hx => hg x (by rw [hev]; simp [hx])) h1.1.started h1.2.1 h
        refine ⟨?_, h2.2⟩
        have h3 := h1.1.trans h2.1
        simp only [Spec.bytes, Spec.lineCosts, Spec.events, ha, List.map_cons, List.sum_cons] at h3 ⊢
        exact h3
  | call c body k ihb ihk =>
    intro w w' v hn hg hs hw h
    simp only [Prog.run] at h
    have hem := enter_meter c w
    cases he : enter c w with
    | mk r w1 =>
      rw [he] at h hem
      simp only at hem
      cases r with
      | error e => simp only at h; rw [hn.2.1 e] at h; cases h
      | ok u =>
        simp only at h
        cases hb : body.run H w1 with
        | mk r w2 =>
          rw [hb] at h
          simp only at h
          cases r with
          | error e => rw [hn.2.1 e] at h; cases h
          | ok x =>
            have hev : Spec.events H (.call c body k) w = (w, .enter c) :: (Spec.events H body w1 ++
                (w2, .exit) :: Spec.events H (k (.ok x)) w2.popState) := by simp only [Spec.events, he, hb]
            have h1 := ihb hn.1 (fun y hy => hg y (by rw [hev]; simp [hy])) (by rw [hem]; exact hs) (by rw [hem]; exact hw) hb
            have h2 := ihk _ (hn.2.2 x) (fun y hy => hg y (by rw [hev]; simp [hy])) (by rw [popState_meter]; exact h1.1.started) (by rw [popState_meter]; exact h1.2) h
            refine ⟨?_, h2.2⟩
            rw [hem, ] at h1
            rw [popState_meter] at h2
            have h3 := h1.1.trans h2.1
            simp only [Spec.bytes, Spec.lineCosts, Spec.events, he, hb, List.map_cons, List.sum_cons, List.map_append, List.sum_append,
              Spec.Ev.bytes, Spec.Ev.lineCost, Nat.zero_add] at h3 ⊢
            exact h3
  | load name dyn body k ihb ihk =>
    intro w w' v hn hg hs hw h
    simp only [Prog.run] at h
    have hem := importStart_meter H w name dyn
    cases he : importStart H w name dyn with
    | mk r w1 =>
      rw [he] at h hem
      simp only at hem
      have hs1 : w1.meter.started = true := by rw [hem]; exact hs
      have hw1 : Spec.Within w1.meter := by rw [hem]; exact hw
      cases r with
      | error e => simp only at h; rw [hn.2.1 e] at h; cases h
      | ok f =>
        cases f with
        | missing => simp only at h; rw [hn.2.1] at h; cases h
        | host =>
          simp only at h
          have h2 := ihk _ (hn.2.2 .none) (fun y hy => hg y (by simp only [Spec.events, he]; exact List.mem_cons_of_mem _ hy)) hs1 hw1 h
          refine ⟨?_, h2.2⟩
          rw [hem] at h2
          simp only [Spec.bytes, Spec.lineCosts, Spec.events, he, List.map_cons, List.sum_cons,
              Spec.Ev.bytes, Spec.Ev.lineCost, Nat.zero_add] at h2 ⊢
          exact h2.1
        | loaded =>
          simp only at h
          have h2 := ihk _ (hn.2.2 .none) (fun y hy => hg y (by simp only [Spec.events, he]; exact List.mem_cons_of_mem _ hy)) hs1 hw1 h
          refine ⟨?_, h2.2⟩
          rw [hem] at h2
          simp only [Spec.bytes, Spec.lineCosts, Spec.events, he, List.map_cons, List.sum_cons,
              Spec.Ev.bytes, Spec.Ev.lineCost, Nat.zero_add] at h2 ⊢
          exact h2.1
        | contract =>
          simp only at h
          cases hb : body.run H w1 with
          | mk r w2 =>
            rw [hb] at h
            cases r with
            | error e => simp only at h; rw [hn.2.1 e] at h; cases h
            | ok x =>
              simp only at h
              have hev : Spec.events H (.load name dyn body k) w = (w, .importStart name dyn) :: (Spec.events H body w1 ++
                  (w2, .loaded name) :: Spec.events H (k (.ok .none)) (w2.addLoaded name)) := by simp only [Spec.events, he, hb]
              have h1 := ihb hn.1 (fun y hy => hg y (by rw [hev]; simp [hy])) hs1 hw1 hb
              have h2 := ihk _ (hn.2.2 .none) (fun y hy => hg y (by rw [hev]; simp [hy])) (w := w2.addLoaded name) h1.1.started h1.2 h
              refine ⟨?_, h2.2⟩
              rw [hem] at h1
              have h3 := h1.1.trans h2.1
              simp only [Spec.bytes, Spec.lineCosts, Spec.events, he, hb, List.map_cons, List.sum_cons, List.map_append, List.sum_append,
                Spec.Ev.bytes, Spec.Ev.lineCost, Nat.zero_add] at h3 ⊢
              exact h3

end Verif
