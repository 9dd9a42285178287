import Verif.Proofs.Meter
import Verif.Proofs.Interp
/-!
# Programs that agree for so many lines

`Lockstep b p q`: `p` and `q` do the same until `b` lines of contract code have been traced.
-/
namespace Verif
open Verif.Lang

/-- What an accepted operation leaves of a running meter. -/
structure Going (m m' : Meter) : Prop where
  started : m'.started = true
  calls : m.calls ≤ m'.calls
  bound : m.calls ≤ maxCallCount → m'.calls ≤ maxCallCount

theorem Going.rfl {m : Meter} (h : m.started = true) : Going m m := ⟨h, Nat.le_refl _, id⟩

theorem Going.trans {a b c : Meter} (h : Going a b) (h' : Going b c) : Going a c :=
  ⟨h'.started, h.calls.trans h'.calls, fun x => h'.bound (h.bound x)⟩

theorem deductWrite_going {m m' : Meter} {n : Nat} (hs : m.started = true) (h : m.deductWrite n = (.ok (), m')) : Going m m' := by
  unfold Meter.deductWrite at h
  rw [if_pos hs] at h
  simp only at h
  split at h
  · unfold Meter.addCost at h
    simp only at h
    split at h
    · cases h
    · cases h
      exact ⟨hs, Nat.le_refl _, id⟩
  · cases h

theorem set_going {m m' : Meter} {d d' : Driver} {k : Str} {v : PyVal} {txn : Bool} (hs : m.started = true)
    (h : d.set m k v txn = (.ok (), m', d')) : Going m m' := by
  obtain ⟨_, _, ⟨t, he, hd⟩, _⟩ := Driver.set_ok h
  exact deductWrite_going hs hd

theorem line_going {m m' : Meter} {c : Bool} {op mem : Nat} (hs : m.started = true) (h : m.line c op mem = (.ok (), m')) :
    Going m m' ∧ m'.calls = m.calls + 1 := by
  unfold Meter.line at h
  rw [if_pos hs] at h
  simp only at h
  split at h
  · cases h
  · rename_i hcalls
    have hb : m.calls + 1 ≤ maxCallCount := by omega
    split at h
    · generalize (if m.lastMem = 0 then mem else m.lastMem) = last at h
      split at h
      · cases h
      · split at h
        · cases h
        · cases h
          exact ⟨⟨hs, Nat.le_succ _, fun _ => hb⟩, rfl⟩
    · cases h
      exact ⟨⟨hs, Nat.le_succ _, fun _ => hb⟩, rfl⟩

theorem deleteKeys_going (ks : List Str) : ∀ {m m' : Meter} {d d' : Driver}, m.started = true →
    deleteKeys m d ks = (.ok (), m', d') → Going m m' := by
  induction ks with
  | nil => intro m m' d d' hs h; cases h; exact Going.rfl hs
  | cons k ks ih =>
    intro m m' d d' hs h
    unfold deleteKeys at h
    cases hd : d.delete m k with
    | mk r md =>
      obtain ⟨m1, d1⟩ := md
      rw [hd] at h
      cases r with
      | error e => cases h
      | ok u =>
        have h1 := set_going hs (show d.set m k .none false = _ from hd)
        exact h1.trans (ih h1.started h)

theorem chargeArgs_going (ps : List (Str × PyVal)) : ∀ {m m' : Meter}, m.started = true →
    chargeArgs m ps = (.ok (), m') → Going m m' := by
  induction ps with
  | nil => intro m m' hs h; cases h; exact Going.rfl hs
  | cons p ps ih =>
    intro m m' hs h
    obtain ⟨k, v⟩ := p
    unfold chargeArgs at h
    cases he : encode v with
    | error e => rw [he] at h; cases h
    | ok t =>
      rw [he] at h
      simp only at h
      cases hd : m.deductWrite (utf8Len k + t.length) with
      | mk r m1 =>
        rw [hd] at h
        cases r with
        | error e => cases h
        | ok u =>
          have h1 := deductWrite_going hs hd
          exact h1.trans (ih h1.started h)

/-- An API call that does not raise leaves a running meter running. -/
theorem Action.going {H : Host} {w : World} {a : Action} {v : PyVal} {w' : World} (hg : a.NotGuarded)
    (hs : w.meter.started = true) (h : a.run H w = (.ok v, w')) : Going w.meter w'.meter := by
  have same : ∀ {w' : World}, w'.meter = w.meter → Going w.meter w'.meter := by
    intro w' he; rw [he]; exact Going.rfl hs
  have hmd : ∀ {r : Except PyErr Unit × Meter × Driver}, (r.1 = .ok () → Going w.meter r.2.1) → w.md r = (.ok v, w') →
      Going w.meter w'.meter := by
    intro r hr h
    unfold World.md at h
    obtain ⟨r1, m, d⟩ := r
    cases r1 with
    | error e => cases h
    | ok u => cases h; exact hr rfl
  have hrd : ∀ {r : Except PyErr PyVal × Driver}, w.rd r = (.ok v, w') → Going w.meter w'.meter := by
    intro r h
    have := congrArg Prod.snd h
    simp only [World.rd] at this
    rw [← this]; exact same rfl
  cases a with
  | line c op mem =>
    simp only [Action.run] at h
    cases hl : w.meter.line c op mem with
    | mk r m =>
      rw [hl] at h
      cases r with
      | error e => cases h
      | ok u =>
        cases h
        exact (line_going hs hl).1
  | guarded n => exact absurd hg id
  | varSet x val =>
    refine hmd (r := x.set w.meter w.driver val) (fun hok => ?_) h
    have hset : ∀ r, x.set w.meter w.driver val = (.ok (), r) → w.driver.set w.meter x.key val true = (.ok (), r) := by
      intro r hr
      unfold Variable.set at hr
      split at hr
      · split at hr
        · cases hr
        · exact hr
      · exact hr
    exact set_going hs (hset _ (Prod.ext hok rfl))
  | varGet x => exact hrd h
  | hashSet hv ix val =>
    refine hmd (r := hv.setItem w.meter w.driver ix val) (fun hok => ?_) h
    unfold HashVar.setItem at hok ⊢
    cases hvk : validateKey ix with
    | error e => rw [hvk] at hok; cases hok
    | ok s =>
      rw [hvk] at hok
      simp only at hok ⊢
      exact set_going hs (Prod.ext hok rfl)
  | hashGet hv ix => exact hrd h
  | hashAll hv args => exact hrd h
  | hashItems hv args => exact hrd h
  | hashClear hv args =>
    refine hmd (r := hv.clear w.meter w.driver args) (fun hok => ?_) h
    unfold HashVar.clear at hok ⊢
    cases hi : hv.items w.driver args with
    | mk r d =>
      rw [hi] at hok
      cases r with
      | error e => cases hok
      | ok kvs =>
        simp only at hok ⊢
        exact deleteKeys_going _ hs (Prod.ext hok rfl)
  | foreignVarSet x v => simp only [Action.run, foreignVariableSet, World.md] at h; cases h
  | foreignHashSet hv ix v => simp only [Action.run, foreignHashSetItem, World.md] at h; cases h
  | foreignHashClear hv args => simp only [Action.run, Verif.foreignHashClear, World.md] at h; cases h
  | newLog ev ps =>
    simp only [Action.run] at h
    unfold Verif.newLog at h
    simp only at h
    split at h
    · cases h
    · split at h
      · cases h
      · split at h
        · cases h
        · cases h; exact same rfl
  | emit l data =>
    simp only [Action.run] at h
    cases hl : w.logs[l]? with
    | none => rw [hl] at h; cases h
    | some lg =>
      rw [hl] at h
      simp only at h
      unfold emitEvent at h
      split at h
      · cases h
      · split at h
        · cases h
        · split at h
          · cases h
          · simp only at h
            cases h1 : chargeArgs w.meter (selectArgs lg.params data true) with
            | mk r m1 =>
              rw [h1] at h
              cases r with
              | error e => cases h
              | ok u =>
                simp only at h
                cases h2 : chargeArgs m1 (selectArgs lg.params data false) with
                | mk r m2 =>
                  rw [h2] at h
                  cases r with
                  | error e => cases h
                  | ok u =>
                    cases h
                    have c1 := chargeArgs_going _ hs h1
                    exact c1.trans (chargeArgs_going _ c1.started h2)
  | seed salt =>
    simp only [Action.run] at h
    unfold doSeed at h
    split at h <;> cases h
    exact same rfl
  | getrandbits k =>
    simp only [Action.run] at h
    unfold doGetrandbits at h
    simp only at h
    split at h
    · cases h
    · split at h <;> cases h
      exact same rfl
  | draw q =>
    simp only [Action.run] at h
    unfold doDraw at h
    split at h
    · cases h
    · have := (congrArg Prod.snd h); simp only at this; rw [← this]; exact same rfl
  | ownerOf name => exact hrd h
  | rawGet key => exact hrd h
  | rawSet key val =>
    refine hmd (r := w.driver.set w.meter key val false) (fun hok => ?_) h
    exact set_going hs (Prod.ext hok rfl)
  | _ => simp only [Action.run] at h; cases h; exact same rfl

/-- The two programs do the same until `b` lines of contract code have been traced. -/
inductive Lockstep : Nat → Prog → Prog → Prop where
  | out (p q) : Lockstep 0 p q
  | ret {b} (v) : Lockstep b (.ret v) (.ret v)
  | raise {b} (e) : Lockstep b (.raise e) (.raise e)
  | tick {b x y} {k k' : PyVal → Prog} : (∀ v, Lockstep b (k v) (k' v)) → Lockstep (b + 1) (api (.line true x y) k) (api (.line true x y) k')
  | act {b a} {k k' : PyVal → Prog} : a.NotGuarded → (∀ v, Lockstep b (k v) (k' v)) → Lockstep b (api a k) (api a k')
  | call {b c body body'} {k k' : PyVal → Prog} : Lockstep b body body' → (∀ v, Lockstep b (k v) (k' v)) →
    Lockstep b (.call c body fun r => orRaise r k) (.call c body' fun r => orRaise r k')
  | load {b n d body body'} {k k' : PyVal → Prog} : Lockstep b body body' → (∀ v, Lockstep b (k v) (k' v)) →
    Lockstep b (.load n d body fun r => orRaise r k) (.load n d body' fun r => orRaise r k')

theorem Lockstep.mono {b : Nat} {p q : Prog} (h : Lockstep b p q) : ∀ {j}, j ≤ b → Lockstep j p q := by
  induction h with
  | out p q => intro j hj; cases Nat.le_zero.1 hj; exact .out _ _
  | ret v => intro j _; exact .ret _
  | raise e => intro j _; exact .raise _
  | tick _ ih =>
    intro j hj
    cases j with
    | zero => exact .out _ _
    | succ j => exact .tick fun v => ih v (by omega)
  | act ha _ ih => intro j hj; exact .act ha fun v => ih v hj
  | call _ _ ih1 ih2 => intro j hj; exact .call (ih1 hj) fun v => ih2 v hj
  | load _ _ ih1 ih2 => intro j hj; exact .load (ih1 hj) fun v => ih2 v hj

/-- **Programs that agree for more lines than may be traced have the same effect.** -/
theorem Lockstep.run {H : Host} {b : Nat} {p q : Prog} (h : Lockstep b p q) : ∀ {w : World}, w.meter.started = true →
    w.meter.calls ≤ maxCallCount → maxCallCount < w.meter.calls + b →
    p.run H w = q.run H w ∧ ∀ v w', p.run H w = (.ok v, w') → Going w.meter w'.meter := by
  induction h with
  | out p q => intro w _ h1 h2; omega
  | ret v => intro w hs _ _; exact ⟨rfl, fun v w' e => by cases e; exact Going.rfl hs⟩
  | raise e => intro w _ _ _; exact ⟨rfl, fun v w' e => by cases e⟩
  | @tick b x y k k' _ ih =>
    intro w hs h1 h2
    simp only [api, Prog.run]
    cases hr : Action.run H w (.line true x y) with
    | mk r w1 =>
      cases r with
      | error e => exact ⟨rfl, fun v w' e => by cases e⟩
      | ok v =>
        have hg : Going w.meter w1.meter := Action.going (a := .line true x y) trivial hs hr
        have hc : w1.meter.calls = w.meter.calls + 1 := by
          simp only [Action.run] at hr
          cases hl : w.meter.line true x y with
          | mk r m =>
            rw [hl] at hr
            cases r with
            | error e => cases hr
            | ok u => cases hr; exact (line_going hs hl).2
        have := ih v hg.started (hg.bound h1) (by omega)
        exact ⟨this.1, fun u w' e => hg.trans (this.2 u w' e)⟩
  | @act b a k k' ha _ ih =>
    intro w hs h1 h2
    simp only [api, Prog.run]
    cases hr : Action.run H w a with
    | mk r w1 =>
      cases r with
      | error e => exact ⟨rfl, fun v w' e => by cases e⟩
      | ok v =>
        have hg := Action.going ha hs hr
        have := ih v hg.started (hg.bound h1) (by have := hg.calls; omega)
        exact ⟨this.1, fun u w' e => hg.trans (this.2 u w' e)⟩
  | @call b c body body' k k' _ _ ih1 ih2 =>
    intro w hs h1 h2
    simp only [Prog.run]
    have hm := enter_meter c w
    cases hr : enter c w with
    | mk r w1 =>
      rw [hr] at hm
      simp only at hm
      cases r with
      | error e => exact ⟨rfl, fun v w' e => by cases e⟩
      | ok u =>
        simp only
        have hb := ih1 (w := w1) (hm ▸ hs) (hm ▸ h1) (hm ▸ h2)
        rw [← hb.1]
        cases hr2 : Prog.run H body w1 with
        | mk r w2 =>
          cases r with
          | error e => exact ⟨rfl, fun v w' e => by cases e⟩
          | ok v =>
            have hg := hb.2 v w2 hr2
            rw [hm] at hg
            have hp := popState_meter w2
            simp only [orRaise]
            have := ih2 v (w := w2.popState) (hp ▸ hg.started) (hp ▸ hg.bound h1) (by rw [hp]; have := hg.calls; omega)
            refine ⟨this.1, fun u w' e => ?_⟩
            have := this.2 u w' e
            rw [hp] at this
            exact hg.trans this
  | @load b n d body body' k k' _ _ ih1 ih2 =>
    intro w hs h1 h2
    simp only [Prog.run]
    have hm := importStart_meter H w n d
    cases hr : importStart H w n d with
    | mk r w1 =>
      rw [hr] at hm
      simp only at hm
      have hk : ∀ v, (k v).run H w1 = (k' v).run H w1 ∧ ∀ u w', (k v).run H w1 = (.ok u, w') → Going w.meter w'.meter := by
        intro v
        have := ih2 v (w := w1) (hm ▸ hs) (hm ▸ h1) (hm ▸ h2)
        rw [hm] at this
        exact this
      cases r with
      | error e => exact ⟨rfl, fun v w' e => by cases e⟩
      | ok f =>
        cases f with
        | missing => exact ⟨rfl, fun v w' e => by cases e⟩
        | host => exact hk .none
        | loaded => exact hk .none
        | contract =>
          simp only
          have hb := ih1 (w := w1) (hm ▸ hs) (hm ▸ h1) (hm ▸ h2)
          rw [← hb.1]
          cases hr2 : Prog.run H body w1 with
          | mk r w2 =>
            cases r with
            | error e => exact ⟨rfl, fun v w' e => by cases e⟩
            | ok v =>
              have hg := hb.2 v w2 hr2
              rw [hm] at hg
              simp only [orRaise]
              have := ih2 .none (w := w2.addLoaded n) hg.started (hg.bound h1) (by
                have := hg.calls
                show maxCallCount < w2.meter.calls + b
                omega)
              exact ⟨this.1, fun u w' e => hg.trans (this.2 u w' e)⟩

end Verif
