import Verif.Proofs.Finish
/-!
# What is supplied only matters when it runs out
-/
namespace Verif
open Verif.Lang

/-- The same meter with another supply. -/
def Meter.sup (m : Meter) (s : Int) : Meter := { m with supplied := s }

/-- The same process with another supply. -/
def World.sup (w : World) (s : Int) : World := { w with meter := w.meter.sup s }

/-- From `m` to `m'`; and `P s` for every supply `s` that is not less than what is spent in the end, or not less than
the supply there was. -/
structure Afforded (m m' : Meter) (P : Int → Prop) : Prop where
  supplied : m'.supplied = m.supplied
  cost : m.cost ≤ m'.cost
  paid : (m.cost : Int) ≤ m.supplied → (m'.cost : Int) ≤ m.supplied
  same : ∀ s : Int, (m'.cost : Int) ≤ s ∨ m.supplied ≤ s → P s

theorem Afforded.trans {m m1 m2 : Meter} {P Q R : Int → Prop} (h : Afforded m m1 P) (h' : Afforded m1 m2 Q) (hr : ∀ s, P s → Q s → R s) :
    Afforded m m2 R :=
  ⟨h'.supplied.trans h.supplied, h.cost.trans h'.cost, fun x => h.supplied ▸ h'.paid (h.supplied ▸ h.paid x), fun s hs => hr s
    (h.same s (hs.imp_left fun x => (Int.ofNat_le.2 h'.cost).trans x)) (h'.same s (hs.imp_right fun x => by rw [h.supplied]; exact x))⟩

theorem Afforded.still {m : Meter} {P : Int → Prop} (h : ∀ s, P s) : Afforded m m P := ⟨rfl, Nat.le_refl _, id, fun s _ => h s⟩

theorem Afforded.imp {m m' : Meter} {P Q : Int → Prop} (h : Afforded m m' P) (hq : ∀ s, P s → Q s) : Afforded m m' Q :=
  ⟨h.supplied, h.cost, h.paid, fun s hs => hq s (h.same s hs)⟩

theorem addCost_sup {m m' : Meter} {n : Nat} (h : m.addCost n = (.ok (), m')) :
    Afforded m m' fun s => (m.sup s).addCost n = (.ok (), m'.sup s) := by
  unfold Meter.addCost at h
  simp only at h
  split at h
  · cases h
  · rename_i hc
    cases h
    refine ⟨rfl, Nat.le_add_right _ _, fun _ => not_lt.1 fun x => hc (.inl x), fun s hs => if_neg ?_⟩
    rintro (h | h)
    · rcases hs with hs | hs
      · exact absurd h (not_lt.2 hs)
      · exact hc (.inl (lt_of_le_of_lt hs h))
    · exact hc (.inr h)

theorem deductWrite_sup {m m' : Meter} {n : Nat} (h : m.deductWrite n = (.ok (), m')) :
    Afforded m m' fun s => (m.sup s).deductWrite n = (.ok (), m'.sup s) := by
  unfold Meter.deductWrite at h
  by_cases hs : m.started = true
  · rw [if_pos hs] at h
    simp only at h
    split at h
    · rename_i hw
      have h1 := addCost_sup h
      refine ⟨h1.supplied, h1.cost, h1.paid, fun s hle => ?_⟩
      unfold Meter.deductWrite
      rw [if_pos (show (m.sup s).started = true from hs)]
      simp only
      rw [if_pos (show (m.sup s).writes + n < writeMax from hw)]
      exact h1.same s hle
    · cases h
  · rw [if_neg hs] at h
    cases h
    refine .still fun s => ?_
    unfold Meter.deductWrite
    rw [if_neg (show ¬ (m.sup s).started = true from hs)]

theorem line_sup {m m' : Meter} {c : Bool} {op mem : Nat} (h : m.line c op mem = (.ok (), m')) :
    Afforded m m' fun s => (m.sup s).line c op mem = (.ok (), m'.sup s) := by
  unfold Meter.line at h
  by_cases hs : m.started = true
  · rw [if_pos hs] at h
    simp only at h
    split at h
    · cases h
    · rename_i hc
      have hn : ∀ s, ¬ (m.sup s).calls + 1 > maxCallCount := fun s => hc
      split at h
      · rename_i hcon
        generalize hlast : (if m.lastMem = 0 then mem else m.lastMem) = last at h
        split at h
        · cases h
        · rename_i hmem
          split at h
          · cases h
          · rename_i hcost
            cases h
            refine ⟨rfl, Nat.le_add_right _ _, fun _ => not_lt.1 fun x => hcost (.inl x), fun s hle => ?_⟩
            unfold Meter.line
            rw [if_pos (show (m.sup s).started = true from hs)]
            simp only
            rw [if_neg (hn s), if_pos hcon, show (m.sup s).lastMem = m.lastMem from rfl, hlast]
            refine (if_neg (show ¬ _ from hmem)).trans (if_neg ?_)
            rintro (h | h)
            · rcases hle with hle | hle
              · exact absurd h (not_lt.2 hle)
              · exact hcost (.inl (lt_of_le_of_lt hle h))
            · exact hcost (.inr h)
      · rename_i hcon
        cases h
        refine ⟨rfl, Nat.le_refl _, id, fun s _ => ?_⟩
        unfold Meter.line
        rw [if_pos (show (m.sup s).started = true from hs)]
        simp only
        rw [if_neg (hn s), if_neg hcon]
        rfl
  · rw [if_neg hs] at h
    cases h
    refine .still fun s => ?_
    unfold Meter.line
    rw [if_neg (show ¬ (m.sup s).started = true from hs)]

theorem set_sup {m m' : Meter} {d d' : Driver} {k : Str} {v : PyVal} {txn : Bool} (h : d.set m k v txn = (.ok (), m', d')) :
    Afforded m m' fun s => d.set (m.sup s) k v txn = (.ok (), m'.sup s, d') := by
  obtain ⟨_, _, ⟨t, he, hd⟩, _⟩ := Driver.set_ok h
  refine (deductWrite_sup hd).imp fun s hs => ?_
  unfold Driver.set at h ⊢
  rw [he] at h ⊢
  simp only at h ⊢
  rw [hd] at h
  rw [hs]
  simp only at h ⊢
  cases hr : (if (dget d.pendingReads k).isNone = true then d.get k else (.ok .none, d)) with
  | mk r d1 =>
    rw [hr] at h
    cases r with
    | error e => cases h
    | ok u =>
      simp only at h ⊢
      cases hn : normValue v with
      | error e => rw [hn] at h; cases h
      | ok x => rw [hn] at h; cases h; rfl

theorem deleteKeys_sup (ks : List Str) : ∀ {m m' : Meter} {d d' : Driver}, deleteKeys m d ks = (.ok (), m', d') →
    Afforded m m' fun s => deleteKeys (m.sup s) d ks = (.ok (), m'.sup s, d') := by
  induction ks with
  | nil => intro m m' d d' h; cases h; exact .still fun _ => rfl
  | cons k ks ih =>
    intro m m' d d' h
    unfold deleteKeys at h
    cases hd : d.delete m k with
    | mk r md =>
      obtain ⟨m1, d1⟩ := md
      rw [hd] at h
      cases r with
      | error e => cases h
      | ok u =>
        refine (set_sup (show d.set m k .none false = _ from hd)).trans (ih h) fun s a2 b2 => ?_
        unfold deleteKeys
        rw [show d.delete (m.sup s) k = _ from a2]
        exact b2

theorem chargeArgs_sup (ps : List (Str × PyVal)) : ∀ {m m' : Meter}, chargeArgs m ps = (.ok (), m') →
    Afforded m m' fun s => chargeArgs (m.sup s) ps = (.ok (), m'.sup s) := by
  induction ps with
  | nil => intro m m' h; cases h; exact .still fun _ => rfl
  | cons p ps ih =>
    intro m m' h
    obtain ⟨k, v⟩ := p
    unfold chargeArgs at h
    cases he : encode v with
    | error e => rw [he] at h; cases h
    | ok t =>
      rw [he] at h
      simp only at h
      cases hd : m.deductWrite (utf8Len k + t.length) with
      | mk r m1 =>
        rw [hd] at h
        cases r with
        | error e => cases h
        | ok u =>
          refine (deductWrite_sup hd).trans (ih h) fun s a2 b2 => ?_
          unfold chargeArgs
          rw [he]
          simp only
          rw [a2]
          exact b2

/-- An API call that does not raise does the same with any supply that is not less than what is spent then. -/
theorem Action.sup {H : Host} {w : World} {a : Action} {v : PyVal} {w' : World} (hg : a.NotGuarded) (h : a.run H w = (.ok v, w')) :
    Afforded w.meter w'.meter fun s => a.run H (w.sup s) = (.ok v, w'.sup s) := by
  have hmd : ∀ {f : Meter → Except PyErr Unit × Meter × Driver},
      (∀ m' d', f w.meter = (.ok (), m', d') → Afforded w.meter m' fun s => f (w.meter.sup s) = (.ok (), m'.sup s, d')) →
      w.md (f w.meter) = (.ok v, w') →
      Afforded w.meter w'.meter fun s => (w.sup s).md (f (w.meter.sup s)) = (.ok v, w'.sup s) := by
    intro f hf h
    unfold World.md at h
    rcases hfe : f w.meter with ⟨r1, m, d⟩
    rw [hfe] at h
    cases r1 with
    | error e => cases h
    | ok u =>
      cases h
      refine (hf m d hfe).imp fun s hs => ?_
      rw [hs]
      rfl
  have hrd : ∀ {r : Except PyErr PyVal × Driver}, w.rd r = (.ok v, w') →
      Afforded w.meter w'.meter fun s => (w.sup s).rd r = (.ok v, w'.sup s) := by
    intro r h
    have h1 : r.1 = .ok v := congrArg Prod.fst h
    have h2 : ({ w with driver := r.2 } : World) = w' := congrArg Prod.snd h
    subst h2
    exact .still fun s => Prod.ext h1 rfl
  cases a with
  | line c op mem =>
    simp only [Action.run] at h
    cases hl : w.meter.line c op mem with
    | mk r m =>
      rw [hl] at h
      cases r with
      | error e => cases h
      | ok u =>
        cases h
        refine (line_sup hl).imp fun s hs => ?_
        simp only [Action.run]
        rw [show (w.sup s).meter.line c op mem = _ from hs]
        rfl
  | guarded n => exact absurd hg id
  | varSet x val =>
    refine hmd (f := fun m => x.set m w.driver val) (fun m' d' hok => ?_) h
    unfold Variable.set at hok ⊢
    split at hok
    · split at hok
      · cases hok
      · rename_i t ht hc
        refine (set_sup hok).imp fun s hs => ?_
        rw [if_neg hc]
        exact hs
    · exact set_sup hok
  | varGet x => exact hrd h
  | hashSet hv ix val =>
    refine hmd (f := fun m => hv.setItem m w.driver ix val) (fun m' d' hok => ?_) h
    unfold HashVar.setItem at hok ⊢
    cases hvk : validateKey ix with
    | error e => rw [hvk] at hok; cases hok
    | ok s =>
      rw [hvk] at hok
      exact set_sup hok
  | hashGet hv ix => exact hrd h
  | hashAll hv args => exact hrd h
  | hashItems hv args => exact hrd h
  | hashClear hv args =>
    refine hmd (f := fun m => hv.clear m w.driver args) (fun m' d' hok => ?_) h
    unfold HashVar.clear at hok ⊢
    cases hi : hv.items w.driver args with
    | mk r d =>
      rw [hi] at hok
      cases r with
      | error e => cases hok
      | ok kvs => exact deleteKeys_sup _ hok
  | foreignVarSet x v => simp only [Action.run, foreignVariableSet, World.md] at h; cases h
  | foreignHashSet hv ix v => simp only [Action.run, foreignHashSetItem, World.md] at h; cases h
  | foreignHashClear hv args => simp only [Action.run, Verif.foreignHashClear, World.md] at h; cases h
  | newLog ev ps =>
    simp only [Action.run] at h ⊢
    unfold Verif.newLog at h ⊢
    simp only at h ⊢
    split at h
    · cases h
    · rename_i c1
      split at h
      · cases h
      · rename_i c2
        split at h
        · cases h
        · rename_i c3
          cases h
          refine .still fun s => ?_
          rw [if_neg c1, if_neg c2, if_neg c3]
          rfl
  | emit l data =>
    simp only [Action.run] at h ⊢
    cases hl : w.logs[l]? with
    | none => rw [hl] at h; cases h
    | some lg =>
      rw [hl] at h
      have hl' : ∀ s, (w.sup s).logs[l]? = some lg := fun _ => hl
      simp only at h
      unfold emitEvent at h
      split at h
      · cases h
      · rename_i c1
        split at h
        · cases h
        · rename_i c2
          split at h
          · cases h
          · rename_i c3
            simp only at h
            cases h1 : chargeArgs w.meter (selectArgs lg.params data true) with
            | mk r m1 =>
              rw [h1] at h
              cases r with
              | error e => cases h
              | ok u =>
                simp only at h
                cases h2 : chargeArgs m1 (selectArgs lg.params data false) with
                | mk r m2 =>
                  rw [h2] at h
                  cases r with
                  | error e => cases h
                  | ok u =>
                    cases h
                    refine (chargeArgs_sup _ h1).trans (chargeArgs_sup _ h2) fun s a2 b2 => ?_
                    rw [hl' s]
                    simp only
                    unfold emitEvent
                    rw [if_neg c1, if_neg c2, if_neg c3]
                    simp only
                    rw [show chargeArgs (w.sup s).meter _ = _ from a2]
                    simp only
                    rw [b2]
                    rfl
  | seed salt =>
    simp only [Action.run] at h ⊢
    unfold doSeed at h ⊢
    split at h
    · cases h
    · rename_i t ht
      cases h
      refine .still fun s => ?_
      rw [show seedText H (w.sup s).env salt = _ from ht]
      rfl
  | getrandbits k =>
    simp only [Action.run] at h ⊢
    unfold doGetrandbits at h ⊢
    simp only at h ⊢
    split at h
    · cases h
    · rename_i c1
      split at h
      · cases h
      · rename_i c2
        cases h
        refine .still fun s => ?_
        rw [if_neg (show ¬ (!(w.sup s).seeded) = true from c1)]
        rw [if_neg (show ¬ (drawBits H (w.sup s).rng k).1 = [] from c2)]
        rfl
  | draw q =>
    simp only [Action.run] at h ⊢
    unfold doDraw at h ⊢
    split at h
    · cases h
    · rename_i c1
      have h1 : H.draw w.rng q = .ok v := congrArg Prod.fst h
      have h2 := congrArg Prod.snd h
      simp only at h2
      subst h2
      refine .still fun s => ?_
      rw [if_neg (show ¬ (!(w.sup s).seeded) = true from c1)]
      exact Prod.ext h1 rfl
  | ownerOf name => exact hrd h
  | rawGet key => exact hrd h
  | rawSet key val => exact hmd (f := fun m => w.driver.set m key val false) (fun m' d' hok => set_sup hok) h
  | _ => simp only [Action.run] at h; cases h; exact .still fun _ => rfl

theorem enter_sup (c : Str) (w : World) (s : Int) : enter c (w.sup s) = ((enter c w).1, (enter c w).2.sup s) := by
  unfold enter
  by_cases hc : w.current.this ≠ some c
  · rw [if_pos hc, if_pos (show (w.sup s).current.this ≠ some c from hc)]
    rw [show (w.sup s).driver = w.driver from rfl]
    cases hg : w.driver.getOwner c with
    | mk r d =>
      cases r with
      | error e => rfl
      | ok owner =>
        simp only
        have ha : ∀ (x : World) (f : Frame), (x.sup s).addState f = (x.addState f).sup s := by
          intro x f
          unfold World.addState
          show (if x.current.this ≠ f.this ∧ x.stack.length < World.maxFrames then _ else _) = _
          split <;> rfl
        show (if ownerRefuses owner w.current.this = true then
            (Except.error PyErr.exception, (({ w with driver := d } : World).sup s).addState _) else (.ok (), (({ w with driver := d } : World).sup s).addState _)) = _
        rw [ha]
        split <;> rfl
  · rw [if_neg hc, if_neg (show ¬ (w.sup s).current.this ≠ some c from hc)]
    refine Prod.ext rfl ?_
    show (w.sup s).insState = w.insState.sup s
    unfold World.insState
    show (match w.stack with | [] => w.sup s | (f, n) :: t => _) = _
    cases w.stack <;> rfl

theorem popState_sup (w : World) (s : Int) : (w.sup s).popState = w.popState.sup s := by
  unfold World.popState
  show (match w.stack with | [] => w.sup s | (f, n) :: t => _) = _
  cases w.stack with
  | nil => rfl
  | cons f t => simp only; split <;> rfl

theorem lookup_sup (H : Host) (w : World) (name : Str) (s : Int) : lookup H (w.sup s) name = ((lookup H w name).1, (lookup H w name).2.sup s) := by
  unfold lookup
  show (if name ∈ w.loaded then _ else if _ then _ else if _ then _ else match w.driver.get _ with | (.error e, d) => _ | (.ok v, d) => _) = _
  split
  · rfl
  split
  · rfl
  split
  · rfl
  cases w.driver.get (makeKey name (py! "__code__")) with
  | mk r d =>
    cases r with
    | error e => rfl
    | ok v => simp only; split <;> rfl

theorem fetchCompiled_sup (w : World) (name : Str) (s : Int) : fetchCompiled (w.sup s) name = ((fetchCompiled w name).1, (fetchCompiled w name).2.sup s) := by
  unfold fetchCompiled
  show (match w.driver.get _ with | (.error e, d) => _ | (.ok v, d) => _) = _
  cases w.driver.get (makeKey name (py! "__compiled__")) with
  | mk r d =>
    cases r with
    | error e => rfl
    | ok v => cases v <;> rfl

theorem dynChecks_sup (H : Host) (w : World) (name : Str) (s : Int) : dynChecks H (w.sup s) name = ((dynChecks H w name).1, (dynChecks H w name).2.sup s) := by
  unfold dynChecks
  show (if _ then _ else if _ then _ else if _ then _ else if _ then _ else match w.driver.get _ with | (.error e, d) => _ | (.ok v, d) => _) = _
  split
  · rfl
  split
  · rfl
  split
  · rfl
  split
  · rfl
  cases w.driver.get (makeKey name (py! "__code__")) with
  | mk r d =>
    cases r with
    | error e => rfl
    | ok v => simp only; split <;> rfl

theorem restrictedCheck_sup (H : Host) (w : World) (name : Str) (s : Int) :
    restrictedCheck H (w.sup s) name = ((restrictedCheck H w name).1, (restrictedCheck H w name).2.sup s) := by
  unfold restrictedCheck
  rw [lookup_sup]
  show (if w.restricted then _ else _) = _
  split
  · cases lookup H w name with
    | mk r w1 =>
      cases r with
      | error e => rfl
      | ok f => cases f <;> rfl
  · rfl

theorem importStart_sup (H : Host) (w : World) (name : Str) (dyn : Bool) (s : Int) :
    importStart H (w.sup s) name dyn = ((importStart H w name dyn).1, (importStart H w name dyn).2.sup s) := by
  unfold importStart
  rw [dynChecks_sup, restrictedCheck_sup]
  have : (if dyn = true then ((dynChecks H w name).1, (dynChecks H w name).2.sup s) else ((restrictedCheck H w name).1, (restrictedCheck H w name).2.sup s)) =
      ((if dyn = true then dynChecks H w name else restrictedCheck H w name).1, (if dyn = true then dynChecks H w name else restrictedCheck H w name).2.sup s) := by
    cases dyn <;> rfl
  rw [this]
  cases (if dyn = true then dynChecks H w name else restrictedCheck H w name) with
  | mk r w1 =>
    cases r with
    | error e => rfl
    | ok u =>
      simp only
      rw [lookup_sup]
      cases lookup H w1 name with
      | mk r w2 =>
        cases r with
        | error e => rfl
        | ok f =>
          cases f with
          | contract =>
            simp only
            rw [fetchCompiled_sup]
            cases fetchCompiled w2 name with
            | mk r w3 => cases r <;> rfl
          | _ => rfl

/-- **A program that returns does the same with any supply that is not less than what is spent then.** -/
theorem Lockstep.sup {H : Host} {b : Nat} {p q : Prog} (h : Lockstep b p q) : ∀ {w : World}, w.meter.started = true →
    w.meter.calls ≤ maxCallCount → maxCallCount < w.meter.calls + b → ∀ {v w'}, p.run H w = (.ok v, w') →
    Afforded w.meter w'.meter fun s => p.run H (w.sup s) = (.ok v, w'.sup s) := by
  induction h with
  | out p q => intro w _ h1 h2; omega
  | ret v => intro w hs _ _ v w' e; cases e; exact .still fun _ => rfl
  | raise e => intro w _ _ _ v w' e; cases e
  | @tick b x y k k' _ ih =>
    intro w hs h1 h2 v w' e
    simp only [api, Prog.run] at e ⊢
    cases hr : Action.run H w (.line true x y) with
    | mk r w1 =>
      rw [hr] at e
      cases r with
      | error e' => cases e
      | ok u =>
        have hg : Going w.meter w1.meter := Action.going (a := .line true x y) trivial hs hr
        have hc : w1.meter.calls = w.meter.calls + 1 := by
          simp only [Action.run] at hr
          cases hl : w.meter.line true x y with
          | mk r m =>
            rw [hl] at hr
            cases r with
            | error e => cases hr
            | ok u => cases hr; exact (line_going hs hl).2
        refine (Action.sup (a := .line true x y) trivial hr).trans (ih u hg.started (hg.bound h1) (by omega) e) fun s a2 b2 => ?_
        rw [a2]
        exact b2
  | @act b a k k' ha _ ih =>
    intro w hs h1 h2 v w' e
    simp only [api, Prog.run] at e ⊢
    cases hr : Action.run H w a with
    | mk r w1 =>
      rw [hr] at e
      cases r with
      | error e' => cases e
      | ok u =>
        have hg := Action.going ha hs hr
        refine (Action.sup ha hr).trans (ih u hg.started (hg.bound h1) (by have := hg.calls; omega) e) fun s a2 b2 => ?_
        rw [a2]
        exact b2
  | @call b c body body' k k' hbody _ ih1 ih2 =>
    intro w hs h1 h2 v w' e
    simp only [Prog.run] at e ⊢
    have hm := enter_meter c w
    simp only [enter_sup]
    cases hr : enter c w with
    | mk r w1 =>
      rw [hr] at hm e
      simp only at hm e ⊢
      cases r with
      | error e' => cases e
      | ok u =>
        simp only at e ⊢
        cases hr2 : Prog.run H body w1 with
        | mk r w2 =>
          rw [hr2] at e
          cases r with
          | error e' => cases e
          | ok x =>
            have hg := (hbody.run (w := w1) (hm ▸ hs) (hm ▸ h1) (hm ▸ h2)).2 x w2 hr2
            have ha := ih1 (w := w1) (hm ▸ hs) (hm ▸ h1) (hm ▸ h2) hr2
            rw [hm] at hg ha
            have hp := popState_meter w2
            simp only [orRaise] at e ⊢
            have hb := ih2 x (w := w2.popState) (hp ▸ hg.started) (hp ▸ hg.bound h1) (by rw [hp]; have := hg.calls; omega) e
            rw [hp] at hb
            refine ha.trans hb fun s a2 b2 => ?_
            rw [a2]
            simp only
            rw [popState_sup]
            exact b2
  | @load b n d body body' k k' hbody _ ih1 ih2 =>
    intro w hs h1 h2 v w' e
    simp only [Prog.run] at e ⊢
    have hm := importStart_meter H w n d
    simp only [importStart_sup]
    cases hr : importStart H w n d with
    | mk r w1 =>
      rw [hr] at hm e
      simp only at hm e ⊢
      have hk : ∀ x, (k x).run H w1 = (.ok v, w') →
          Afforded w.meter w'.meter fun s => (k x).run H (w1.sup s) = (.ok v, w'.sup s) := by
        intro x e
        have := ih2 x (w := w1) (hm ▸ hs) (hm ▸ h1) (hm ▸ h2) e
        rw [hm] at this
        exact this
      cases r with
      | error e' => cases e
      | ok f =>
        cases f with
        | missing => cases e
        | host => exact hk .none e
        | loaded => exact hk .none e
        | contract =>
          simp only at e ⊢
          cases hr2 : Prog.run H body w1 with
          | mk r w2 =>
            rw [hr2] at e
            cases r with
            | error e' => cases e
            | ok x =>
              have hg := (hbody.run (w := w1) (hm ▸ hs) (hm ▸ h1) (hm ▸ h2)).2 x w2 hr2
              have ha := ih1 (w := w1) (hm ▸ hs) (hm ▸ h1) (hm ▸ h2) hr2
              rw [hm] at hg ha
              simp only [orRaise] at e ⊢
              have hb := ih2 .none (w := w2.addLoaded n) hg.started (hg.bound h1) (by
                have := hg.calls
                show maxCallCount < w2.meter.calls + b
                omega) e
              refine ha.trans hb fun s a2 b2 => ?_
              rw [a2]
              exact b2

end Verif
