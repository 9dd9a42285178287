import Verif.Proofs.Transaction
import Verif.Props.Isolation
import Verif.Spec.Types
import Verif.Proofs.Encoder
/-!
# Property C54: emitted events match their declaration
-/
namespace Verif

/-- The value is of one of the declared classes and its text is at most 1024 bytes. -/
def Spec.argOk (H : Host) (p : Param) (v : PyVal) : Prop :=
  (∃ t ∈ p.types, Spec.InstanceOf t v) ∧ utf8Len (H.str v) ≤ 1024

/-- An event matches declared parameters: its indexed and its other arguments are exactly the declared ones with and
without the flag, in order, each with an acceptable value. -/
def Spec.Matches (H : Host) (params : Dict Str Param) (e : Event) : Prop :=
  e.dataIndexed.map Prod.fst = (params.filter fun p => p.2.idx).map Prod.fst ∧
  e.data.map Prod.fst = (params.filter fun p => !p.2.idx).map Prod.fst ∧
  (∀ kv ∈ e.dataIndexed, ∃ p, (kv.1, p) ∈ params ∧ p.idx = true ∧ Spec.argOk H p kv.2) ∧
  (∀ kv ∈ e.data, ∃ p, (kv.1, p) ∈ params ∧ p.idx = false ∧ Spec.argOk H p kv.2)

/-- A declaration the constructor accepts: some parameter, at most three indexed ones, classes among str, int, float,
bool and decimal. -/
def Spec.Declarable (params : Dict Str Param) : Prop :=
  params ≠ [] ∧ (params.filter fun p => p.2.idx).length ≤ 3 ∧
  ∀ p ∈ params, ∀ t ∈ p.2.types, t = .str ∨ t = .int ∨ t = .float ∨ t = .bool ∨ t = .decimal

theorem select_keys (params : Dict Str Param) (data : Dict Str PyVal) (b : Bool)
    (h : ∀ p ∈ params, (Dict.get? data p.1).isSome = true) :
    (selectArgs params data b).map Prod.fst = (params.filter fun p => p.2.idx == b).map Prod.fst := by
  unfold selectArgs
  induction params with
  | nil => rfl
  | cons p ps ih =>
    have ih := ih (fun q hq => h q (by simp [hq]))
    simp only [List.filter_cons]
    split
    · have hp := h p (by simp)
      obtain ⟨v, hv⟩ := Option.isSome_iff_exists.mp hp
      simp only [List.filterMap_cons, hv, Option.map_some, List.map_cons, ih]
    · exact ih

theorem checkArg_ok {H : Host} {data : Dict Str PyVal} {p : Str × Param} (h : checkArg H data p = true) :
    ∃ v, Dict.get? data p.1 = some v ∧ Spec.argOk H p.2 v := by
  unfold checkArg at h
  cases hg : Dict.get? data p.1 with
  | none => rw [hg] at h; cases h
  | some v =>
    rw [hg] at h
    simp only [Bool.and_eq_true, List.any_eq_true, decide_eq_true_eq] at h
    obtain ⟨⟨t, ht, hi⟩, h2⟩ := h
    exact ⟨v, rfl, ⟨t, ht, isInstance_iff.1 hi⟩, h2⟩

theorem matches_select {H : Host} {params : Dict Str Param} {data : Dict Str PyVal}
    (h : params.all (checkArg H data) = true) (c : Option Str) (ev : Str) (sg cl : Option Str) :
    Spec.Matches H params { contract := c, event := ev, signer := sg, caller := cl,
                            dataIndexed := selectArgs params data true, data := selectArgs params data false } := by
  rw [List.all_eq_true] at h
  have hsome : ∀ p ∈ params, (Dict.get? data p.1).isSome = true := by
    intro p hp
    obtain ⟨v, hv, _⟩ := checkArg_ok (h p hp)
    rw [hv]; rfl
  have hval : ∀ b, ∀ kv ∈ selectArgs params data b, ∃ p, (kv.1, p) ∈ params ∧ p.idx = b ∧ Spec.argOk H p kv.2 := by
    intro b kv hkv
    unfold selectArgs at hkv
    simp only [List.mem_filterMap, List.mem_filter, beq_iff_eq] at hkv
    obtain ⟨p, ⟨hp, hb⟩, hm⟩ := hkv
    obtain ⟨v, hv, hok⟩ := checkArg_ok (h p hp)
    rw [hv] at hm
    simp only [Option.map_some, Option.some.injEq] at hm
    subst hm
    exact ⟨p.2, hp, hb, hok⟩
  refine ⟨?_, ?_, hval true, hval false⟩
  · rw [select_keys params data true hsome]
    congr 1
    apply List.filter_congr
    intro p _; simp
  · rw [select_keys params data false hsome]
    congr 1
    apply List.filter_congr
    intro p _; simp

/-- **C54, one event.** A call of an event object either raises and records nothing, or appends exactly one event, which
matches the declared parameters, holds the data given, and carries the running contract, its caller, the
declared event name and the signer of the object. -/
theorem C54_emit {H : Host} {w w' : World} {l : Nat} {lg : LogEvent} {data : Dict Str PyVal} {r : Except PyErr PyVal}
    (hl : w.logs[l]? = some lg) (h : Action.run H w (.emit l data) = (r, w')) :
    (∀ e, r = .error e → w'.driver = w.driver) ∧
    (∀ v, r = .ok v → ∃ e, w'.driver = { w.driver with events := w.driver.events ++ [e] } ∧ Spec.Matches H lg.params e ∧
      (∀ kv ∈ e.dataIndexed ++ e.data, Dict.get? data kv.1 = some kv.2) ∧ data.length = lg.params.length ∧
      e.contract = w.current.this ∧ e.caller = w.current.caller ∧ e.event = lg.event ∧ e.signer = lg.signer) := by
  simp only [Action.run, hl] at h
  unfold emitEvent at h
  split at h
  · cases h; exact ⟨fun _ _ => rfl, fun v hv => by cases hv⟩
  · rename_i hlen
    split at h
    · cases h; exact ⟨fun _ _ => rfl, fun v hv => by cases hv⟩
    · split at h
      · cases h; exact ⟨fun _ _ => rfl, fun v hv => by cases hv⟩
      · rename_i hck
        simp only at h
        split at h
        · cases h; exact ⟨fun _ _ => rfl, fun v hv => by cases hv⟩
        · split at h
          · cases h; exact ⟨fun _ _ => rfl, fun v hv => by cases hv⟩
          · cases h
            refine ⟨fun e he => (by cases he), ?_⟩
            intro v _
            refine ⟨_, rfl, ?_, ?_, by simpa using hlen, rfl, rfl, rfl, rfl⟩
            · exact matches_select (by simpa using hck) _ _ _ _
            · intro kv hkv
              simp only [List.mem_append, selectArgs, List.mem_filterMap] at hkv
              rcases hkv with ⟨p, _, hm⟩ | ⟨p, _, hm⟩
              all_goals
                cases hg : Dict.get? data p.1 with
                | none => rw [hg] at hm; cases hm
                | some v =>
                  rw [hg] at hm
                  simp only [Option.map_some, Option.some.injEq] at hm
                  subst hm
                  exact hg

theorem chargeArgs_off {m : Meter} (hm : m.started = false) (ps : List (Str × PyVal))
    (h : ∀ kv ∈ ps, Storable kv.2) : chargeArgs m ps = (.ok (), m) := by
  induction ps with
  | nil => rfl
  | cons p ps ih =>
    obtain ⟨k, v⟩ := p
    obtain ⟨j, hj, _⟩ := good_encode (h (k, v) (by simp))
    simp only [chargeArgs, encode, hj, Except.map, Meter.deductWrite, hm, Bool.false_eq_true, if_false]
    exact ih fun kv hkv => h kv (by simp [hkv])

/-- **C54, acceptance.** Data with exactly the declared arguments, each of a declared class and at most 1024 bytes, is
accepted (outside metering, where stamps can run out). -/
theorem C54_accepts {H : Host} {w : World} {l : Nat} {lg : LogEvent} {data : Dict Str PyVal}
    (hl : w.logs[l]? = some lg) (hm : w.meter.started = false) (hlen : data.length = lg.params.length)
    (hk : ∀ kv ∈ data, ∃ p, (kv.1, p) ∈ lg.params)
    (hv : ∀ p ∈ lg.params, ∃ v, Dict.get? data p.1 = some v ∧ Spec.argOk H p.2 v ∧ Storable v) :
    (Action.run H w (.emit l data)).1 = .ok .none := by
  have h1 : ((Dict.keys data).all fun a => Dict.has lg.params a) = true := by
    rw [List.all_eq_true]
    intro a ha
    unfold Dict.keys at ha
    obtain ⟨kv, hkv, rfl⟩ := List.mem_map.1 ha
    obtain ⟨p, hp⟩ := hk kv hkv
    unfold Dict.has
    rw [Dict.get?_isSome_iff]
    exact List.mem_map.2 ⟨_, hp, rfl⟩
  have h2 : lg.params.all (checkArg H data) = true := by
    rw [List.all_eq_true]
    intro p hp
    obtain ⟨v, hg, ⟨⟨t, ht, hi⟩, hs⟩, _⟩ := hv p hp
    unfold checkArg
    rw [hg]
    simp only [Bool.and_eq_true, List.any_eq_true, decide_eq_true_eq]
    exact ⟨⟨t, ht, isInstance_iff.2 hi⟩, hs⟩
  have h3 : ∀ b, ∀ kv ∈ selectArgs lg.params data b, Storable kv.2 := by
    intro b kv hkv
    unfold selectArgs at hkv
    simp only [List.mem_filterMap, List.mem_filter] at hkv
    obtain ⟨p, ⟨hp, _⟩, hm'⟩ := hkv
    obtain ⟨v, hg, _, hs⟩ := hv p hp
    rw [hg] at hm'
    simp only [Option.map_some, Option.some.injEq] at hm'
    subst hm'
    exact hs
  simp only [Action.run, hl, emitEvent, hlen, ne_eq, not_true_eq_false, if_false, h1, h2, Bool.not_true,
    Bool.false_eq_true, chargeArgs_off hm _ (h3 true), chargeArgs_off hm _ (h3 false)]

/-- A non-trivial case: `True` is accepted for a declared `int`. -/
example (H : Host) (hs : utf8Len (H.str (.bool true)) ≤ 1024) :
    let w : World := { driver := .open [], logs := [{ event := py! "E", params := [(py! "n", { types := [.int], idx := true })], signer := some (py! "s") }] }
    (Action.run H w (.emit 0 [(py! "n", .bool true)])).1 = .ok .none := by
  intro w
  refine C54_accepts (lg := { event := py! "E", params := [(py! "n", { types := [.int], idx := true })], signer := some (py! "s") })
    rfl rfl rfl (by simp) ?_
  intro p hp
  simp only [List.mem_singleton] at hp
  subst hp
  exact ⟨.bool true, rfl, ⟨⟨.int, by simp, .inr ⟨rfl, rfl⟩⟩, hs⟩, trivial⟩

/-- **C54, construction.** An event object is created exactly for acceptable declarations, with the signer of the
transaction; a refused one changes nothing. -/
theorem C54_declare (H : Host) (w : World) (name : Str) (params : Dict Str Param) :
    (Spec.Declarable params →
      Action.run H w (.newLog name params) = (.ok (.int w.logs.length),
        { w with logs := w.logs ++ [{ event := name, params := params, signer := w.current.signer }] })) ∧
    (¬ Spec.Declarable params → Action.run H w (.newLog name params) = (.error .assertion, w)) := by
  have hcount : ((Dict.values params).filter fun p => p.idx).length = (params.filter fun p => p.2.idx).length := by
    unfold Dict.values
    induction params with
    | nil => rfl
    | cons p ps ih => simp only [List.map_cons, List.filter_cons]; split <;> simp [ih]
  have hall : ((Dict.values params).all fun p => p.types.all fun t =>
      decide (t = .str ∨ t = .int ∨ t = .float ∨ t = .bool ∨ t = .decimal)) = true ↔
      ∀ p ∈ params, ∀ t ∈ p.2.types, t = .str ∨ t = .int ∨ t = .float ∨ t = .bool ∨ t = .decimal := by
    unfold Dict.values
    simp only [List.all_eq_true, List.mem_map, decide_eq_true_eq]
    constructor
    · intro h p hp; exact h p.2 ⟨p, hp, rfl⟩
    · rintro h _ ⟨p, hp, rfl⟩; exact h p hp
  simp only [Action.run, newLog]
  by_cases h1 : params = []
  · subst h1
    exact ⟨fun h => absurd rfl h.1, fun _ => rfl⟩
  · rw [if_neg (by simpa using h1), hcount]
    by_cases h2 : (params.filter fun p => p.2.idx).length > 3
    · rw [if_pos h2]
      exact ⟨fun h => absurd h.2.1 (by omega), fun _ => rfl⟩
    · rw [if_neg h2]
      by_cases h3 : ∀ p ∈ params, ∀ t ∈ p.2.types, t = .str ∨ t = .int ∨ t = .float ∨ t = .bool ∨ t = .decimal
      · rw [hall.2 h3]
        exact ⟨fun _ => rfl, fun h => absurd ⟨h1, by omega, h3⟩ h⟩
      · have : ((Dict.values params).all fun p => p.types.all fun t =>
            decide (t = .str ∨ t = .int ∨ t = .float ∨ t = .bool ∨ t = .decimal)) = false := by
          rw [Bool.eq_false_iff]; exact fun h => h3 (hall.1 h)
        rw [this]
        exact ⟨fun h => absurd h.2.2 h3, fun _ => rfl⟩

/-- Not a change of a parameter dictionary after the event object was built from it. -/
def Action.NoAlterLog : Action → Prop
  | .alterLog _ _ => False
  | _ => True

/-- An event as it should be in a transaction of `sender`. -/
def Spec.GoodEvent (H : Host) (sender : Str) (e : Event) : Prop :=
  e.signer = some sender ∧ ∃ params, Spec.Declarable params ∧ Spec.Matches H params e

/-- An event of a transaction of `sender` that is one of the declared ones. -/
def Spec.DeclaredEvent (H : Host) (declared : Str → Dict Str Param → Prop) (sender : Str) (e : Event) : Prop :=
  e.signer = some sender ∧ ∃ params, declared e.event params ∧ Spec.Declarable params ∧ Spec.Matches H params e

/-- Only declared event objects are built, and none is changed afterwards. -/
def Action.LogsOnly (declared : Str → Dict Str Param → Prop) : Action → Prop
  | .newLog e ps => declared e ps
  | .alterLog _ _ => False
  | _ => True

/-- Invariant of a transaction of `sender`. -/
def EvInv (H : Host) (declared : Str → Dict Str Param → Prop) (sender : Str) (w : World) : Prop :=
  w.base.signer = some sender ∧ (∀ f ∈ w.stack, f.1.signer = some sender) ∧
  (∀ l ∈ w.logs, declared l.event l.params ∧ Spec.Declarable l.params ∧ l.signer = some sender) ∧
  ∀ e ∈ w.driver.events, Spec.DeclaredEvent H declared sender e

theorem EvInv.current {H : Host} {declared : Str → Dict Str Param → Prop} {sender : Str} {w : World} (h : EvInv H declared sender w) : w.current.signer = some sender := by
  unfold World.current
  split
  · exact h.1
  · rename_i f n s hs
    exact h.2.1 (f, n) (by rw [hs]; simp)

theorem Action.run_logs {declared : Str → Dict Str Param → Prop} (H : Host) (w : World) (a : Action) (h : a.LogsOnly declared) :
    (a.run H w).2.logs = w.logs ∨
    ∃ lg, declared lg.event lg.params ∧ Spec.Declarable lg.params ∧ lg.signer = w.current.signer ∧ (a.run H w).2.logs = w.logs ++ [lg] := by
  cases a with
  | newLog ev ps =>
    by_cases hd : Spec.Declarable ps
    · right
      refine ⟨{ event := ev, params := ps, signer := w.current.signer }, h, hd, rfl, ?_⟩
      rw [(C54_declare H w ev ps).1 hd]
    · left; rw [(C54_declare H w ev ps).2 hd]
  | emit l data =>
    left
    simp only [Action.run]
    split
    · rfl
    · simp only [emitEvent]; repeat' split
      all_goals rfl
  | alterLog => exact absurd h id
  | seed s => left; simp only [Action.run, doSeed]; split <;> rfl
  | getrandbits k =>
    left; simp only [Action.run, doGetrandbits]; repeat' split
    all_goals rfl
  | draw q => left; simp only [Action.run, doDraw]; split <;> rfl
  | _ => left; rfl

theorem Action.run_events (H : Host) (w : World) (a : Action) :
    ∀ e ∈ (a.run H w).2.driver.events, e ∈ w.driver.events ∨
      ∃ lg ∈ w.logs, Spec.Matches H lg.params e ∧ e.event = lg.event ∧ e.signer = lg.signer := by
  by_cases hg : ∃ n, a = .guarded n
  · obtain ⟨n, rfl⟩ := hg
    intro e he; exact .inl he
  · have hs := Action.run_steps H w a (fun n hn => hg ⟨n, hn⟩)
    have := Steps.rel (R := fun s s' : MD => ∀ e ∈ s'.2.events, e ∈ s.2.events ∨ a.may H w (.event e))
      (fun s e he => .inl he)
      (fun x y z hxy hyz e he => by
        rcases hyz e he with h | h
        · exact hxy e h
        · exact .inr h)
      (fun s p hp e he => by
        cases p with
        | read r => exact .inl he
        | write k v txn =>
          simp only [Prim.run] at he
          have h5 := (Driver.set_frame s.1 s.2 k v txn).2.2.2.2.1
          rw [h5] at he
          exact .inl he
        | line c op mem => exact .inl he
        | charge n => exact .inl he
        | event ev =>
          simp only [Prim.run, Driver.setEvent, List.mem_append, List.mem_singleton] at he
          rcases he with he | rfl
          · exact .inl he
          · exact .inr hp
        | mutate k v x y =>
          left
          simp only [Prim.run, Driver.mutate] at he
          split at he <;> exact he) hs
    intro e he
    rcases this e he with h | h
    · exact .inl h
    · right
      cases a with
      | emit l data =>
        simp only [Action.may] at h
        obtain ⟨lg, hlg, _, _, hck, rfl⟩ := h
        exact ⟨lg, List.mem_of_getElem? hlg, matches_select hck _ _ _ _, rfl, rfl⟩
      | _ => simp [Action.may] at h

theorem enter_stack (c : Str) (w : World) :
    ∀ f ∈ (enter c w).2.stack, (∃ g ∈ w.stack, g.1.signer = f.1.signer) ∨ f.1.signer = w.current.signer := by
  unfold enter
  split
  · have key : ∀ (w' : World) (fr : Frame), w'.stack = w.stack → fr.signer = w.current.signer →
        ∀ f ∈ (w'.addState fr).stack, (∃ g ∈ w.stack, g.1.signer = f.1.signer) ∨ f.1.signer = w.current.signer := by
      intro w' fr hst hsg f hf
      unfold World.addState at hf
      split at hf
      · simp only [List.mem_cons] at hf
        rcases hf with rfl | hf
        · exact .inr hsg
        · rw [hst] at hf; exact .inl ⟨f, hf, rfl⟩
      · rw [hst] at hf; exact .inl ⟨f, hf, rfl⟩
    cases w.driver.getOwner c with
    | mk r d =>
      cases r with
      | error e => intro f hf; exact .inl ⟨f, hf, rfl⟩
      | ok owner =>
        simp only
        split
        · exact key { w with driver := d } _ rfl rfl
        · exact key { w with driver := d } _ rfl rfl
  · intro f hf
    unfold World.insState at hf
    split at hf
    · exact .inl ⟨f, hf, rfl⟩
    · rename_i fr n s hs
      simp only [List.mem_cons] at hf
      left
      rcases hf with rfl | hf
      · exact ⟨(fr, n), by rw [hs]; simp, rfl⟩
      · exact ⟨f, by rw [hs]; simp [hf], rfl⟩

theorem pop_stack (w : World) : ∀ f ∈ w.popState.stack, ∃ g ∈ w.stack, g.1.signer = f.1.signer := by
  intro f hf
  unfold World.popState at hf
  split at hf
  · exact ⟨f, hf, rfl⟩
  · rename_i fr n s hs
    split at hf
    · exact ⟨f, by rw [hs]; simp [hf], rfl⟩
    · simp only [List.mem_cons] at hf
      rcases hf with rfl | hf
      · exact ⟨(fr, n), by rw [hs]; simp, rfl⟩
      · exact ⟨f, by rw [hs]; simp [hf], rfl⟩

theorem EvInv.step {H : Host} {declared : Str → Dict Str Param → Prop} {sender : Str} (w : World) (e : Spec.Ev)
    (he : e.Is (Action.LogsOnly declared)) (h : EvInv H declared sender w) : EvInv H declared sender (e.run H w).2 := by
  have hcur := h.current
  obtain ⟨h1, h2, h3, h4⟩ := h
  cases e with
  | act a =>
    simp only [Spec.Ev.run]
    obtain ⟨b1, b2, _⟩ := Action.run_world H w a
    refine ⟨by rw [b1]; exact h1, by rw [b2]; exact h2, ?_, ?_⟩
    · rcases Action.run_logs H w a he with hl | ⟨lg, hdc, hd, hsg, hl⟩
      · rw [hl]; exact h3
      · rw [hl]
        intro l hm
        simp only [List.mem_append, List.mem_singleton] at hm
        rcases hm with hm | rfl
        · exact h3 l hm
        · exact ⟨hdc, hd, hsg.trans hcur⟩
    · intro ev hev
      rcases Action.run_events H w a ev hev with hm | ⟨lg, hlg, hmt, hev', hsg⟩
      · exact h4 ev hm
      · obtain ⟨d0, d1, d2⟩ := h3 lg hlg
        exact ⟨hsg.trans d2, lg.params, by rw [hev']; exact d0, d1, hmt⟩
  | enter c =>
    simp only [Spec.Ev.run]
    have hst := enter_stack c w
    obtain ⟨r, s, hx⟩ := enter_frame c w
    rw [hx] at hst ⊢
    refine ⟨h1, ?_, h3, h4⟩
    intro f hf
    rcases hst f hf with ⟨g, hg, hgs⟩ | hs
    · rw [← hgs]; exact h2 g hg
    · rw [hs]; exact hcur
  | exit =>
    simp only [Spec.Ev.run]
    have hst := pop_stack w
    obtain ⟨s, hx⟩ := popState_frame w
    rw [hx] at hst ⊢
    refine ⟨h1, ?_, h3, h4⟩
    intro f hf
    obtain ⟨g, hg, hgs⟩ := hst f hf
    rw [← hgs]; exact h2 g hg
  | importStart n d =>
    simp only [Spec.Ev.run]
    obtain ⟨r, hx⟩ := importStart_frame H w n d
    rw [hx]; exact ⟨h1, h2, h3, h4⟩
  | loaded n => exact ⟨h1, h2, h3, h4⟩

theorem all_weaken {P Q : Action → Prop} (h : ∀ a, P a → Q a) : ∀ {p : Prog}, p.All P → p.All Q := by
  intro p
  induction p with
  | ret v => exact id
  | raise e => exact id
  | act a k ih => exact fun hp => ⟨h _ hp.1, fun r => ih r (hp.2 r)⟩
  | call c b k ihb ihk => exact fun hp => ⟨ihb hp.1, fun r => ihk r (hp.2 r)⟩
  | load n d b k ihb ihk => exact fun hp => ⟨ihb hp.1, fun r => ihk r (hp.2 r)⟩

/-- The events of a successful transaction whose code builds declared event objects only are declared ones. -/
theorem events_declared {H : Host} {declared : Str → Dict Str Param → Prop} {cfg : ExecCfg} {tx : Tx} {w w' : World} {o : Output}
    (hw : Spec.Served H w) (hst : w.stack = []) (hc1 : tx.code.top.All (Action.LogsOnly declared))
    (hc2 : ∀ fn kwargs, fixKwargs tx.kwargs = .ok kwargs → tx.code.fn = some fn → (fn.2 kwargs).All (Action.LogsOnly declared))
    (h : execute H cfg tx w = (.ok o, w')) (hs : o.status = 0) :
    ∀ e ∈ o.events, Spec.DeclaredEvent H declared tx.sender e := by
  obtain ⟨v, w1, ha, _, hev⟩ := execute_success h hs
  rw [hev]
  rcases attempt_ok ha with ⟨_, _, r, hd⟩ | ⟨w0, w2, p, h0, hf, hrun⟩
  · rw [hd]; intro e he; cases he
  · obtain ⟨_, _, _, _, _, hlogs⟩ := hw.shape
    obtain ⟨r, owner, hw0⟩ := txPrepared_frame h0
    have hi0 : EvInv H declared tx.sender w0 := by
      rw [hw0]
      refine ⟨rfl, ?_, ?_, ?_⟩
      · intro f hf; simp only [hst] at hf; cases hf
      · intro l hl; simp only [hlogs] at hl; cases hl
      · intro e he; simp [Driver.clearTxWrites, Driver.clearEvents] at he
    obtain ⟨fn, kwargs, w3, sub, hfn, hkw, rfl, rfl, _, hw3⟩ := fnWorld_cases hf
    have hi3 : EvInv H declared tx.sender w3 := by
      rcases hw3 with ⟨r, rfl, _⟩ | ⟨wt, v, wv, ht, hrun', rfl⟩
      · exact hi0
      · obtain ⟨r, hwt⟩ := topWorld_frame ht
        have hit : EvInv H declared tx.sender wt := by rw [hwt]; exact hi0
        have := (events_inv EvInv.step tx.code.top hc1 wt hit).2
        rw [hrun'] at this
        exact this
    have hi4 : EvInv H declared tx.sender (setUp tx (tx.metered cfg) { w3 with base := { w3.base with submission := sub } }) := by
      refine ⟨hi3.1, ?_, hi3.2.2.1, hi3.2.2.2⟩
      intro f hf
      simp only [setUp] at hf
      cases hf
    have := (events_inv EvInv.step _ (entryProg_all (tx := tx) (hc2 fn kwargs hkw hfn)) _ hi4).2
    rw [hrun] at this
    exact this.2.2.2

/-- **C54.** Every event a successful transaction reports carries the sender as signer and matches, argument by
argument, an acceptable declaration (at most three indexed parameters) -- after any history of returned
transactions without leftover frames (C38), for every program that does not change a parameter dictionary after
building the event object (with such a change it is false: `C54_refuted`). -/
theorem C54_transaction {H : Host} {cfg : ExecCfg} {tx : Tx} {w w' : World} {o : Output} (hw : Spec.Served H w)
    (hst : w.stack = []) (hc : tx.code.All Action.NoAlterLog) (h : execute H cfg tx w = (.ok o, w')) (hs : o.status = 0) :
    ∀ e ∈ o.events, Spec.GoodEvent H tx.sender e := by
  have mono : ∀ p : Prog, p.All Action.NoAlterLog → p.All (Action.LogsOnly fun _ _ => True) := fun p => by
    refine all_weaken fun a ha => ?_
    cases a <;> first | exact trivial | exact ha
  intro e he
  obtain ⟨h1, ps, _, h2⟩ := events_declared hw hst (mono _ hc.1) (fun fn kwargs _ hf => mono _ (hc.2 fn hf kwargs)) h hs e he
  exact ⟨h1, ps, h2⟩

/-- A `Transfer` event with one indexed and one other argument. -/
def Demo.transfer : Dict Str Param :=
  [(py! "to", { types := [.str], idx := true }), (py! "amount", { types := [.int, .decimal], idx := false })]

/-- Declare and emit. -/
def Demo.emitter : Tx :=
  Demo.tx (Demo.step (.newLog (py! "Transfer") Demo.transfer)
    (Demo.step (.emit 0 [(py! "amount", .int 3), (py! "to", .str (py! "eve"))]) (.ret .none)))

example : let r := execute Demo.host {} Demo.emitter (freshWorld Demo.w0.driver)
    r.1.map Output.status = .ok 0 ∧ r.1.map (fun o => o.events.map fun e => (e.dataIndexed, e.data)) =
      .ok [([(py! "to", .str (py! "eve"))], [(py! "amount", .int 3)])] := by decide +kernel

/-- **C54 is false if the contract changes the parameter dictionary it declared the event with** (orm.py:168 keeps the
object itself): after two more entries and two flags are switched on, an event with four indexed arguments
is recorded. -/
theorem C54_refuted :
    let four : Dict Str Param := [py! "a", py! "b", py! "c", py! "d"].map fun k => (k, { types := [.int], idx := true })
    let tx : Tx := Demo.tx (Demo.step (.newLog (py! "E") Demo.transfer) (Demo.step (.alterLog 0 four)
      (Demo.step (.emit 0 ([py! "a", py! "b", py! "c", py! "d"].map fun k => (k, .int 1))) (.ret .none))))
    (execute Demo.host {} tx (freshWorld Demo.w0.driver)).1.map (fun o => o.events.map fun e => e.dataIndexed.length) = .ok [4] := by
  decide +kernel

end Verif
