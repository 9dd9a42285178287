import Verif.Props.Driver
import Verif.Props.Executor
import Verif.Model.Client
/-!
# Properties C59, C63, C64: the client
-/
namespace Verif
open Spec (PlainKey Call Readable Maps)

theorem Client.call_cfg (H : Host) (c : Client) (q : ClientCall) :
    (c.call H q).2.cfg = c.cfg ∧ (c.call H q).2.name = c.name ∧ (c.call H q).2.signer = c.signer ∧
      (c.call H q).2.production = c.production := by
  unfold Client.call
  simp only
  cases h : execute H _ _ _ with
  | mk r w =>
    cases r with
    | error e => simp only; split <;> exact ⟨rfl, rfl, rfl, rfl⟩
    | ok o => simp only; repeat' split
              all_goals exact ⟨rfl, rfl, rfl, rfl⟩

/-! ## C59: private functions through the client -/

/-- The executor of this client refuses every private function (name beginning with `__`) without running anything. -/
def Spec.RefusesPrivate (H : Host) (c : Client) : Prop :=
  ∀ tx : Tx, (∃ rest, tx.function = '_' :: '_' :: rest) → ∀ w,
    execute H c.cfg tx w = (.error .assertion, { w with driver := { w.driver with txWrites := [], events := [] } })

/-- **C59, after a successful call.** When `run_private_function` returns a value, the executor refuses private
functions again, whatever it did before. -/
theorem C59_success {H : Host} {c c' : Client} {q : ClientCall} {v : PyVal} (h : c.runPrivate H q = (.ok v, c')) :
    Spec.RefusesPrivate H c' := by
  intro tx ⟨rest, hr⟩ w
  refine C34_private ?_ hr
  unfold Client.runPrivate at h
  simp only at h
  split at h
  · cases h
  · cases h; rfl

/-- **C59, after a failed call.** When `run_private_function` raises, the protection stays off (client.py:109 is not
reached): every later call may name a private function. -/
theorem C59_failure {H : Host} {c c' : Client} {q : ClientCall} {e : PyErr} (h : c.runPrivate H q = (.error e, c')) :
    c'.cfg.bypassPrivates = true := by
  unfold Client.runPrivate at h
  simp only at h
  split at h
  · rename_i e' c1 hc
    cases h
    have := (congrArg (fun r => r.2.cfg.bypassPrivates) hc).symm
    rw [(Client.call_cfg H _ _).1] at this
    exact this
  · cases h

namespace ClientDemo
/-- A client of `con_a` on a process where it is deployed and `bob` is rich. -/
def client : Client := { name := Demo.conA, signer := Demo.bob, environment := [], cfg := {}, world := Demo.world (Demo.stored Demo.conA ++ [(Demo.bobKey, .int 100000)]) }
/-- A client on an empty storage. -/
def fresh : Client := { name := Demo.conA, signer := Demo.bob, environment := [], cfg := {}, world := { driver := .open [] } }
/-- A private function that sets `x`. -/
def good : ClientCall :=
  { func := py! "secret", signer := [], clock := .int 1,
    code := { top := .ret .none, fn := some (false, fun _ => Demo.step (.varSet Demo.x (.int 1)) (.ret (.int 7))) } }
/-- A private function that raises. -/
def bad : ClientCall := { good with code := { top := .ret .none, fn := some (false, fun _ => .raise .assertion) } }
end ClientDemo

/-- Both cases occur. -/
example : (ClientDemo.client.runPrivate Demo.host ClientDemo.good).1 = .ok (.int 7) ∧
    (ClientDemo.client.runPrivate Demo.host ClientDemo.bad).1 = .error .assertion := by decide +kernel

/-- **C59 is false**: after a private function called through the client raised, an ordinary transaction reaches a private
function, and succeeds. -/
theorem C59_refuted :
    let c := (ClientDemo.client.runPrivate Demo.host ClientDemo.bad).2
    let tx : Tx := { Demo.tx (.ret (.int 7)) with function := py! "__secret" }
    (execute Demo.host ClientDemo.client.cfg tx ClientDemo.client.world).1.map Output.status = .error .assertion ∧
    (execute Demo.host c.cfg tx c.world).1.map Output.status = .ok 0 := by decide +kernel

/-! ## C63: the time a client call runs at -/

/-- The `now` a call of this client with its own environment would run with. -/
def Spec.nowOf (c : Client) : PyVal := dget c.environment (py! "now")

theorem fillNow_now (env : Dict Str PyVal) (now clock : PyVal) :
    dget (fillNow env now clock) (py! "now") =
      if (dget env (py! "now")).isNone then (if now.isNone then clock else now) else dget env (py! "now") := by
  unfold fillNow
  split
  · rename_i h
    simp [dget, Dict.get?_set]
  · rfl

theorem Client.call_env (H : Host) (c : Client) (q : ClientCall) :
    (c.call H q).2.environment =
      if q.env.length = 0 then fillNow c.environment q.now q.clock else c.environment := by
  unfold Client.call
  simp only
  cases h : execute H _ _ _ with
  | mk r w =>
    cases r with
    | error e => simp only; split <;> simp_all
    | ok o => simp only; repeat' split
              all_goals simp_all

theorem Client.runPrivate_env (H : Host) (c : Client) (q : ClientCall) :
    (c.runPrivate H q).2.environment =
      if q.env.length = 0 then fillNow c.environment .none q.clock else c.environment := by
  unfold Client.runPrivate
  simp only
  split
  · rename_i e c1 hc
    have := Client.call_env H { c with cfg := { c.cfg with bypassPrivates := true } }
      { q with signer := if q.signer = [] then c.signer else q.signer,
               func := if startsWith q.func (py! "__") then q.func else py! "__" ++ q.func, metering := none, now := .none }
    rw [hc] at this
    exact this
  · rename_i v c1 hc
    have := Client.call_env H { c with cfg := { c.cfg with bypassPrivates := true } }
      { q with signer := if q.signer = [] then c.signer else q.signer,
               func := if startsWith q.func (py! "__") then q.func else py! "__" ++ q.func, metering := none, now := .none }
    rw [hc] at this
    exact this

/-- The client after a history of calls, ordinary (`false`) or private (`true`). -/
def Spec.clientAfter (H : Host) (c : Client) : List (Bool × ClientCall) → Client
  | [] => c
  | (priv, q) :: qs => clientAfter H (if priv then (c.runPrivate H q).2 else (c.call H q).2) qs

/-- **C63, the first call.** A call with the client's own environment, when that has no `now` yet, runs with the time of the
call (or the given one). -/
theorem C63_first (H : Host) (c : Client) (q : ClientCall) (ho : q.env = []) (hn : Spec.nowOf c = .none) :
    Spec.nowOf (c.call H q).2 = if q.now.isNone then q.clock else q.now := by
  unfold Spec.nowOf at *
  rw [Client.call_env]
  simp only [ho, List.length_nil, if_true]
  rw [fillNow_now, hn]
  rfl

/-- **C63 is false in general.** Once the client's environment has a `now`, every later call with that environment,
however much later, runs with the same `now`: neither the clock nor an explicit `now` argument is used. -/
theorem C63_sticky (H : Host) (c : Client) (qs : List (Bool × ClientCall)) (hn : Spec.nowOf c ≠ .none) :
    Spec.nowOf (Spec.clientAfter H c qs) = Spec.nowOf c := by
  have key : ∀ (c : Client) (env : Dict Str PyVal) (now clock : PyVal) (b : Bool), Spec.nowOf c ≠ .none →
      dget (if b then fillNow c.environment now clock else c.environment) (py! "now") = Spec.nowOf c := by
    intro c env now clock b h
    cases b
    · rfl
    · simp only [if_true]
      rw [fillNow_now, if_neg]
      · rfl
      · intro h0; exact h (isNone_iff.1 h0)
  induction qs generalizing c with
  | nil => rfl
  | cons p qs ih =>
    obtain ⟨priv, q⟩ := p
    have h1 : Spec.nowOf (if priv then (c.runPrivate H q).2 else (c.call H q).2) = Spec.nowOf c := by
      unfold Spec.nowOf
      cases priv
      · simp only [Bool.false_eq_true, if_false]
        rw [Client.call_env]
        have := key c [] q.now q.clock (decide (q.env.length = 0)) hn
        simpa [Spec.nowOf] using this
      · simp only [if_true]
        rw [Client.runPrivate_env]
        have := key c [] .none q.clock (decide (q.env.length = 0)) hn
        simpa [Spec.nowOf] using this
    show Spec.nowOf (Spec.clientAfter H _ qs) = _
    rw [ih _ (by rw [h1]; exact hn), h1]

/-- **C63 is false**: a contract that returns `now`, called at time 1 and again at time 2, answers 1 both times. -/
theorem C63_refuted :
    let q (t : Int) : ClientCall :=
      { func := py! "f", signer := Demo.bob, clock := .int t,
        code := { top := .ret .none, fn := some (true, fun _ => .act (.envGet (py! "now")) fun r =>
          match r with | .ok v => .ret v | .error e => .raise e) } }
    let r1 := ClientDemo.client.call Demo.host (q 1)
    let r2 := r1.2.call Demo.host (q 2)
    r1.1 = .ok (.int 1) ∧ r2.1 = .ok (.int 1) := by decide +kernel

/-! ## C64: quick_write and quick_read -/

theorem makeKeyArgs_eq (c n : Str) (args : List Str) : makeKeyArgs c n args = Spec.stateKey c n args := by
  cases args with
  | nil => rw [← makeKey_eq]; rfl
  | cons x xs =>
    simp only [makeKeyArgs]
    rw [joinWith_cons, makeKey_eq]
    simp [Spec.stateKey]

/-- **C64.** On any reachable storage and outside metered runs, `quick_write` of a storable value (`None`: deletion) under
plain names succeeds; it writes the key `contract.variable:component:...` that the contract's own variable or hash entry
uses (C12); `quick_read` then returns the value (a float as decimal, decimals up to representation), and so does a fresh
process on the same storage; every other key reads the same as before or, if a deletion of it was pending, nothing. -/
theorem C64_quick_write {c : Client} (hr : Spec.Reachable c.world.driver) {var : Str} {key : Option Str} {args : List Str}
    {v : PyVal} (hv : Storable v) (hn : Spec.Plain c.name) (hvar : Spec.Plain var)
    (ha : ∀ a ∈ key.toList ++ args, Spec.Plain a) (hm : c.world.meter.started = false)
    (hnorm : ∃ u, normValue v = .ok u) :
    ∃ c' u, c.quickWrite var key args v = (.ok (), c') ∧ normValue v = .ok u ∧
      (∃ x, (c'.quickRead var key args).1 = .ok x ∧ PyEq u x ∧
        ((Driver.open c'.world.driver.disk).get (Spec.stateKey c.name var (key.toList ++ args))).1 = .ok x) ∧
      ∀ k, PlainKey k → k ≠ Spec.stateKey c.name var (key.toList ++ args) →
        ∃ a b, (c.world.driver.get k).1 = .ok a ∧ (c'.world.driver.get k).1 = .ok b ∧
          ((Dict.get? c.world.driver.pendingWrites k = some .none → b = .none) ∧
           (Dict.get? c.world.driver.pendingWrites k ≠ some .none → PyEq a b)) := by
  obtain ⟨s, hs⟩ := hr.sim
  obtain ⟨u, hu⟩ := hnorm
  have hk : PlainKey (Spec.stateKey c.name var (key.toList ++ args)) := ⟨_, _, _, hn, hvar, ha, rfl⟩
  have hset := hs.set (m := c.world.meter) (txn := false) hk hv
  have hacc := hs.set_accepts c.world.meter (Spec.stateKey c.name var (key.toList ++ args)) v false
  obtain ⟨t, _, he, _⟩ := C08_roundtrip hv
  have hacc' : setAccepts c.world.meter (Spec.stateKey c.name var (key.toList ++ args)) v = true := by
    simp [setAccepts, he, Meter.deductWrite, hm, hu]
  rw [hacc'] at hacc
  rcases hd : c.world.driver.set c.world.meter (Spec.stateKey c.name var (key.toList ++ args)) v false with ⟨r, m1, d1⟩
  rw [hd] at hset hacc
  cases r with
  | error e => cases hacc
  | ok x =>
    simp only at hset
    obtain ⟨u', hu', hs1⟩ := hset
    rw [hu] at hu'
    cases hu'
    obtain ⟨d2, hc2, hs2⟩ := hs1.commit
    refine ⟨{ c with world := { c.world with meter := m1, driver := d2 } }, u, ?_, hu, ?_, ?_⟩
    · unfold Client.quickWrite quickArgs
      rw [makeKeyArgs_eq, hd]
      simp only [hc2]
    · obtain ⟨x, hx, hp⟩ := hs2.find hk
      have hdisk := hs2.disk _ hk
      have hd2 : d2.pendingWrites = [] ∧ d2.cache = [] := by
        unfold Driver.commit at hc2
        rcases hl : Driver.commitLoop d1.disk d1.pendingWrites with ⟨r, disk'⟩
        rw [hl] at hc2
        cases r <;> cases hc2
        exact ⟨rfl, rfl⟩
      refine ⟨x, ?_, ?_, ?_⟩
      · simp only [Client.quickRead, quickArgs, World.rd]
        rw [makeKeyArgs_eq, (Driver.get_frame _ _).2]
        exact hx
      · simpa [Maps.readDeferred, Maps.persist, Maps.read, Maps.write] using hp
      · rw [(Driver.get_frame _ _).2]
        unfold Driver.find Driver.fromDisk at hx
        simp [hs2.bypass, hd2, dget, PyVal.isNone] at hx
        unfold Driver.find Driver.fromDisk
        simp [Driver.open, dget, PyVal.isNone, hx]
    · intro k hk' hne
      obtain ⟨a, ha1, ha2⟩ := hs.find hk'
      obtain ⟨b, hb1, hb2⟩ := hs2.find hk'
      refine ⟨a, b, by rw [(Driver.get_frame _ _).2]; exact ha1, by rw [(Driver.get_frame _ _).2]; exact hb1, ?_, ?_⟩
      · intro h0
        rw [← hs.overlay] at h0
        have : PyEq .none b := by
          simpa [Maps.readDeferred, Maps.persist, Maps.read, Maps.write, hne, h0] using hb2
        exact this.none_eq
      · intro h0
        rw [← hs.overlay] at h0
        cases hov : s.overlay k with
        | none =>
          have e1 : PyEq (s.committed k) b := by
            simpa [Maps.readDeferred, Maps.persist, Maps.read, Maps.write, hne, hov] using hb2
          rw [readDeferred_committed (Or.inl hov)] at ha2
          exact ha2.symm.trans e1
        | some x =>
          have hx : x.isNone = false := by
            cases hn : x.isNone
            · rfl
            · rw [isNone_iff.1 hn] at hov; exact absurd hov h0
          have e1 : PyEq x b := by
            simpa [Maps.readDeferred, Maps.persist, Maps.read, Maps.write, hne, hov] using hb2
          rw [readDeferred_some hov hx] at ha2
          exact ha2.symm.trans e1

/-- A case that meets the hypotheses. -/
example : ∃ c' u, ClientDemo.fresh.quickWrite (py! "balances") (some (py! "alice")) [py! "bob"] (.int 5) = (.ok (), c') ∧
    normValue (.int 5) = .ok u ∧ (c'.quickRead (py! "balances") (some (py! "alice")) [py! "bob"]).1 = .ok (.int 5) := by
  obtain ⟨c', u, h1, h2, ⟨x, h3, h4, _⟩, _⟩ := C64_quick_write (c := ClientDemo.fresh) (var := py! "balances")
    (key := some (py! "alice")) (args := [py! "bob"]) (v := .int 5)
    ⟨[], [], readable_nil, by simp, rfl⟩ (by simp [Storable]) (by decide) (by decide) (by decide) rfl ⟨_, rfl⟩
  cases h2
  simp only [PyEq] at h4
  exact ⟨c', _, h1, rfl, by rw [h3, h4]⟩

end Verif
