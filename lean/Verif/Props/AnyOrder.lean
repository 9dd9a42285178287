import Verif.Props.Reads
import Verif.Spec.AnyOrder
/-!
# Property C109: transactions that are apart can be executed in any order
-/
namespace Verif
open Spec

theorem restart_stack {H : Host} {w : World} (h : Served H w) (hs : w.stack = []) (cfg : ExecCfg) (tx : Tx) :
    (execute H cfg tx w).1 = (execute H cfg tx (freshWorld w.driver)).1 ∧
    (execute H cfg tx w).2.driver = (execute H cfg tx (freshWorld w.driver)).2.driver ∧
    (execute H cfg tx w).2.stack = (execute H cfg tx (freshWorld w.driver)).2.stack := by
  obtain ⟨h1, h2, h3, h4, h5, h6⟩ := h.shape
  have hb : SameButBase (freshWorld w.driver) w := by
    refine ⟨w.rng, w.hostCalls, w.base, ?_, fun hx => by cases hx⟩
    obtain ⟨driver, meter, base, stack, seeded, rng, env, loaded, restricted, logs, calls⟩ := w
    simp only at h1 h2 h3 h4 h5 h6 hs
    subst h1 h2 h3 h4 h5 h6 hs
    rfl
  obtain ⟨e1, rng, calls, base, e2, _⟩ := execute_sameRun (H := H) (cfg := cfg) (tx := tx) hb
  exact ⟨e1.symm, by rw [e2], by rw [e2]⟩

theorem depends_world {H : Host} {cfg : ExecCfg} {tx : Tx} {w w1 : World} {e : Driver} {o : Output} (hp : tx.code.All CacheBlind)
    (ha : tx.autoCommit = false) (hb : w.driver.bypass = false ∧ e.bypass = false)
    (hr : Readable w.driver.disk ∧ Readable e.disk) (hok : execute H cfg tx w = (.ok o, w1))
    (h : ∀ k, Reads o k → SameUnder w.driver e k) :
    ∃ o' f, execute H cfg tx { w with driver := e } = (.ok o', { w1 with driver := f }) ∧ SameOutput o o' ∧
      Near True (Reads o) w.driver e w1.driver f := by
  obtain ⟨o', f, h1, h2, h3⟩ := execute_both (S := True) (code_all_mono (fun _ h => ⟨h, .inl trivial⟩) hp) ha
    (Near.start hb hr.1 hr.2 fun k hk => ⟨(h k hk).1, fun _ => (h k hk).2⟩) (fun k hk => (h k hk).1) hb (execute_ok hok).1 hok
    fun k hk => (keys_isSome _ _).1 hk
  exact ⟨o', f, h1, h2, h3⟩

/-- A state of the process between transactions that has the same disk and cache as `w`. -/
structure Aside (H : Host) (w x : World) : Prop where
  served : Served H x
  stack : x.stack = []
  bypass : x.driver.bypass = false
  cache : x.driver.cache = w.driver.cache
  disk : x.driver.disk = w.driver.disk

theorem Aside.step {H : Host} {w x : World} {r : Trial} (hw : Aside H w w) (hx : Aside H w x) (hr : Readable w.driver.disk)
    (ht : r.Of H w) (hap : ∀ k, Reads r.out k → Dict.get? x.driver.pendingWrites k = Dict.get? w.driver.pendingWrites k) :
    ∃ o' x', execute H r.cfg r.tx x = (.ok o', x') ∧ SameOutput r.out o' ∧ Aside H w x' ∧
      (∀ k, Reads r.out k → Dict.get? x'.driver.pendingWrites k = Dict.get? r.after.driver.pendingWrites k) ∧
      (∀ k, ¬ Reads r.out k → Dict.get? x'.driver.pendingWrites k = Dict.get? x.driver.pendingWrites k) ∧
      ∀ k, ¬ Reads r.out k → Dict.get? r.after.driver.pendingWrites k = Dict.get? w.driver.pendingWrites k := by
  have hb := hw.bypass
  have c1 := restart_stack hw.served hw.stack r.cfg r.tx
  rw [ht.ran] at c1
  cases hf : execute H r.cfg r.tx (freshWorld w.driver) with
  | mk r1 w1 =>
    rw [hf] at c1
    obtain ⟨c1, c2, c2'⟩ := c1
    simp only at c1 c2 c2'
    subst c1
    have hst : ∀ k, stored x.driver k = stored w.driver k :=
      fun k => find_eq_of (d := { w.driver with pendingWrites := [] }) (e := { x.driver with pendingWrites := [] }) hb hx.bypass hx.cache hx.disk rfl
    obtain ⟨o', f, h1, h2, hn⟩ := depends_world (w := freshWorld w.driver) (e := x.driver) ht.blind ht.manual ⟨hb, hx.bypass⟩
      ⟨hr, by rw [hx.disk]; exact hr⟩ hf fun k hk => ⟨find_eq_of hb hx.bypass hx.cache hx.disk (hap k hk), hst k⟩
    have c3 := restart_stack hx.served hx.stack r.cfg r.tx
    rw [show freshWorld x.driver = { freshWorld w.driver with driver := x.driver } from rfl, h1] at c3
    cases hg : execute H r.cfg r.tx x with
    | mk r2 x' =>
      rw [hg] at c3
      obtain ⟨c3, c4, c5⟩ := c3
      simp only at c3 c4 c5
      subst c3
      refine ⟨o', x', rfl, h2, ⟨.tx hx.served hg, ?_, ?_, ?_, ?_⟩, fun k hk => ?_, fun k hk => ?_, fun k hk => ?_⟩
      · rw [c5]; exact c2'.symm.trans ht.stack
      · rw [c4]; exact hn.bypass.2
      · rw [c4, hn.keepe.1, hx.cache]
      · rw [c4, hn.keepe.2, hx.disk]
      · rw [c4, c2]; exact hn.pend hap k hk
      · rw [c4]; exact hn.reste k hk
      · rw [c2]; exact hn.restd k hk

/-- Trying the transactions on their own tells what executing them one after the other does. -/
theorem all_steps {H : Host} {w : World} (hw : Aside H w w) (hr : Readable w.driver.disk) : ∀ (rs : List Trial) {x : World}, Aside H w x →
    (∀ r ∈ rs, r.Of H w) → rs.Pairwise (fun r s => Undisturbing w r s ∧ Undisturbing w s r) →
    (∀ r ∈ rs, ∀ k, Reads r.out k → Dict.get? x.driver.pendingWrites k = Dict.get? w.driver.pendingWrites k) →
    ∃ os a, Executed H x (rs.map fun r => (r.cfg, r.tx)) os a ∧ List.Forall₂ SameOutput (rs.map Trial.out) os ∧ Aside H w a ∧
      (∀ k, (∀ r ∈ rs, Dict.get? r.after.driver.pendingWrites k = Dict.get? w.driver.pendingWrites k) →
        Dict.get? a.driver.pendingWrites k = Dict.get? x.driver.pendingWrites k) ∧
      ∀ k, ∀ r ∈ rs, Dict.get? r.after.driver.pendingWrites k ≠ Dict.get? w.driver.pendingWrites k →
        Dict.get? a.driver.pendingWrites k = Dict.get? r.after.driver.pendingWrites k
  | [], x, hx, _, _, _ => ⟨[], x, .stop x, .nil, hx, fun _ _ => rfl, fun _ r hr => by cases hr⟩
  | r :: rs, x, hx, ht, hp, hap => by
    obtain ⟨hp1, hp2⟩ := List.pairwise_cons.1 hp
    obtain ⟨o', x', h1, h2, h3, h4, h5, h6⟩ := hw.step hx hr (ht r List.mem_cons_self) (hap r List.mem_cons_self)
    obtain ⟨os, a, g1, g2, g3, g4, g5⟩ := all_steps hw hr rs h3 (fun s hs => ht s (by simp [hs])) hp2 fun s hs k hk => by
      by_cases hk' : Reads r.out k
      · rw [h4 k hk']; exact (hp1 s hs).1 k hk
      · rw [h5 k hk']; exact hap s (by simp [hs]) k hk
    refine ⟨o' :: os, a, .tx h1 g1, .cons h2 g2, g3, fun k hk => ?_, fun k s hs hne => ?_⟩
    · rw [g4 k fun s hs => hk s (by simp [hs])]
      by_cases hk' : Reads r.out k
      · rw [h4 k hk', hk r List.mem_cons_self, hap r List.mem_cons_self k hk']
      · exact h5 k hk'
    · rcases List.mem_cons.1 hs with rfl | hs
      · have hk' : Reads s.out k := by
          by_contra hn
          exact hne (h6 k hn)
        rw [g4 k fun s' hs' => by
          by_contra hn
          have : Reads s'.out k := by
            by_contra hn'
            obtain ⟨_, _, _, _, _, _, _, q⟩ := hw.step hw hr (ht s' (by simp [hs'])) fun _ _ => rfl
            exact hn (q k hn')
          exact hne ((hp1 s' hs').1 k this)]
        exact h4 k hk'
      · exact g5 k s hs hne

/-- **C109.** Transactions none of which, executed on its own, changes what another one reports as read, can be executed one
after the other in any order: each has the result, events, stamps and reported writes that it has on its own, and the state in
the end is the same for all orders: under each key what the one transaction that changes it leaves on its own. -/
theorem C109_any_order {H : Host} {w : World} {rs rs' : List Trial} (hw : Served H w) (hs : w.stack = []) (hb : w.driver.bypass = false)
    (hr : Readable w.driver.disk) (ht : ∀ r ∈ rs, r.Of H w) (hp : rs.Pairwise fun r s => Undisturbing w r s ∧ Undisturbing w s r)
    (hq : rs.Perm rs') :
    ∃ os os' a b, Executed H w (rs.map fun r => (r.cfg, r.tx)) os a ∧ Executed H w (rs'.map fun r => (r.cfg, r.tx)) os' b ∧
      List.Forall₂ SameOutput (rs.map Trial.out) os ∧ List.Forall₂ SameOutput (rs'.map Trial.out) os' ∧
      (∀ k, b.driver.find k = a.driver.find k) ∧
      (∀ k, (∀ r ∈ rs, r.after.driver.find k = w.driver.find k) → a.driver.find k = w.driver.find k) ∧
      ∀ k, ∀ r ∈ rs, r.after.driver.find k ≠ w.driver.find k → a.driver.find k = r.after.driver.find k := by
  have hw' : Aside H w w := ⟨hw, hs, hb, rfl, rfl⟩
  obtain ⟨os, a, h1, h2, h3, h4, h5⟩ := all_steps hw' hr rs hw' ht hp fun _ _ _ _ => rfl
  obtain ⟨os', b, g1, g2, g3, g4, g5⟩ := all_steps hw' hr rs' hw' (fun r h => ht r (hq.mem_iff.2 h))
    (hp.perm hq fun h => ⟨h.2, h.1⟩) fun _ _ _ _ => rfl
  have hfind : ∀ r ∈ rs, ∀ {x : Driver} {k : Str}, x.bypass = false → x.cache = w.driver.cache → x.disk = w.driver.disk →
      Dict.get? x.pendingWrites k = Dict.get? r.after.driver.pendingWrites k → x.find k = r.after.driver.find k := by
    intro r hm x k e1 e2 e3 e4
    obtain ⟨_, _, _, _, n⟩ := depends_near (e := w.driver) (ht r hm).blind (ht r hm).manual ⟨hb, hb⟩ ⟨hr, hr⟩ (ht r hm).ran fun k _ => ⟨rfl, rfl⟩
    exact find_eq_of n.bypass.1 e1 (e2.trans n.keepd.1.symm) (e3.trans n.keepd.2.symm) e4
  refine ⟨os, os', a, b, h1, g1, h2, g2, fun k => ?_, fun k hk => ?_, fun k r hm hne => ?_⟩
  · by_cases hx : ∀ r ∈ rs, Dict.get? r.after.driver.pendingWrites k = Dict.get? w.driver.pendingWrites k
    · exact find_eq_of h3.bypass g3.bypass (g3.cache.trans h3.cache.symm) (g3.disk.trans h3.disk.symm)
        ((g4 k fun r hm => hx r (hq.mem_iff.2 hm)).trans (h4 k hx).symm)
    · push Not at hx
      obtain ⟨r, hm, hne⟩ := hx
      exact (hfind r hm g3.bypass g3.cache g3.disk (g5 k r (hq.mem_iff.1 hm) hne)).trans
        (hfind r hm h3.bypass h3.cache h3.disk (h5 k r hm hne)).symm
  · by_cases hx : ∀ r ∈ rs, Dict.get? r.after.driver.pendingWrites k = Dict.get? w.driver.pendingWrites k
    · exact find_eq_of hb h3.bypass h3.cache h3.disk (h4 k hx)
    · push Not at hx
      obtain ⟨r, hm, hne⟩ := hx
      exact (hfind r hm h3.bypass h3.cache h3.disk (h5 k r hm hne)).trans (hk r hm)
  · refine hfind r hm h3.bypass h3.cache h3.disk (h5 k r hm fun he => hne ?_)
    exact (hfind r hm hb rfl rfl he.symm).symm

/-- **C109**, in terms of what `execute` returns: transactions, successful or not, none of which reports as written what another
one reports as read. (Code that is not the submission contract's.) -/
theorem C109_disjoint {H : Host} {w : World} {rs rs' : List Trial} (hw : Served H w) (hs : w.stack = []) (hb : w.driver.bypass = false)
    (hr : Readable w.driver.disk) (ht : ∀ r ∈ rs, r.Of H w ∧ ∀ k, r.tx.code.All (Action.Tracked k))
    (hp : rs.Pairwise fun r s => (∀ k, Reads s.out k → Dict.get? r.out.writes k = none) ∧ ∀ k, Reads r.out k → Dict.get? s.out.writes k = none)
    (hq : rs.Perm rs') :
    ∃ os os' a b, Executed H w (rs.map fun r => (r.cfg, r.tx)) os a ∧ Executed H w (rs'.map fun r => (r.cfg, r.tx)) os' b ∧
      List.Forall₂ SameOutput (rs.map Trial.out) os ∧ List.Forall₂ SameOutput (rs'.map Trial.out) os' ∧
      ∀ k, b.driver.find k = a.driver.find k := by
  have key : ∀ r ∈ rs, ∀ s : Trial, (∀ k, Reads s.out k → Dict.get? r.out.writes k = none) → Undisturbing w r s :=
    fun r hm s h k hk => unreported (ht r hm).1.manual ((ht r hm).2 k) (ht r hm).1.ran (h k hk)
  have hp' : rs.Pairwise fun r s => Undisturbing w r s ∧ Undisturbing w s r :=
    hp.imp_of_mem fun hm hm' h => ⟨key _ hm _ h.1, key _ hm' _ h.2⟩
  obtain ⟨os, os', a, b, h1, h2, h3, h4, h5, _⟩ := C109_any_order hw hs hb hr (fun r h => (ht r h).1) hp' hq
  exact ⟨os, os', a, b, h1, h2, h3, h4, h5⟩

/-! ### A concrete case -/
namespace AnyOrderDemo
open ReadsDemo

/-- `con_a.h[n] = 3`. -/
def put (n : Str) : Tx :=
  { Demo.tx (Demo.step (.hashSet h (.one (.str n)) (.int 3)) (.ret .none)) with metering := some false }

theorem put_all {P : Action → Prop} {n : Str} (hp : P (.hashSet h (.one (.str n)) (.int 3))) : (put n).code.All P :=
  ⟨trivial, by rintro fn ⟨⟩ kwargs; exact Demo.step_all hp trivial⟩

theorem tried (n : Str) {ks ws : List Str}
    (hx : (execute Demo.host {} (put n) Demo.w0).1.map (fun o => (o.status, Dict.keys o.reads, Dict.keys o.writes)) = .ok (0, ks, ws))
    (hs : (execute Demo.host {} (put n) Demo.w0).2.stack.isEmpty = true) :
    ∃ r : Trial, (r.cfg = {} ∧ r.tx = put n) ∧ (r.Of Demo.host Demo.w0 ∧ ∀ k, r.tx.code.All (Action.Tracked k)) ∧
      Dict.keys r.out.reads = ks ∧ Dict.keys r.out.writes = ws := by
  obtain ⟨o, w1, h1, rfl, h3, h4, h5⟩ := ran (put n) hx
  exact ⟨⟨{}, put n, o, _⟩, ⟨rfl, rfl⟩, ⟨⟨h1, List.isEmpty_iff.1 hs, put_all trivial, rfl⟩, fun k => put_all trivial⟩, h4, h5⟩

def common : List Str := [py! "con_a.__owner__", py! "con_a.__code__", py! "con_a.__compiled__"]

theorem apart {r s : Trial} {a b : Str} (hr : Dict.keys r.out.reads = common ++ [a] ∧ Dict.keys r.out.writes = [a])
    (hs : Dict.keys s.out.reads = common ++ [b] ∧ Dict.keys s.out.writes = [b]) (h : a ∉ common ++ [b] ∧ b ∉ common ++ [a]) :
    (∀ k, Reads s.out k → Dict.get? r.out.writes k = none) ∧ ∀ k, Reads r.out k → Dict.get? s.out.writes k = none := by
  constructor
  · intro k hk
    unfold Reads at hk
    rw [hs.1] at hk
    rw [Dict.get?_eq_none_iff, hr.2, List.mem_singleton]
    exact fun e => h.1 (e ▸ hk)
  · intro k hk
    unfold Reads at hk
    rw [hr.1] at hk
    rw [Dict.get?_eq_none_iff, hs.2, List.mem_singleton]
    exact fun e => h.2 (e ▸ hk)

/-- Three transactions that set `h['k']`, `h['l']` and `h['m']` can be executed in any order. -/
example : ∃ rs : List Trial, rs.map (fun r => (r.cfg, r.tx)) = [({}, put (py! "k")), ({}, put (py! "l")), ({}, put (py! "m"))] ∧
    ∀ rs' : List Trial, rs.Perm rs' → ∃ os os' a b,
      Executed Demo.host Demo.w0 (rs.map fun r => (r.cfg, r.tx)) os a ∧ Executed Demo.host Demo.w0 (rs'.map fun r => (r.cfg, r.tx)) os' b ∧
      List.Forall₂ SameOutput (rs.map Trial.out) os ∧ List.Forall₂ SameOutput (rs'.map Trial.out) os' ∧
      ∀ k, b.driver.find k = a.driver.find k := by
  obtain ⟨r1, ⟨c1, t1⟩, o1, k1⟩ := tried (py! "k") (ks := common ++ [py! "con_a.h:k"]) (ws := [py! "con_a.h:k"]) (by decide +kernel) (by decide +kernel)
  obtain ⟨r2, ⟨c2, t2⟩, o2, k2⟩ := tried (py! "l") (ks := common ++ [py! "con_a.h:l"]) (ws := [py! "con_a.h:l"]) (by decide +kernel) (by decide +kernel)
  obtain ⟨r3, ⟨c3, t3⟩, o3, k3⟩ := tried (py! "m") (ks := common ++ [py! "con_a.h:m"]) (ws := [py! "con_a.h:m"]) (by decide +kernel) (by decide +kernel)
  refine ⟨[r1, r2, r3], by simp [c1, c2, c3, t1, t2, t3], fun rs' hq => C109_disjoint (.start _) rfl rfl empty_readable ?_ ?_ hq⟩
  · intro r hr
    simp only [List.mem_cons, List.not_mem_nil, or_false] at hr
    rcases hr with rfl | rfl | rfl
    · exact o1
    · exact o2
    · exact o3
  · refine .cons ?_ (.cons ?_ (.cons (fun _ h => by cases h) .nil))
    · intro s hs
      simp only [List.mem_cons, List.not_mem_nil, or_false] at hs
      rcases hs with rfl | rfl
      · exact apart k1 k2 (by decide)
      · exact apart k1 k3 (by decide)
    · intro s hs
      simp only [List.mem_cons, List.not_mem_nil, or_false] at hs
      rcases hs with rfl
      exact apart k2 k3 (by decide)

end AnyOrderDemo
end Verif
