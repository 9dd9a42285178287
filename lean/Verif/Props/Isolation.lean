import Verif.Proofs.Isolation
import Verif.Props.Executor
/-!
# Property C32: transactions do not influence each other through runtime state
-/
namespace Verif

/-- A process that has just started and was given a driver. -/
def freshWorld (d : Driver) : World := { driver := d }

/-- States of a process: any history of transactions whose `execute` returned, with anything done to the
storage in between (commits, rollbacks, blocks applied, other writes). -/
inductive Spec.Served (H : Host) : World → Prop where
  | start (d : Driver) : Served H (freshWorld d)
  | tx {w w' : World} {cfg : ExecCfg} {tx : Tx} {o : Output} :
      Served H w → execute H cfg tx w = (.ok o, w') → Served H w'
  | «private» {w : World} {cfg : ExecCfg} {tx : Tx} {rest : Str} :
      Served H w → cfg.bypassPrivates = false → tx.function = '_' :: '_' :: rest → Served H (execute H cfg tx w).2
  | storage {w : World} (d : Driver) : Served H w → Served H { w with driver := d }

/-- **C32, reset.** When `execute` returns, the meter, the write counter, the seeding flag, the environment,
the loaded modules and the import restriction are as in a process that has just started. -/
theorem C32_reset {H : Host} {cfg : ExecCfg} {tx : Tx} {w w' : World} {o : Output}
    (h : execute H cfg tx w = (.ok o, w')) :
    w'.meter = {} ∧ w'.seeded = false ∧ w'.env = [] ∧ w'.loaded = [] ∧ w'.restricted = false ∧ w'.logs = [] := by
  obtain ⟨_, _, w2, _, _, rfl⟩ := execute_ok h
  exact ⟨rfl, rfl, rfl, rfl, rfl, rfl⟩

theorem Spec.Served.shape {H : Host} {w : World} (h : Spec.Served H w) :
    w.meter = {} ∧ w.seeded = false ∧ w.env = [] ∧ w.loaded = [] ∧ w.restricted = false ∧ w.logs = [] := by
  induction h with
  | start d => exact ⟨rfl, rfl, rfl, rfl, rfl, rfl⟩
  | tx _ h _ => exact C32_reset h
  | «private» _ hb hp ih => rw [C34_private hb hp]; exact ih
  | storage d _ ih => exact ih

/-- **C32.** After any history of transactions that returned -- successful, failed, out of stamps, whatever they
called -- and if no context frame was left behind (C38), the next transaction gives exactly the output it
would give in a process restarted on the same storage, and leaves the same storage. Calls refused because the
function is private may be part of the history. The exceptions are real: transactions whose `execute` raised
otherwise (`C32_refuted`) and leftover frames (C38, `C38_poisoned`). -/
theorem C32_restart {H : Host} {w : World} (h : Spec.Served H w) (hs : w.stack = []) (cfg : ExecCfg) (tx : Tx) :
    (execute H cfg tx w).1 = (execute H cfg tx (freshWorld w.driver)).1 ∧
    (execute H cfg tx w).2.driver = (execute H cfg tx (freshWorld w.driver)).2.driver := by
  obtain ⟨h1, h2, h3, h4, h5, h6⟩ := h.shape
  have hb : SameButBase (freshWorld w.driver) w := by
    refine ⟨w.rng, w.hostCalls, w.base, ?_, fun hx => by cases hx⟩
    obtain ⟨driver, meter, base, stack, seeded, rng, env, loaded, restricted, logs, calls⟩ := w
    simp only at h1 h2 h3 h4 h5 h6 hs
    subst h1 h2 h3 h4 h5 h6 hs
    rfl
  obtain ⟨e1, rng, calls, base, e2, _⟩ := execute_sameRun (H := H) (cfg := cfg) (tx := tx) hb
  exact ⟨e1.symm, by rw [e2]⟩

/-- **C32.** More generally, the outcome never depends on the state of Python's random generator left behind by
others, on the base frame of the previous transaction, or on calls made to host modules: any two states
that agree on the rest (and are unseeded) give the same output and storage. -/
theorem C32_independent (H : Host) (cfg : ExecCfg) (tx : Tx) (w : World) (hs : w.seeded = false) (rng : RngState) (base : Frame)
    (calls : List (Str × Str)) :
    (execute H cfg tx { w with rng := rng, base := base, hostCalls := calls }).1 = (execute H cfg tx w).1 ∧
    (execute H cfg tx { w with rng := rng, base := base, hostCalls := calls }).2.driver = (execute H cfg tx w).2.driver := by
  have hb : SameButBase w { w with rng := rng, base := base, hostCalls := calls } :=
    ⟨rng, calls, base, rfl, fun hx => by rw [hs] at hx; cases hx⟩
  obtain ⟨e1, _, _, _, e2, _⟩ := execute_sameRun (H := H) (cfg := cfg) (tx := tx) hb
  exact ⟨e1.symm, by rw [e2]⟩

/-- The hypotheses are met: a failed transaction that seeded the generator and loaded a module is in the history,
and the stack is empty afterwards. -/
example : ∃ w, Spec.Served Demo.host w ∧ w.stack = [] ∧ w.rng.seed ≠ none := by
  have h : ∃ o w', execute Demo.host {} (Demo.tx (Demo.step (.seed none) (.raise .exception))) (freshWorld Demo.w0.driver) = (.ok o, w') ∧
      w'.stack = [] ∧ w'.rng.seed ≠ none := by
    refine ⟨_, _, rfl, rfl, ?_⟩
    decide
  obtain ⟨o, w', hx, h1, h2⟩ := h
  exact ⟨w', .tx (.start _) hx, h1, h2⟩

/-- **C32 is false when `execute` raises**: a transaction with `stamp_cost = 0` and `stamps = 0` ends in a
`ZeroDivisionError` out of `execute`, and its environment stays: the next transaction, sent without an
environment, reads the other's `block_num`, where a restarted process reads `None`. -/
theorem C32_refuted :
    let bad : Tx := { Demo.tx (.ret .none) with stamps := 0, stampCost := 0, environment := [(py! "block_num", .int 7)] }
    let next : Tx := Demo.tx (.act (.envGet (py! "block_num")) fun r => match r with | .ok v => .ret v | .error e => .raise e)
    let r := execute Demo.host {} bad Demo.w0
    r.1.map Output.status = .error .divisionByZero ∧
    (execute Demo.host {} next r.2).1.map Output.result = .ok (.ok (.int 7)) ∧
    (execute Demo.host {} next (freshWorld r.2.driver)).1.map Output.result = .ok (.ok .none) := by
  decide +kernel

end Verif
