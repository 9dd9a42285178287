import Verif.Props.Imports
import Verif.Props.Client
import Verif.Proofs.Submission
/-!
# Properties C75 and C63: the environment contract code sees
-/
namespace Verif
open Spec

theorem run_env (H : Host) (w : World) (e : Spec.Ev) : (e.run H w).2.env = w.env := by
  cases e with
  | act a => exact (Action.run_world H w a).2.2.1
  | enter c => obtain ⟨r, s, h⟩ := enter_frame c w; simp only [Spec.Ev.run]; rw [h]
  | exit => obtain ⟨s, h⟩ := popState_frame w; simp only [Spec.Ev.run]; rw [h]
  | importStart n d => obtain ⟨r, h⟩ := importStart_frame H w n d; simp only [Spec.Ev.run]; rw [h]
  | loaded n => rfl

theorem events_env (H : Host) (p : Prog) (w : World) :
    (∀ x ∈ Spec.events H p w, x.1.env = w.env) ∧ (p.run H w).2.env = w.env := by
  have h := events_inv (H := H) (P := fun _ => True) (Inv := fun v => v.env = w.env)
    (fun v e _ hv => (run_env H v e).trans hv) p p.all_true w rfl
  exact ⟨fun x hx => (h.1 x hx).1, h.2⟩

/-- The environment at every point of a transaction. -/
theorem txEvents_env (H : Host) (cfg : ExecCfg) (tx : Tx) (w : World) {v : World} {e : Spec.Ev}
    (hx : (v, e) ∈ Spec.txEvents H cfg tx w) : v.env = Dict.update w.env tx.environment := by
  unfold Spec.txEvents Spec.txRuns at hx
  split at hx
  · simp at hx
  · rename_i w0 hw0
    split at hw0
    · cases hw0
    · obtain ⟨r, owner, h0⟩ := txPrepared_frame hw0
      have he0 : w0.env = Dict.update w.env tx.environment := by rw [h0]
      simp only [List.flatMap_append, List.mem_append, List.mem_flatMap, Option.mem_toList, Option.map_eq_some_iff] at hx
      rcases hx with ⟨_, ⟨wt, ht, rfl⟩, hx⟩ | ⟨⟨w2, p⟩, hf, hx⟩
      · obtain ⟨r, hwt⟩ := topWorld_frame ht
        rw [(events_env H _ _).1 _ hx, hwt]; exact he0
      · obtain ⟨fn, kwargs, w1, sub, _, _, rfl, rfl, _, hw1⟩ := fnWorld_cases hf
        refine ((events_env H _ _).1 _ hx).trans ?_
        rcases hw1 with ⟨r, rfl, _⟩ | ⟨wt, u, wv, ht, hrun, rfl⟩
        · exact he0
        · obtain ⟨r, hwt⟩ := topWorld_frame ht
          have h1 := (events_env H tx.code.top wt).2
          rw [hrun, hwt] at h1
          exact h1.trans he0

/-- **C75.** After any history of transactions that returned, every read of the environment that contract code of a
transaction makes, at any depth of calls and imports, at load or in a function, answers what the environment given to
`execute` holds under that name (`None` when nothing), and changes nothing. -/
theorem C75_environment {H : Host} {cfg : ExecCfg} {tx : Tx} {w : World} (hw : Served H w) {v : World} {name : Str}
    (hx : (v, Spec.Ev.act (.envGet name)) ∈ Spec.txEvents H cfg tx w) :
    Action.run H v (.envGet name) = (.ok (dget (Dict.update [] tx.environment) name), v) := by
  obtain ⟨_, _, he, _⟩ := hw.shape
  have h := txEvents_env H cfg tx w hx
  rw [he] at h
  simp only [Action.run, World.envGet, h]

/-- What a dictionary holds after `{}.update(d)`: for a dictionary with distinct keys, its own entries. -/
theorem dget_update_nil {d : Dict Str PyVal} (hd : (Dict.keys d).Nodup) (k : Str) : dget (Dict.update [] d) k = dget d k := by
  have key : ∀ (d e : Dict Str PyVal), (Dict.keys d).Nodup →
      dget (Dict.update e d) k = if (Dict.get? d k).isSome then dget d k else dget e k := by
    intro d
    induction d with
    | nil => intro e _; rfl
    | cons p d ih =>
      intro e hn
      obtain ⟨a, b⟩ := p
      simp only [Dict.keys, List.map_cons, List.nodup_cons] at hn
      have := ih (Dict.set e a b) hn.2
      simp only [Dict.update, List.foldl_cons] at this ⊢
      rw [this]
      by_cases hak : a = k
      · subst hak
        have hnone : Dict.get? d a = none := by
          cases hg : Dict.get? d a with
          | none => rfl
          | some x =>
            exfalso
            have : ∀ (d : Dict Str PyVal), Dict.get? d a = some x → a ∈ d.map Prod.fst := by
              intro d
              induction d with
              | nil => intro h; cases h
              | cons q d ih2 =>
                intro h
                simp only [Dict.get?] at h
                split at h
                · rename_i hq; simp [hq]
                · simp [ih2 h]
            exact hn.1 (this d hg)
        simp [hnone, dget, Dict.get?_set_self, Dict.get?]
      · have h1 : Dict.get? ((a, b) :: d) k = Dict.get? d k := by simp [Dict.get?, hak]
        rw [h1]
        split
        · simp only [dget, h1]
        · exact dget_set_ne _ hak
  have := key d [] hd
  rw [this]
  split
  · rfl
  · rename_i h
    cases hg : Dict.get? d k with
    | none => simp [dget, hg, Dict.get?]
    | some x => rw [hg] at h; simp at h

/-- A non-trivial case: two reads in a transaction, one of a name that is given and one that is not. -/
example :
    let tx : Tx := { Demo.tx (.act (.envGet (py! "now")) fun _ => .act (.envGet (py! "x")) fun _ => .ret .none) with
      environment := [(py! "now", .int 4)] }
    (Spec.txEvents Demo.host {} tx Demo.w0).filterMap (fun x => match x.2 with
      | .act (.envGet n) => some (n, (Action.run Demo.host x.1 (.envGet n)).1)
      | _ => none) = [(py! "now", .ok (.int 4)), (py! "x", .ok .none)] := by decide +kernel

/-- **C75 is false after an `execute` that raised**: its environment stays, so the next transaction sees the block number of
the failed one. -/
theorem C75_refuted :
    let bad : Tx := { Demo.tx (.ret .none) with
      stamps := 0, stampCost := 0, metering := some true, environment := [(py! "block_num", .int 7)] }
    let next : Tx := Demo.tx (.act (.envGet (py! "block_num")) fun r => match r with | .ok v => .ret v | .error e => .raise e)
    let r := execute Demo.host {} bad Demo.w0
    r.1.map Output.status = .error .divisionByZero ∧
    (execute Demo.host {} next r.2).1.map Output.result = .ok (.ok (.int 7)) := by decide +kernel

/-! ## C63 -/

namespace Spec

/-- The time a client call runs at: `now` of the environment used (the call's own, else the client's) if it has one;
otherwise the `now` argument; otherwise the clock. -/
def callTime (c : Client) (q : ClientCall) : PyVal :=
  let used := if q.env = [] then c.environment else q.env
  if dget used (py! "now") ≠ .none then dget used (py! "now") else if q.now ≠ .none then q.now else q.clock

end Spec

/-- **C63.** Every client call is one transaction of the contract, by the given signer, and its environment's `now` is
`callTime`. -/
theorem C63_runs (H : Host) (c : Client) (q : ClientCall) :
    ∃ tx : Tx, tx.sender = q.signer ∧ tx.contract = c.name ∧ tx.function = q.func ∧ tx.kwargs = q.kwargs ∧ tx.code = q.code ∧
      dget tx.environment (py! "now") = callTime c q ∧
      (∀ k, k ≠ py! "now" → dget tx.environment k = dget (if q.env = [] then c.environment else q.env) k) ∧
      (c.call H q).2.world = (execute H c.cfg tx c.world).2 ∧
      (c.production = false → (c.call H q).1 = (execute H c.cfg tx c.world).1.bind Output.result) := by
  have hlen : (q.env.length = 0) = (q.env = []) := by simp
  refine ⟨{ sender := q.signer, contract := c.name, function := q.func, kwargs := q.kwargs,
            environment := fillNow (if q.env = [] then c.environment else q.env) q.now q.clock,
            stamps := q.stamps, metering := q.metering, code := q.code }, rfl, rfl, rfl, rfl, rfl, ?_, ?_, ?_, ?_⟩
  · rw [fillNow_now]
    unfold callTime
    simp only
    generalize dget (if q.env = [] then c.environment else q.env) (py! "now") = x
    by_cases hx : x = .none
    · subst hx
      simp only [PyVal.isNone, if_true]
      by_cases hn : q.now = .none
      · rw [hn]; simp
      · have : q.now.isNone = false := by
          cases h : q.now.isNone with
          | false => rfl
          | true => exact absurd (isNone_iff.1 h) hn
        simp [this, hn]
    · have : x.isNone = false := by
        cases h : x.isNone with
        | false => rfl
        | true => exact absurd (isNone_iff.1 h) hx
      simp [this, hx]
  · intro k hk
    simp only [fillNow]
    generalize (if q.env = [] then c.environment else q.env) = e
    split
    · exact dget_set_ne _ (fun h => hk h.symm)
    · rfl
  · unfold Client.call
    by_cases hq : q.env = []
    · simp only [hq, List.length_nil, if_true]
      rcases execute H c.cfg _ c.world with ⟨r, w⟩
      cases r with
      | error e => rfl
      | ok o => simp only; split <;> rfl
    · have : ¬ q.env.length = 0 := by rw [hlen]; exact hq
      simp only [this, hq, if_false]
      rcases execute H c.cfg _ c.world with ⟨r, w⟩
      cases r with
      | error e => rfl
      | ok o => simp only; split <;> rfl
  · intro hp
    unfold Client.call
    by_cases hq : q.env = []
    · simp only [hq, List.length_nil, if_true]
      rcases execute H c.cfg _ c.world with ⟨r, w⟩
      cases r with
      | error e => rfl
      | ok o => simp only [hp, Bool.false_eq_true, if_false]; rfl
    · have : ¬ q.env.length = 0 := by rw [hlen]; exact hq
      simp only [this, hq, if_false]
      rcases execute H c.cfg _ c.world with ⟨r, w⟩
      cases r with
      | error e => rfl
      | ok o => simp only [hp, Bool.false_eq_true, if_false]; rfl

end Verif
