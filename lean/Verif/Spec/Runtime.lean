import Verif.Model.Executor
import Verif.Spec.Decimal
/-!
# Vocabulary for statements about contract execution
-/
namespace Verif

/-- Every API call the program can make satisfies `P`. -/
def Prog.All (P : Action → Prop) : Prog → Prop
  | .ret _ => True
  | .raise _ => True
  | .act a k => P a ∧ ∀ r, (k r).All P
  | .call _ body k => body.All P ∧ ∀ r, (k r).All P
  | .load _ _ body k => body.All P ∧ ∀ r, (k r).All P

/-- Every API call in the code reached by a transaction satisfies `P`: module top level and function. -/
def Code.All (P : Action → Prop) (c : Code) : Prop :=
  c.top.All P ∧ ∀ fn, c.fn = some fn → ∀ kwargs, (fn.2 kwargs).All P

/-- Not an in-place change of the list or dict stored under `k`. -/
def Action.NoMutate (k : Str) : Action → Prop
  | .mutate k' _ _ _ => k' ≠ k
  | _ => True

/-- Not library lines under a `try` that swallows exceptions. -/
def Action.NotGuarded : Action → Prop
  | .guarded _ => False
  | _ => True

/-- An API call that changes the key `k`, if at all, by a reported write: not `clear` of a Hash that has `k`,
not the submission contract's own driver access to `k`, not an in-place change of the object stored under `k`. -/
def Action.Tracked (k : Str) : Action → Prop
  | .mutate k' _ _ _ => k' ≠ k
  | .hashClear h _ => ¬ (h.key ++ [':']) <+: k
  | .rawSet k' _ => k' ≠ k
  | _ => True

/-- The program lets every exception through (contract source cannot contain `try`, C40). -/
def Prog.NoCatch : Prog → Prop
  | .ret _ => True
  | .raise _ => True
  | .act _ k => (∀ e, k (.error e) = .raise e) ∧ ∀ v, (k (.ok v)).NoCatch
  | .call _ body k => body.NoCatch ∧ (∀ e, k (.error e) = .raise e) ∧ ∀ v, (k (.ok v)).NoCatch
  | .load _ _ body k => body.NoCatch ∧ (∀ e, k (.error e) = .raise e) ∧ ∀ v, (k (.ok v)).NoCatch

/-- The program calls no exported function of any contract. -/
def Prog.NoCalls : Prog → Prop
  | .ret _ => True
  | .raise _ => True
  | .act _ k => ∀ r, (k r).NoCalls
  | .call _ _ _ => False
  | .load _ _ body k => body.NoCalls ∧ ∀ r, (k r).NoCalls

/-- Whether the transaction is metered (executor.py:58-59). -/
def Tx.metered (tx : Tx) (cfg : ExecCfg) : Bool := tx.metering.getD cfg.metering

/-- The world in which the `try` block of `execute` starts (executor.py:51-53). -/
def startWorld (w : World) : World := { w with driver := w.driver.clearTxWrites.clearEvents }

/-- The world when the transaction's own work is over (rolled back if it failed) and its fee is about to
be deducted (executor.py:150). -/
def ranWorld (H : Host) (cfg : ExecCfg) (tx : Tx) (w : World) : World :=
  let t := tryBlock H cfg tx (tx.metered cfg) w.driver.pendingWrites (startWorld w)
  { t.2 with driver := t.2.driver.clearEvents.clearTxWrites, meter := t.2.meter.stop }

namespace Spec

/-- The number a stored balance denotes; an absent balance is zero. -/
def balanceVal : PyVal → Option ℚ
  | .none => some 0
  | .int i => some i
  | .bool b => some (if b then 1 else 0)
  | .dec d => some d.val
  | _ => none

/-- One thing that happens during an execution: an API call, entering or leaving an exported function,
the beginning of an import, the registration of a loaded module. -/
inductive Ev where
  | act (a : Action)
  | enter (c : Str)
  | exit
  | importStart (name : Str) (dyn : Bool)
  | loaded (name : Str)

/-- How many traced lines it runs. -/
def Ev.lines : Ev → Nat
  | .act (.line _ _ _) => 1
  | .act (.guarded n) => n
  | _ => 0

/-- The charge of a traced line of contract code. -/
def Ev.lineCost : Ev → Nat
  | .act (.line true c _) => c
  | _ => 0

/-- Let it happen: the exception it raised, if any, and the world afterwards. -/
def Ev.run (H : Host) (w : World) : Ev → Option PyErr × World
  | .act a => let r := a.run H w; ((match r.1 with | .error e => some e | .ok _ => none), r.2)
  | .enter c => let r := Verif.enter c w; ((match r.1 with | .error e => some e | .ok _ => none), r.2)
  | .exit => (none, w.popState)
  | .importStart name dyn =>
    let r := Verif.importStart H w name dyn
    ((match r.1 with | .error e => some e | .ok _ => none), r.2)
  | .loaded name => (none, w.addLoaded name)

/-- The world after a sequence of events, as long as none raised. -/
def runEvs (H : Host) (w : World) : List Ev → Option World
  | [] => some w
  | e :: es =>
    match e.run H w with
    | (none, w) => runEvs H w es
    | (some _, _) => none

/-- The events of a program's run, each with the world in which it happens. -/
def events (H : Host) : Prog → World → List (World × Ev)
  | .ret _, _ => []
  | .raise _, _ => []
  | .act a k, w => (w, .act a) :: events H (k (a.run H w).1) (a.run H w).2
  | .call c body k, w =>
    (w, .enter c) ::
      (match Verif.enter c w with
        | (.error e, w) => events H (k (.error e)) w
        | (.ok _, w) =>
          events H body w ++ ((body.run H w).2, .exit) :: events H (k (body.run H w).1) (body.run H w).2.popState)
  | .load name dyn body k, w =>
    (w, .importStart name dyn) ::
      (match Verif.importStart H w name dyn with
        | (.error e, w) => events H (k (.error e)) w
        | (.ok .missing, w) => events H (k (.error .importError)) w
        | (.ok .host, w) => events H (k (.ok .none)) w
        | (.ok .loaded, w) => events H (k (.ok .none)) w
        | (.ok .contract, w) =>
          events H body w ++
            (match body.run H w with
              | (.error e, w) => events H (k (.error e)) w
              | (.ok _, w) => (w, .loaded name) :: events H (k (.ok .none)) (w.addLoaded name)))

/-- Length of the stored text of a value. -/
def textLen (v : PyVal) : Nat := ((encode v).toOption.getD []).length

/-- Bytes written by an accepted API call in a given world, key and text: a variable or hash entry; for
`Hash.clear`, `null` under every key found; for an event, every declared argument. -/
def bytesWritten (w : World) : Action → Nat
  | .varSet x v => utf8Len x.key + textLen v
  | .hashSet h ix v => match validateKey ix with | .ok s => utf8Len (h.entry s) + textLen v | .error _ => 0
  | .hashClear h args =>
    match (h.items w.driver args).1 with
    | .ok kvs => ((Dict.keys kvs).map fun k => utf8Len k + 4).sum
    | .error _ => 0
  | .emit l data =>
    match w.logs[l]? with
    | some lg => (lg.params.map fun p => match Dict.get? data p.1 with | some v => utf8Len p.1 + textLen v | none => 0).sum
    | none => 0
  | .rawSet key v => utf8Len key + textLen v
  | _ => 0

/-- Bytes written by an event. -/
def Ev.bytes (w : World) : Ev → Nat
  | .act a => bytesWritten w a
  | _ => 0

/-- All bytes written during a program's run. -/
def bytes (H : Host) (p : Prog) (w : World) : Nat := ((events H p w).map fun e => e.2.bytes e.1).sum

/-- The cost of all contract lines of a program's run. -/
def lineCosts (H : Host) (p : Prog) (w : World) : Nat := ((events H p w).map fun e => e.2.lineCost).sum

/-- The limits of a metered execution. -/
def Within (m : Meter) : Prop :=
  (m.cost : Int) ≤ m.supplied ∧ m.cost ≤ 6500000 ∧ m.writes < 131072 ∧ m.calls ≤ 800000

/-- The line limit strikes, in this world, while library code under a `try` that swallows exceptions runs
(crypto.py:11-14; driver.py `items`): the abort is swallowed. -/
def Struck (w : World) (e : Ev) : Prop :=
  ∃ n, e = .act (.guarded n) ∧ w.meter.started = true ∧ 800000 < w.meter.calls + n

/-- A call of an exported function that is refused in this world (the caller is not the owner). -/
def Refused (x : World × Ev) : Prop := ∃ c e, x.2 = .enter c ∧ (Verif.enter c x.1).1 = .error e

end Spec
end Verif
