import Verif.Proofs.Node6
import Verif.Props.SourceNode
/-! # Properties C99 and C100: what nodes report, and what they keep between transactions -/
namespace Verif.Lang
open Verif Verif.Spec

/-! ### No frames are left -/

/-- No call is refused. -/
def Quiet (H : Host) (p : Prog) : Prop := ∀ w, ∀ x ∈ Spec.events H p w, ¬ Spec.Refused x

theorem quiet_closed (H : Host) : Closed (Quiet H) (Action.NoMutate []) where
  ret := fun _ w x hx => by cases hx
  raise := fun _ w x hx => by cases hx
  act := fun {a k} _ hk w x hx => by
    unfold api at hx
    rw [Spec.events] at hx
    rcases List.mem_cons.1 hx with rfl | hx
    · rintro ⟨c, e, h, _⟩; cases h
    · generalize hr : (a.run H w).1 = r at hx
      cases r with
      | ok v => exact hk v _ x hx
      | error e => cases hx
  load := fun {n d body k} hb hk w x hx => by
    rw [Spec.events] at hx
    have cont : ∀ (r : Except PyErr PyVal) (w : World), x ∈ Spec.events H (orRaise r k) w → ¬ Spec.Refused x := by
      intro r w hx
      cases r with
      | ok v => exact hk v w x hx
      | error e => cases hx
    rcases List.mem_cons.1 hx with rfl | hx
    · rintro ⟨c, e, h, _⟩; cases h
    · split at hx
      · exact cont _ _ hx
      · exact cont _ _ hx
      · exact cont _ _ hx
      · exact cont _ _ hx
      · rcases List.mem_append.1 hx with hx | hx
        · exact hb _ x hx
        · split at hx
          · exact cont _ _ hx
          · rcases List.mem_cons.1 hx with rfl | hx
            · rintro ⟨c, e, h, _⟩; cases h
            · exact cont _ _ hx

/-- No transaction on a node has a call refused outside an exported function. -/
theorem node_unrefused {N : Node} {H : Host} {d : Driver} {tx : Tx} (hg : GenuineState N d) (ht : NodeTx N H d tx) :
    ¬ Spec.RefusedOutside H tx := by
  obtain ⟨n, hcode⟩ := ht.code
  by_cases hsub : tx.contract = py! "submission"
  · have htop : tx.code.top = .ret .none := by rw [hcode, hsub]; unfold Node.codeFor; rw [if_pos rfl]
    rintro (⟨w1, x, hx, _⟩ | ⟨fn, hf, h1, _⟩)
    · rw [htop] at hx; cases hx
    · rw [hcode, hsub] at hf
      rw [(submission_cases hf []).1] at h1
      cases h1
  · have hc : tx.code = (N.chain d).codeFor n tx.contract tx.function := by
      rw [hcode]; unfold Node.codeFor; rw [if_neg hsub]
    obtain ⟨src, hD, hs⟩ := chain_deployed hg
    rintro (⟨w1, x, hx, hr⟩ | ⟨fn, hf, h1, kwargs, w1, x, hx, _⟩)
    · rw [hc] at hx
      exact Chain.top_P (quiet_closed H) (any_allows []) (fun _ _ _ _ _ _ _ _ _ _ => trivial) n tx.contract w1 x hx hr
    · rw [hc] at hf
      obtain ⟨m, hm, ⟨i, f, w, d', h1', h2, h3, rfl⟩ | rfl⟩ := entry_wrapped hD ht.pub hf
      · cases h1
      · cases hx

theorem node_plain {N : Node} (hN : RoundTrip N) {H : Host} {fees : ExecCfg → Tx → Prop} {settled : Driver → Prop} {disk : Disk}
    (hd : GenuineDisk N disk) {w : World} (h : NodeHistory N H fees settled { driver := .open disk } w) : Spec.ServedPlain H w := by
  have main : ∀ {w}, NodeHistory N H fees settled { driver := .open disk } w → Spec.ServedPlain H w := by
    intro w h
    induction h with
    | start => exact .start _
    | @tx w w' cfg tx o hh h1 h2 h3 h4 ih =>
      have hg := (history_inv hN hd hh).state
      have hany := nodeTx_any hg h1 []
      exact .tx ih ⟨hany.1.1, fun fn hf kwargs => (hany.2 fn kwargs hf).1⟩ (node_unrefused hg h1) h4
    | apply nanos _ _ _ ih => exact .storage _ ih
    | commit _ _ _ ih => exact .storage _ ih
    | rollback _ ih => exact .storage _ ih
    | evict keep _ ih => exact .storage _ ih
    | restart _ _ ih => exact .start _
  exact main h

theorem Spec.ServedPlain.served {H : Host} {w : World} (h : Spec.ServedPlain H w) : Spec.Served H w := by
  induction h with
  | start d => exact .start d
  | tx _ _ _ he ih => exact .tx ih he
  | storage d _ ih => exact .storage d ih

/-- **C100.** After any history of a node no context frame is left, and any transaction at all gives the same answer and
leaves the same storage as on a node just started on the same storage: nothing else is carried over, neither modules,
contexts, random seeds, event objects nor meters. No condition on the contracts is needed, unlike in C32 and C38. -/
theorem C100_restart {N : Node} (hN : RoundTrip N) {H : Host} {fees : ExecCfg → Tx → Prop} {settled : Driver → Prop} {disk : Disk}
    (hd : GenuineDisk N disk) {w : World} (h : NodeHistory N H fees settled { driver := .open disk } w) :
    w.stack = [] ∧ ∀ cfg tx,
      (execute H cfg tx w).1 = (execute H cfg tx { driver := w.driver }).1 ∧
      (execute H cfg tx w).2.driver = (execute H cfg tx { driver := w.driver }).2.driver :=
  C38_history (node_plain hN hd h)

/-! ### Events -/

/-- The events of the contracts the node runs and of the one submitted. -/
def EventOfTx (N : Node) (d : Driver) (tx : Tx) (event : Str) (params : Dict Str Param) : Prop :=
  EventOfNode N d event params ∨
  tx.contract = py! "submission" ∧ tx.function = py! "submit_contract" ∧ ∃ kwargs name source m, fixKwargs tx.kwargs = .ok kwargs ∧
    dget kwargs (py! "name") = .str name ∧ dget kwargs (py! "code") = .str source ∧ N.read source = some m ∧
    Accepted N.info name (moduleAst m) ∧ DeclaresEvent m event params

theorem logs_mono {P Q : Str → Dict Str Param → Prop} (h : ∀ e ps, P e ps → Q e ps) {p : Prog} (hp : p.All (Action.LogsOnly P)) :
    p.All (Action.LogsOnly Q) :=
  all_mono (fun a ha => by
    cases a with
    | newLog e ps => exact h e ps ha
    | alterLog => exact ha
    | _ => trivial) hp

theorem eventOf_node {N : Node} {d : Driver} {src : Str → Option Module} (hD : Deployed N.info src (N.chain d)) {e : Str}
    {ps : Dict Str Param} (h : EventOf src e ps) : EventOfNode N d e ps := by
  obtain ⟨c, m, h1, h2⟩ := h
  refine ⟨c, m, ?_, hD.accepted c m h1, h2⟩
  have := hD.compiled c
  rw [h1] at this
  exact this

/-- All a transaction does builds declared events only. -/
theorem nodeTx_events {N : Node} (hN : RoundTrip N) (hT : NoText N.D) {H : Host} {d : Driver} (hg : GenuineState N d) {tx : Tx}
    (ht : NodeTx N H d tx) :
    tx.code.top.All (Action.LogsOnly (EventOfTx N d tx)) ∧
    ∀ fn kwargs, fixKwargs tx.kwargs = .ok kwargs → tx.code.fn = some fn → (fn.2 kwargs).All (Action.LogsOnly (EventOfTx N d tx)) := by
  obtain ⟨n, hcode⟩ := ht.code
  obtain ⟨src, hD, hs⟩ := chain_deployed hg
  by_cases hsub : tx.contract = py! "submission"
  · have hcode' : tx.code = N.codeFor H n d (py! "submission") tx.function := by rw [hcode, hsub]
    refine ⟨by rw [hcode']; unfold Node.codeFor; rw [if_pos rfl]; exact trivial, fun fn kwargs hk hf => ?_⟩
    obtain ⟨f1, f2, _⟩ := ht.fair hsub kwargs hk
    by_cases hfun : tx.function = py! "submit_contract"
    · rw [hcode', hfun] at hf
      obtain ⟨_, ⟨e, h⟩ | ⟨name, source, h1, h2, h⟩⟩ := submit_call hf kwargs
      · rw [h]; exact trivial
      · rw [h]
        refine submitContract_P (event_submits _ name) fun t hp => ⟨fun _ _ => trivial, ?_⟩
        obtain ⟨m, hm, ha, hd, hdec, _, _⟩ := parse_genuine hN hp fun m hm => f2 source m h2 hm
        have hD' := plus_deployed hD ha (f1 name h1).1.2.1
        have hr := event_ready (C := (N.chain d).plus name (compileModule name m)) hT hD' (by
          intro c m' h
          unfold plusSrc at h
          split at h
          · cases h; exact hd
          · exact (hs c m' h).1)
        unfold Node.deploy
        rw [hm]
        refine logs_mono ?_ (deploy_P (event_closed _) (event_allows _) hr (fun _ => trivial)
          (fun hp hf => bind_all hp fun r => by cases r with | ok v => exact hf v | error e => exact trivial)
          (fun c i h => plus_name hD' h) n _)
        rintro e ps ⟨c, m', hc, hdecl⟩
        unfold plusSrc at hc
        split at hc
        · cases hc
          exact .inr ⟨hsub, hfun, kwargs, name, source, m, hk, h1, h2, hm, ha, hdecl⟩
        · exact .inl (eventOf_node hD ⟨c, m', hc, hdecl⟩)
    · rw [hcode'] at hf
      unfold Node.codeFor at hf
      rw [if_pos rfl, if_neg hfun] at hf
      split at hf
      · cases hf
        simp only [developerFn, bindParams]
        split
        swap
        · exact trivial
        split
        · exact changeDeveloper_all trivial trivial trivial
        · exact trivial
      · cases hf
  · have hc : tx.code = (N.chain d).codeFor n tx.contract tx.function := by
      rw [hcode]; unfold Node.codeFor; rw [if_neg hsub]
    have hr := event_ready (C := N.chain d) hT hD fun c m h => (hs c m h).1
    have mono : ∀ e ps, EventOf src e ps → EventOfTx N d tx e ps := fun e ps h => .inl (eventOf_node hD h)
    rw [hc]
    refine ⟨logs_mono mono (Chain.top_P (event_closed _) (event_allows _) hr.events n tx.contract), fun fn kwargs _ hf => ?_⟩
    obtain ⟨m, hm, ⟨i, f, w, d, h1, h2, h3, rfl⟩ | rfl⟩ := entry_wrapped hD ht.pub hf
    · refine logs_mono mono (Chain.body_P (event_closed _) (event_allows _) hr n tx.contract m f _ _ trivial hm (List.mem_of_getElem? h1) (by simp) ?_)
      intro q hq
      obtain ⟨p, _, rfl⟩ := List.mem_map.1 hq
      exact trivial
    · exact trivial

/-- **C99.** After any history of a node, every event that a successful transaction reports is declared, with exactly
these parameters, by a top-level assignment in the source of a contract that the node runs after it; it carries the declared name,
exactly the declared arguments, each of a declared class and at most 1024 bytes, at most three of them indexed,
and the sender of the transaction as signer. -/
theorem C99_events {N : Node} (hN : RoundTrip N) (hT : NoText N.D) {H : Host}
    (hhost : H.imported (py! "submission") = false ∧ H.importable (py! "submission") = false)
    {fees : ExecCfg → Tx → Prop} {settled : Driver → Prop} {disk : Disk} (hd : GenuineDisk N disk) {w : World}
    (h : NodeHistory N H fees settled { driver := .open disk } w) {cfg : ExecCfg} {tx : Tx} (ht : NodeTx N H w.driver tx)
    (hfee : PlainFees cfg) {o : Output} {w' : World} (he : execute H cfg tx w = (.ok o, w')) (hs : o.status = 0) :
    ∀ e ∈ o.events, e.signer = some tx.sender ∧
      ∃ c m params, N.code w'.driver c = some (compileModule c m) ∧ Accepted N.info c (moduleAst m) ∧ DeclaresEvent m e.event params ∧
        Spec.Declarable params ∧ Spec.Matches H params e := by
  have hinv := history_inv hN hd h
  have hg := hinv.state
  have hpl := node_plain hN hd h
  obtain ⟨h1, h2⟩ := nodeTx_events hN hT hg ht
  intro e hev
  obtain ⟨k1, ps, k2, k3, k4⟩ := events_declared (Spec.ServedPlain.served hpl) (C38_history hpl).1 h1 h2 he hs e hev
  refine ⟨k1, ?_⟩
  rcases k2 with ⟨c, m, j1, j2, j3⟩ | ⟨hcon, hfun, kwargs, name, source, m, j1, j2, j3, j4, j5, j6⟩
  · refine ⟨c, m, ps, ?_, j2, j3, k3, k4⟩
    by_cases hsub : tx.contract = py! "submission" ∧ tx.function = py! "submit_contract" ∧ o.status = 0
    · obtain ⟨_, name, _, _, _, _, _, _, _, _, g1, g2, _⟩ := C97_deployed hN hg hinv.bypass ht hsub.1 hsub.2.1 hhost hfee he hs
      rw [g2 c, if_neg, j1]
      rintro rfl
      rw [g1] at j1
      cases j1
    · rw [C97_unchanged hg ht hfee he hsub, j1]
  · obtain ⟨kwargs', name', source', m', _, i1, i2, i3, i4, _, _, g2, _⟩ := C97_deployed hN hg hinv.bypass ht hcon hfun hhost hfee he hs
    rw [i1] at j1; cases j1
    rw [i2] at j2; cases j2
    rw [i3] at j3; cases j3
    rw [i4] at j4; cases j4
    refine ⟨name, m, ps, ?_, j5, j6, k3, k4⟩
    rw [g2 name, if_pos rfl]

/-! ### An example -/

namespace EventDemo
open NodeDemo (w0 disk0 disk0_genuine fees ran)

/-- The entries of a dict: the keys come first, then the values. -/
def zipDict : List PyVal → List PyVal → Except PyErr (Dict PyKey PyVal)
  | [], [] => .ok []
  | .str x :: ks, v :: vs => (zipDict ks vs).map fun r => (.str x, v) :: r
  | _, _ => .error .typeError

/-- Python with dict literals. -/
def data : Data := { Demo.data with
  op := fun o vs => match o with
    | .dict => (zipDict (vs.take (vs.length / 2)) (vs.drop (vs.length / 2))).map .dict
    | _ => .error .typeError
  builtin := fun id => decide (id ∈ [py! "str", py! "int", py! "decimal"]) }

/-- `T = LogEvent(event='Transfer', params={'to': {'type': str, 'idx': True}, 'amount': {'type': (int, decimal)}})`,
and `give(to, amount)`: `T({'to': to, 'amount': amount})`. -/
def srcE : Module := [
  .decl (py! "T") (py! "LogEvent") [(py! "event", .const (.str (py! "Transfer"))),
    (py! "params", .op .dict [.const (.str (py! "to")), .const (.str (py! "amount")),
      .op .dict [.const (.str (py! "type")), .const (.str (py! "idx")), .name (py! "str"), .const (.bool true)],
      .op .dict [.const (.str (py! "type")), .op .tuple [.name (py! "int"), .name (py! "decimal")]]])],
  .def { name := py! "give", args := [(py! "to", some (py! "str")), (py! "amount", some (py! "int"))], deco := .export, body := [
    .expr (.call (.name (py! "T")) [.op .dict [.const (.str (py! "to")), .const (.str (py! "amount")), .name (py! "to"), .name (py! "amount")]] [])] }]

/-- A node that knows this source. -/
def node : Node := { NodeDemo.node with
  D := data
  read := fun s => if s = py! "e" then some srcE else none
  write := fun m => ((funs m).findSome? fun f => match f.deco with | .wrapped _ c => some c | _ => none).getD []
  load := fun b => some (compileModule (NodeDemo.decode b) srcE) }

theorem noText : NoText node.D := ⟨fun _ _ h => (by cases h), fun _ _ h => (by cases h)⟩

theorem read_cases {s : Str} {m : Module} (h : node.read s = some m) : m = srcE := by
  change (if s = py! "e" then some srcE else none) = some m at h
  split at h
  · cases h; rfl
  · cases h

theorem faithful : RoundTrip node := by
  intro source m name b h _ hb
  show some (compileModule (NodeDemo.decode b) srcE) = _
  rw [NodeDemo.decode_encode hb, read_cases h]
  rfl

theorem fair_source {s : Str} {m : Module} (h : node.read s = some m) : Disciplined m ∧ Declares m := by
  rw [read_cases h]
  refine ⟨⟨?_, ?_⟩, ?_⟩
  · simp [srcE, Top.All, stmtsAll, Stmt.All, Expr.All, exprsAll, kwsAll, storageClasses]
  · rw [OwnName, ← names_iff]; decide
  · intro x cls kws h
    simp [srcE] at h
    rw [h.1]; decide

/-- `bob` submits `con_e`. -/
def submission (w : World) : Tx :=
  { sender := Verif.Demo.bob, contract := py! "submission", function := py! "submit_contract",
    kwargs := [(py! "name", .str (py! "con_e")), (py! "code", .str (py! "e"))],
    stamps := 50, stampCost := 1, metering := some false,
    code := node.codeFor Verif.Demo.host 5 w.driver (py! "submission") (py! "submit_contract") }

/-- `bob` calls `con_e.give`. -/
def give (w : World) (v : PyVal) : Tx :=
  { sender := Verif.Demo.bob, contract := py! "con_e", function := py! "give", kwargs := [(py! "to", .str (py! "eve")), (py! "amount", v)],
    stamps := 50, stampCost := 1, code := node.codeFor Verif.Demo.host 5 w.driver (py! "con_e") (py! "give") }

def w1 : World := (execute Verif.Demo.host {} (submission w0) w0).2

theorem submission_tx (hfix : fixKwargs (submission w0).kwargs = .ok (submission w0).kwargs) :
    NodeTx node Verif.Demo.host w0.driver (submission w0) where
  auto := rfl
  pub := rfl
  code := ⟨5, rfl⟩
  fair := by
    intro _ kwargs hk
    rw [hfix] at hk
    cases hk
    refine ⟨fun n h => ?_, fun s m _ hm => fair_source hm, fun n h => ?_⟩
    · have : PyVal.str (py! "con_e") = .str n := h
      cases this
      decide
    · cases h

theorem give_tx (w : World) (v : PyVal) : NodeTx node Verif.Demo.host w.driver (give w v) where
  auto := rfl
  pub := rfl
  code := ⟨5, rfl⟩
  fair := fun h => by cases h

theorem history : NodeHistory node Verif.Demo.host (fun _ _ => True) (fun _ => True) w0 w1 := by
  obtain ⟨o1, h1⟩ := ran (cfg := {}) (t := submission w0) (w := w0) (by decide +kernel)
  exact .tx (.start _) (submission_tx (by decide +kernel)) fees trivial h1

/-- The reported event; data of a class that is not declared fails. -/
example :
    (execute Verif.Demo.host {} (submission w0) w0).1.map Output.status = .ok 0 ∧
    (execute Verif.Demo.host {} (give w1 (.int 3)) w1).1.map Output.status = .ok 0 ∧
    (execute Verif.Demo.host {} (give w1 (.int 3)) w1).1.map (fun o => o.events.map fun e => (e.event, e.signer, e.dataIndexed, e.data)) =
      .ok [(py! "Transfer", some Verif.Demo.bob, [(py! "to", .str (py! "eve"))], [(py! "amount", .int 3)])] ∧
    (execute Verif.Demo.host {} (give w1 (.bytes [1])) w1).1.map Output.status = .ok 1 := by
  decide +kernel

/-- `C99_events` for this call: the event is declared in the source `con_e` runs. -/
example {o : Output} {w' : World} (h : execute Verif.Demo.host {} (give w1 (.int 3)) w1 = (.ok o, w')) (hs : o.status = 0) :
    ∀ e ∈ o.events, ∃ c m params, node.code w'.driver c = some (compileModule c m) ∧ DeclaresEvent m e.event params :=
  fun e he => by
    obtain ⟨_, c, m, params, h1, _, h2, _⟩ :=
      C99_events faithful noText ⟨rfl, rfl⟩ (NodeDemo.disk0_any node) history (give_tx w1 (.int 3)) fees h hs e he
    exact ⟨c, m, params, h1, h2⟩

/-- `C100_restart` for this history. -/
example : w1.stack = [] ∧ (execute Verif.Demo.host {} (give w1 (.int 3)) w1).1 =
    (execute Verif.Demo.host {} (give w1 (.int 3)) { driver := w1.driver }).1 :=
  ⟨(C100_restart faithful (NodeDemo.disk0_any node) history).1, ((C100_restart faithful (NodeDemo.disk0_any node) history).2 _ _).1⟩

/-- The declaration in words of the specification. -/
example : DeclaresEvent srcE (py! "Transfer")
    [(py! "to", { types := [.str], idx := true }), (py! "amount", { types := [.int, .decimal], idx := false })] := by
  refine ⟨py! "T", _, _, [(py! "to", _), (py! "amount", _)], .head _, .head _, .tail _ (.head _), ⟨rfl, by decide⟩,
    .cons ⟨rfl, [(py! "type", _), (py! "idx", _)], _, ⟨rfl, by decide⟩, .head _, .one (by decide), .inl (.tail _ (.head _))⟩
    (.cons ⟨rfl, [(py! "type", _)], _, ⟨rfl, by decide⟩, .head _, ?_, .inr ⟨rfl, by decide⟩⟩ .nil)⟩
  exact .tuple (xs := [(py! "int", .int), (py! "decimal", .decimal)]) (by decide)

end EventDemo
end Verif.Lang
