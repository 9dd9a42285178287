import Verif.Props.Node
import Verif.Props.Submit
/-! # C97: what a submission does to a node, and what nothing else does -/
namespace Verif.Lang
open Verif Verif.Spec

/-- A transaction that succeeds has called a function of the contract with its arguments, and the call returned. -/
theorem success_call {H : Host} {cfg : ExecCfg} {tx : Tx} {w w' : World} {o : Output}
    (hhost : H.imported tx.contract = false ∧ H.importable tx.contract = false)
    (h : execute H cfg tx w = (.ok o, w')) (hs : o.status = 0) :
    ∃ fn kwargs, tx.code.fn = some fn ∧ fixKwargs tx.kwargs = .ok kwargs ∧ ∀ e, fn.2 kwargs ≠ .raise e := by
  obtain ⟨v, w1, ha, _⟩ := execute_success h hs
  rcases attempt_ok ha with ⟨hh, _⟩ | ⟨w0, w2, p, hp, hf, hrun⟩
  · rw [hhost.1, hhost.2] at hh; simp at hh
  · obtain ⟨fn, kwargs, w3, sub, hfn, hkw, rfl, rfl, _, _⟩ := fnWorld_cases hf
    refine ⟨fn, kwargs, hfn, hkw, fun e he => ?_⟩
    unfold Spec.entryProg at hrun
    split at hrun
    · rw [he] at hrun
      simp only [Prog.run] at hrun
      split at hrun <;> cases hrun
    · rw [he] at hrun
      cases hrun

/-- `submit_contract` with its arguments. -/
theorem submit_call {N : Node} {H : Host} {n : Nat} {d : Driver} {fn : Bool × (Dict Str PyVal → Prog)}
    (h : (N.codeFor H n d (py! "submission") (py! "submit_contract")).fn = some fn) (kwargs : Dict Str PyVal) :
    fn.1 = true ∧ ((∃ e, fn.2 kwargs = .raise e) ∨
      ∃ name source, dget kwargs (py! "name") = .str name ∧ dget kwargs (py! "code") = .str source ∧
        fn.2 kwargs = submitContract H N.tools name source (dget kwargs (py! "owner"))
          (N.deploy n d name source ((Dict.get? kwargs (py! "constructor_args")).getD (.dict [])))) := by
  unfold Node.codeFor at h
  rw [if_pos rfl, if_pos rfl] at h
  cases h
  refine ⟨rfl, ?_⟩
  simp only [submitFn, bindParams]
  split
  swap
  · exact .inl ⟨_, rfl⟩
  split
  · rename_i name source h1 h2
    refine .inr ⟨name, source, ?_, ?_, ?_⟩
    · rw [← h1]; simp [dget, Dict.get?]
    · rw [← h2]; simp [dget, Dict.get?]
    · simp [dget, Dict.get?]
  · exact .inl ⟨_, rfl⟩

/-- `set_contract` writes the five records of the contract only. -/
theorem setContract_keeps {H : Host} {T : Toolchain} {name text : Str} {owner time developer : PyVal} {k : Str}
    (hk : ∀ s ∈ records, k ≠ makeKey name s) (w : World) :
    ((setContract T name text owner time developer).run H w).2.driver.find k = w.driver.find k := by
  let P : Action → Prop := fun a => (∃ k', a = .rawGet k') ∨ ∃ s v, s ∈ records ∧ a = .rawSet (makeKey name s) v
  have hall : (setContract T name text owner time developer).All P := by
    unfold setContract
    refine perform_all (.inl ⟨_, rfl⟩) fun v => ?_
    split
    swap
    · exact trivial
    split
    · exact trivial
    exact perform_all (.inr ⟨_, _, by decide, rfl⟩) fun _ => perform_all (.inr ⟨_, _, by decide, rfl⟩) fun _ =>
      perform_all (.inr ⟨_, _, by decide, rfl⟩) fun _ => perform_all (.inr ⟨_, _, by decide, rfl⟩) fun _ =>
      perform_all (.inr ⟨_, _, by decide, rfl⟩) fun _ => trivial
  refine Prog.run_rel (P := P) (R := fun w w' => w'.driver.find k = w.driver.find k)
    (fun _ => rfl) (fun _ _ _ h h' => h'.trans h) (fun a w ha => ?_) (fun c w => ?_) (fun w => ?_)
    (fun w name dyn => ?_) (fun _ _ => rfl) _ hall w
  · rcases ha with ⟨k', rfl⟩ | ⟨s, v, hs, rfl⟩
    · rw [rawGet_run]
      show (w.driver.get k').2.find k = _
      rw [get_reads]; rfl
    · obtain ⟨h1, h2, h3, _⟩ := Driver.set_frame w.meter w.driver (makeKey name s) v false
      obtain ⟨h5, _⟩ := Driver.set_pend w.meter w.driver (makeKey name s) v false
      simp only [Action.run, World.md]
      exact find_of (d := w.driver) (d' := (w.driver.set w.meter (makeKey name s) v false).2.2) h1 h3 (by rw [h2])
        (by simp only [dget, h5 _ (hk s hs)])
  · obtain ⟨r, s, h⟩ := enter_frame c w
    rw [h]; rfl
  · obtain ⟨s, h⟩ := popState_frame w
    rw [h]
  · obtain ⟨r, h⟩ := importStart_frame H w name dyn
    rw [h]; rfl

/-- The code of a contract depends on what is stored for it. -/
theorem code_congr {N : Node} {d d' : Driver} {c : Str}
    (h : Spec.Plain c → ∀ s, s = py! "__code__" ∨ s = py! "__compiled__" → d'.find (makeKey c s) = d.find (makeKey c s)) :
    N.code d' c = N.code d c := by
  unfold Node.code
  split
  · rfl
  · rename_i hn
    simp only [not_or] at hn
    have h := h ⟨hn.2.1, hn.2.2.1, hn.2.2.2.1, hn.2.2.2.2⟩
    have h1 : d'.find (codeKey c) = d.find (codeKey c) := h _ (.inl rfl)
    have h2 : d'.find (compiledKey c) = d.find (compiledKey c) := h _ (.inr rfl)
    rw [h1, h2]

theorem code_record {s : Str} (h : s = py! "__code__" ∨ s = py! "__compiled__") : s ∈ records ∧ s ≠ py! "__developer__" := by
  rcases h with rfl | rfl <;> decide

/-- **C97.** What a successful `submit_contract` does: the compiler accepted the source under the name, which had no
code; the top level and the constructor of exactly the compiled source ran, in the state the transaction found, for
the sender; afterwards the node runs exactly the compiled source under this name, and every other contract as before; and
apart from the fee and the records of the new contract, the state is what the constructor left. -/
theorem C97_deployed {N : Node} (hN : RoundTrip N) {H : Host} {cfg : ExecCfg} {tx : Tx} {w w' : World} {o : Output}
    (hg : GenuineState N w.driver) (hby : w.driver.bypass = false) (ht : NodeTx N H w.driver tx) (hcon : tx.contract = py! "submission")
    (hfun : tx.function = py! "submit_contract")
    (hhost : H.imported (py! "submission") = false ∧ H.importable (py! "submission") = false) (hfee : PlainFees cfg)
    (he : execute H cfg tx w = (.ok o, w')) (hs : o.status = 0) :
    ∃ kwargs name source m n, fixKwargs tx.kwargs = .ok kwargs ∧ dget kwargs (py! "name") = .str name ∧
      dget kwargs (py! "code") = .str source ∧ N.read source = some m ∧ Accepted N.info name (moduleAst m) ∧
      N.code w.driver name = none ∧
      (∀ c, N.code w'.driver c = if c = name then some (compileModule name m) else N.code w.driver c) ∧
      ∃ w0 w1 answer, (∀ k, w0.driver.find k = w.driver.find k) ∧
        w0.current.caller = some tx.sender ∧ w0.current.signer = some tx.sender ∧
        (((N.chain w.driver).plus name (compileModule name m)).deploy n name
          ((Dict.get? kwargs (py! "constructor_args")).getD (.dict []))).run H w0 = (.ok answer, w1) ∧
        ∀ k, k ≠ balanceKey cfg tx.sender → (∀ s ∈ records, k ≠ makeKey name s) → w'.driver.find k = w1.driver.find k := by
  obtain ⟨n, hcode⟩ := ht.code
  obtain ⟨fn, kwargs, hf, hkw, hne⟩ := success_call (by rw [hcon]; exact hhost) he hs
  have hf' := hf
  rw [hcode, hcon, hfun] at hf'
  obtain ⟨hwr, ⟨e, h⟩ | ⟨name, source, h1, h2, h⟩⟩ := submit_call hf' kwargs
  · exact absurd h (hne e)
  obtain ⟨b, F⟩ := fn
  cases hwr
  obtain ⟨f1, f2, _⟩ := ht.fair hcon kwargs hkw
  obtain ⟨w0, v, w4, hrun, _, hcaller, hsigner, _, hpend, hfind, hstart⟩ := submit_tx hcon (by rw [hcon]; exact hhost) hf hkw h ht.auto he hs
  have htop : tx.code.top = .ret .none := by
    rw [hcode, hcon]; unfold Node.codeFor; rw [if_pos rfl]
  have hst := hstart htop
  have hnm : ∀ k, tx.code.All (Action.NoMutate k) := fun k =>
    ⟨(nodeTx_any hg ht k).1.2, fun fn hf kwargs => ((nodeTx_any hg ht k).2 fn kwargs hf).2⟩
  obtain ⟨_, _, _, _, hfree, _⟩ := C51_rules hrun
  obtain ⟨text, answer, r, w1, hp, hdep, hset⟩ := submit_split hrun
  obtain ⟨m, hm, ha, hd, hdec, hload, hgen⟩ := parse_genuine hN hp fun m hm => f2 source m h2 hm
  have hpl := (f1 name h1).1
  have huser := deploy_user hg hpl hm ha hd hdec n ((Dict.get? kwargs (py! "constructor_args")).getD (.dict []))
  have hcodes : ∀ c s, Spec.Plain c → s ∈ records → w1.driver.find (makeKey c s) = w.driver.find (makeKey c s) := by
    intro c s hc hs
    have := record_run (H := H) (s := s) hc.2.2.1 hs _ huser { w0 with driver := { w0.driver with pendingReads := r } }
    rw [hdep] at this
    exact this.trans (hst _)
  have hrest : ∀ k, k ≠ balanceKey cfg tx.sender → (∀ s ∈ records, k ≠ makeKey name s) → w'.driver.find k = w1.driver.find k := by
    intro k hb hk
    have := setContract_keeps (H := H) (T := N.tools) (name := name) (text := text) (owner := dget kwargs (py! "owner"))
      (time := recordedTime N.tools answer (w0.envGet (py! "now"))) (developer := optStr w0.current.caller) hk w1
    rw [hset] at this
    exact (hfind k hb).trans this
  have hrec : Recorded N.tools name text (dget kwargs (py! "owner")) (recordedTime N.tools answer (w0.envGet (py! "now")))
      (optStr w0.current.caller) w4.driver := by
    refine setContract_ok ?_ hset
    have e := hcodes name (py! "__code__") hpl (by decide)
    exact e.trans ((hst _).symm.trans hfree)
  refine ⟨kwargs, name, source, m, n, hkw, h1, h2, hm, ha, ?_, ?_, ?_⟩
  · unfold Node.code
    split
    · rfl
    · rw [← hst, hfree]
  · intro c
    split
    · rename_i e
      subst e
      have hb : ∀ s ∈ records, balanceKey cfg tx.sender ≠ makeKey c s := fun s hs =>
        userKey_ne (balance_user (N := NoColon) hfee.1.2.2.1 hfee.2 tx.sender) hpl.2.2.1 hs
      have hby' : w'.driver.bypass = false := (execute_around (c := []) (fun n => hnm _) ht.auto he).2.1.trans hby
      obtain ⟨blob, hblob, hcomp⟩ := hrec.compiled
      refine code_of (v0 := .str text) (b0 := blob) hpl (f1 c h1).2 ?_ (by simp) ?_ (hload _ hblob)
      · unfold Driver.find dget
        rw [hpend (codeKey c) (Ne.symm (hb (py! "__code__") (by decide))), hrec.code, hby']
        rfl
      · unfold Driver.find dget
        rw [hpend (compiledKey c) (Ne.symm (hb (py! "__compiled__") (by decide))), hcomp, hby']
        rfl
    · rename_i hcn
      refine code_congr fun hc s hs => ?_
      have hb : balanceKey cfg tx.sender ≠ makeKey c s :=
        userKey_ne (balance_user (N := NoColon) hfee.1.2.2.1 hfee.2 tx.sender) hc.2.2.1 (code_record hs).1
      rw [hrest _ (Ne.symm hb) fun s' hs' hk => hcn (record_inj (code_record hs).1 hs' hk).1, hcodes c s hc (code_record hs).1]
  · refine ⟨{ w0 with driver := { w0.driver with pendingReads := r } }, w1, answer, fun k => hst k, hcaller, hsigner, ?_, hrest⟩
    rw [← hdep]
    unfold Node.deploy
    rw [hm]

/-- What transactions other than submissions do leaves code as it is. -/
theorem code_act {H : Host} {c s : Str} (hc : Spec.Plain c) (hs : s = py! "__code__" ∨ s = py! "__compiled__") {a : Action}
    (ha : UserAction NoColon a ∨ (∃ k, a = .rawGet k) ∨ ∃ n v, a = .rawSet (developerKey n) v) (w : World) :
    (a.run H w).2.driver.find (makeKey c s) = w.driver.find (makeKey c s) := by
  rcases ha with ha | ⟨k, rfl⟩ | ⟨n, v, rfl⟩
  · exact record_act (s := s) hc.2.2.1 (code_record hs).1 ha w
  · rw [rawGet_run]
    show (w.driver.get k).2.find _ = _
    rw [get_reads]; rfl
  · obtain ⟨h1, h2, h3, _⟩ := Driver.set_frame w.meter w.driver (developerKey n) v false
    obtain ⟨h5, _⟩ := Driver.set_pend w.meter w.driver (developerKey n) v false
    simp only [Action.run, World.md]
    exact find_of (d := w.driver) (d' := (w.driver.set w.meter (developerKey n) v false).2.2) h1 h3 (by rw [h2])
      (by simp only [dget, h5 _ (fun h => (code_record hs).2 (record_inj (s := s) (t := py! "__developer__") (code_record hs).1 (by decide) h).2)])

/-- **C97.** Every other transaction - a call of any deployed contract, a change of developer, a submission that
fails - leaves the code of every contract as it was. -/
theorem C97_unchanged {N : Node} {H : Host} {cfg : ExecCfg} {tx : Tx} {w w' : World} {o : Output}
    (hg : GenuineState N w.driver) (ht : NodeTx N H w.driver tx) (hfee : PlainFees cfg) (he : execute H cfg tx w = (.ok o, w'))
    (hno : ¬ (tx.contract = py! "submission" ∧ tx.function = py! "submit_contract" ∧ o.status = 0)) (c : Str) :
    N.code w'.driver c = N.code w.driver c := by
  refine code_congr fun hc s hs => ?_
  have hnm : ∀ k, tx.code.All (Action.NoMutate k) := fun k =>
    ⟨(nodeTx_any hg ht k).1.2, fun fn hf kwargs => ((nodeTx_any hg ht k).2 fn kwargs hf).2⟩
  obtain ⟨h1, h2, _, _, h5⟩ := execute_around (c := c) (fun n => hnm _) ht.auto he
  have hb : balanceKey cfg tx.sender ≠ makeKey c s :=
    userKey_ne (balance_user (N := NoColon) hfee.1.2.2.1 hfee.2 tx.sender) hc.2.2.1 (code_record hs).1
  have hd := attempt_sameDisk H cfg tx (tx.metered cfg) (startWorld w)
  have hca : Dict.get? (attempt H cfg tx (tx.metered cfg) (startWorld w)).2.driver.cache (makeKey c s) = Dict.get? w.driver.cache (makeKey c s) :=
    attempt_cache (cfg := cfg) (H := H) (hnm _) (tx.metered cfg) (startWorld w)
  obtain ⟨_, writes, w2, hw, rfl, rfl⟩ := execute_ok he
  have hran : (ranWorld H cfg tx w).driver.find (makeKey c s) = w.driver.find (makeKey c s) := by
    unfold ranWorld
    cases hr : (ranOutcome H cfg tx w).result with
    | error e =>
      obtain ⟨_, h2⟩ := tryBlock_failed ht.auto (h := hr)
      rw [h2]
      exact Driver.find_congr_at rfl hca hd.1 hd.2.1
    | ok v =>
      obtain ⟨_, h2⟩ := tryBlock_ok ht.auto hr
      rw [h2]
      show (attempt H cfg tx (tx.metered cfg) (startWorld w)).2.driver.find (makeKey c s) = (startWorld w).driver.find (makeKey c s)
      have hno' : ¬ (tx.contract = py! "submission" ∧ tx.function = py! "submit_contract") := by
        rintro ⟨h1, h2⟩
        refine hno ⟨h1, h2, ?_⟩
        simp only [Output.status]
        rw [hr]
        rfl
      by_cases hsub : tx.contract = py! "submission"
      · have hall : tx.code.top.All (fun a => UserAction NoColon a ∨ (∃ k, a = .rawGet k) ∨ ∃ n v, a = .rawSet (developerKey n) v) ∧
            ∀ fn kwargs, tx.code.fn = some fn → fixKwargs tx.kwargs = .ok kwargs →
              (fn.2 kwargs).All (fun a => UserAction NoColon a ∨ (∃ k, a = .rawGet k) ∨ ∃ n v, a = .rawSet (developerKey n) v) := by
          obtain ⟨n, hcode⟩ := ht.code
          rw [hcode, hsub]
          unfold Node.codeFor
          rw [if_pos rfl, if_neg fun h => hno' ⟨hsub, h⟩]
          refine ⟨trivial, fun fn kwargs hf _ => ?_⟩
          split at hf
          swap
          · cases hf
          cases hf
          simp only [developerFn, bindParams]
          split
          swap
          · exact trivial
          split
          · exact changeDeveloper_all (.inr (.inl ⟨_, rfl⟩)) (.inl trivial) (.inr (.inr ⟨_, _, rfl⟩))
          · exact trivial
        exact attempt_driver' (H := H) (cfg := cfg) (tx := tx) (S := fun d d' => d'.find (makeKey c s) = d.find (makeKey c s)) (fun _ => rfl)
          (fun _ _ _ h h' => h'.trans h) (fun _ _ => rfl) (fun a w ha => code_act hc hs ha w) hall.1 hall.2 (tx.metered cfg) (startWorld w)
      · obtain ⟨q1, q2⟩ := langTx_user hg ht hsub
        exact attempt_driver' (H := H) (cfg := cfg) (tx := tx) (S := fun d d' => d'.find (makeKey c s) = d.find (makeKey c s)) (fun _ => rfl)
          (fun _ _ _ h h' => h'.trans h) (fun _ _ => rfl) (fun a w ha => code_act hc hs (.inl ha) w) q1 (fun fn kw h _ => q2 fn kw h)
          (tx.metered cfg) (startWorld w)
  cases hm : tx.metered cfg with
  | false => rw [hm, if_neg (by simp)] at hw; cases hw; exact hran
  | true =>
    rw [hm, if_pos rfl] at hw
    obtain ⟨_, _, b, r, _, _, _, _, hw2⟩ := chargeFee_ok ht.auto rfl hw
    rw [hw2, ← hran]
    exact Driver.find_congr_at (Dict.get?_set_ne _ _ hb) rfl rfl rfl

/-- **C97.** A change of developer that succeeds was sent by the recorded developer; it records the new developer given,
and, the fee apart, changes nothing else. -/
theorem C97_developer {N : Node} {H : Host} {cfg : ExecCfg} {tx : Tx} {w w' : World} {o : Output}
    (ht : NodeTx N H w.driver tx) (hcon : tx.contract = py! "submission") (hfun : tx.function = py! "change_developer")
    (hhost : H.imported (py! "submission") = false ∧ H.importable (py! "submission") = false) (hfee : PlainFees cfg)
    (he : execute H cfg tx w = (.ok o, w')) (hs : o.status = 0) :
    ∃ kwargs contract new, fixKwargs tx.kwargs = .ok kwargs ∧ dget kwargs (py! "contract") = .str contract ∧
      normValue (dget kwargs (py! "new_developer")) = .ok new ∧
      w.driver.find (developerKey contract) = .ok (.str tx.sender) ∧
      Dict.get? w'.driver.pendingWrites (developerKey contract) = some new ∧
      ∀ k, k ≠ balanceKey cfg tx.sender → k ≠ developerKey contract → w'.driver.find k = w.driver.find k := by
  obtain ⟨n, hcode⟩ := ht.code
  obtain ⟨fn, kwargs, hf, hkw, hne⟩ := success_call (by rw [hcon]; exact hhost) he hs
  have hf' := hf
  rw [hcode, hcon, hfun] at hf'
  unfold Node.codeFor at hf'
  rw [if_pos rfl, if_neg (by decide), if_pos rfl] at hf'
  cases hf'
  obtain ⟨_, _, f3⟩ := ht.fair hcon kwargs hkw
  have hB : (∃ e, developerFn.2 kwargs = .raise e) ∨ ∃ contract, dget kwargs (py! "contract") = .str contract ∧
      developerFn.2 kwargs = changeDeveloper contract (dget kwargs (py! "new_developer")) := by
    simp only [developerFn, bindParams]
    split
    swap
    · exact .inl ⟨_, rfl⟩
    split
    · rename_i contract h1
      refine .inr ⟨contract, ?_, ?_⟩
      · rw [← h1]; simp [dget, Dict.get?]
      · simp [dget, Dict.get?]
    · exact .inl ⟨_, rfl⟩
  obtain ⟨e, h⟩ | ⟨contract, h1, h⟩ := hB
  · exact absurd h (hne e)
  obtain ⟨w0, v, w4, hrun, _, hcaller, _, _, hpend, hfind, hstart⟩ := wrapped_tx (F := developerFn.2) (by rw [hcon]; exact hhost) hf hkw h ht.auto he hs
  have htop : tx.code.top = .ret .none := by
    rw [hcode, hcon]; unfold Node.codeFor; rw [if_pos rfl]
  have hst := hstart htop
  have hdev := C53_only_developer hrun
  obtain ⟨⟨x, hx, hp⟩, h2, h3, h4⟩ := C53_only_record hrun
  have hb : balanceKey cfg tx.sender ≠ developerKey contract :=
    userKey_ne (balance_user (N := NoColon) hfee.1.2.2.1 hfee.2 tx.sender) (f3 contract h1).2.2.1 (by decide)
  have hby := (Prog.run_outside H (changeDeveloper contract (dget kwargs (py! "new_developer"))) w0).sameDisk.2.1
  rw [hrun] at hby
  refine ⟨kwargs, contract, x, hkw, h1, hx, ?_, ?_, ?_⟩
  · rw [← hst, hdev, hcaller]; rfl
  · rw [hpend _ (Ne.symm hb)]; exact hp
  · intro k hk1 hk2
    rw [hfind k hk1, ← hst]
    exact Driver.find_congr_at (h2 k hk2) (by rw [h4]) h3 hby

/-! ### Examples -/

namespace DeployDemo
open NodeDemo (w0 disk0 disk0_genuine fees ran)

/-- `x = Variable()`, a constructor that sets it, and `get`. -/
def srcC : Module := [
  .decl (py! "x") (py! "Variable") [],
  .def { name := py! "seed", args := [(py! "v", none)], deco := .construct, body := [
    .expr (.call (.attr (.name (py! "x")) (py! "set")) [.name (py! "v")] [])] },
  .def { name := py! "get", args := [], deco := .export, body := [
    .ret [.call (.attr (.name (py! "x")) (py! "get")) [] []]] }]

/-- A node that knows this source. -/
def node : Node := { NodeDemo.node with
  read := fun s => if s = py! "c" then some srcC else none
  write := fun m => ((funs m).findSome? fun f => match f.deco with | .wrapped _ c => some c | _ => none).getD []
  load := fun b => some (compileModule (NodeDemo.decode b) srcC) }

theorem read_cases {s : Str} {m : Module} (h : node.read s = some m) : m = srcC := by
  change (if s = py! "c" then some srcC else none) = some m at h
  split at h
  · cases h; rfl
  · cases h

theorem faithful : RoundTrip node := by
  intro source m name b h _ hb
  show some (compileModule (NodeDemo.decode b) srcC) = _
  rw [NodeDemo.decode_encode hb, read_cases h]
  rfl

theorem fair_source {s : Str} {m : Module} (h : node.read s = some m) : Disciplined m ∧ Declares m := by
  rw [read_cases h]
  refine ⟨⟨?_, ?_⟩, ?_⟩
  · simp [srcC, Top.All, stmtsAll, Stmt.All, Expr.All, exprsAll, kwsAll, storageClasses]
  · rw [OwnName, ← names_iff]; decide
  · intro x cls kws h
    simp [srcC] at h
    rw [h.1]; decide

/-- `bob` submits `con_c` with constructor arguments. -/
def submission (w : World) (args : Dict PyKey PyVal) : Tx :=
  { sender := Verif.Demo.bob, contract := py! "submission", function := py! "submit_contract",
    kwargs := [(py! "name", .str (py! "con_c")), (py! "code", .str (py! "c")), (py! "constructor_args", .dict args)],
    stamps := 50, stampCost := 1, metering := some false,
    code := node.codeFor Verif.Demo.host 5 w.driver (py! "submission") (py! "submit_contract") }

/-- `bob` calls `con_c.get`. -/
def get (w : World) : Tx :=
  { sender := Verif.Demo.bob, contract := py! "con_c", function := py! "get", kwargs := [], stamps := 50, stampCost := 1,
    code := node.codeFor Verif.Demo.host 5 w.driver (py! "con_c") (py! "get") }

def seeded : Dict PyKey PyVal := [(.str (py! "v"), .int 42)]

def w1 : World := (execute Verif.Demo.host {} (submission w0 seeded) w0).2

theorem state0 : GenuineState node w0.driver := (CodeInv.open (NodeDemo.disk0_any node)).state

theorem submission_tx (w : World) (args : Dict PyKey PyVal) (hfix : fixKwargs (submission w args).kwargs = .ok (submission w args).kwargs) :
    NodeTx node Verif.Demo.host w.driver (submission w args) where
  auto := rfl
  pub := rfl
  code := ⟨5, rfl⟩
  fair := by
    intro _ kwargs hk
    rw [hfix] at hk
    cases hk
    refine ⟨fun n h => ?_, fun s m _ hm => fair_source hm, fun n h => ?_⟩
    · have : PyVal.str (py! "con_c") = .str n := h
      cases this
      decide
    · cases h

theorem get_tx (w : World) : NodeTx node Verif.Demo.host w.driver (get w) where
  auto := rfl
  pub := rfl
  code := ⟨5, rfl⟩
  fair := fun h => by cases h

/-- `C97_deployed` for this submission: the node then runs the compiled source under this name. -/
example : node.code w0.driver (py! "con_c") = none ∧ node.code w1.driver (py! "con_c") = some (compileModule (py! "con_c") srcC) := by
  obtain ⟨o, h⟩ := ran (cfg := {}) (t := submission w0 seeded) (w := w0) (by decide +kernel)
  have hs : (execute Verif.Demo.host {} (submission w0 seeded) w0).1.map Output.status = .ok 0 := by decide +kernel
  have hst : o.status = 0 := by
    rw [congrArg Prod.fst h] at hs
    exact Except.ok.inj hs
  obtain ⟨kwargs, name, source, m, n, h1, h2, h3, h4, _, h6, h7, _⟩ := C97_deployed faithful state0 rfl
    (submission_tx w0 seeded (by decide +kernel)) rfl rfl ⟨rfl, rfl⟩ fees h hst
  have hfix : fixKwargs (submission w0 seeded).kwargs = .ok (submission w0 seeded).kwargs := by decide +kernel
  rw [hfix] at h1
  cases h1
  have e : PyVal.str (py! "con_c") = .str name := h2
  cases e
  cases read_cases h4
  refine ⟨h6, ?_⟩
  have := h7 (py! "con_c")
  rw [if_pos rfl] at this
  unfold w1
  exact this

/-- The constructor has run: `x` is 42, and `get` answers so. A submission whose constructor arguments do not
fit fails, and `con_c` has no code. -/
example :
    stateOf (py! "con_c") w1.driver (py! "x") = .ok (.int 42) ∧
    (execute Verif.Demo.host {} (get w1) w1).1.map Output.result = .ok (.ok (.int 42)) ∧
    (execute Verif.Demo.host {} (submission w0 []) w0).1.map Output.status = .ok 1 ∧
    stateOf (py! "con_c") (execute Verif.Demo.host {} (submission w0 []) w0).2.driver (py! "__code__") = .ok .none := by
  decide +kernel

/-- `C97_unchanged` for the failed submission, and for the call. -/
example : (∀ c, node.code (execute Verif.Demo.host {} (submission w0 []) w0).2.driver c = node.code w0.driver c) := by
  obtain ⟨o, h⟩ := ran (cfg := {}) (t := submission w0 []) (w := w0) (by decide +kernel)
  have hs : (execute Verif.Demo.host {} (submission w0 []) w0).1.map Output.status = .ok 1 := by decide +kernel
  refine C97_unchanged state0 (submission_tx w0 [] (by decide +kernel)) fees h fun hx => ?_
  rw [congrArg Prod.fst h] at hs
  have := Except.ok.inj hs
  rw [hx.2.2] at this
  cases this

/-- `C97_developer`: `bob`, who submitted `con_c`, hands it over to `eve`. -/
def hand (w : World) : Tx :=
  { sender := Verif.Demo.bob, contract := py! "submission", function := py! "change_developer",
    kwargs := [(py! "contract", .str (py! "con_c")), (py! "new_developer", .str (py! "eve"))],
    stamps := 50, stampCost := 1, metering := some false,
    code := node.codeFor Verif.Demo.host 5 w.driver (py! "submission") (py! "change_developer") }

theorem hand_tx (w : World) (hfix : fixKwargs (hand w).kwargs = .ok (hand w).kwargs) : NodeTx node Verif.Demo.host w.driver (hand w) where
  auto := rfl
  pub := rfl
  code := ⟨5, rfl⟩
  fair := by
    intro _ kwargs hk
    rw [hfix] at hk
    cases hk
    refine ⟨fun n h => (by cases h), fun s m _ hm => fair_source hm, fun n h => ?_⟩
    have : PyVal.str (py! "con_c") = .str n := h
    cases this
    decide

example : (execute Verif.Demo.host {} (hand w1) w1).1.map Output.status = .ok 0 ∧
    Dict.get? (execute Verif.Demo.host {} (hand w1) w1).2.driver.pendingWrites (developerKey (py! "con_c")) = some (.str (py! "eve")) := by
  have hs : (execute Verif.Demo.host {} (hand w1) w1).1.map Output.status = .ok 0 := by decide +kernel
  refine ⟨hs, ?_⟩
  obtain ⟨o, h⟩ := ran (cfg := {}) (t := hand w1) (w := w1) (by decide +kernel)
  rw [congrArg Prod.fst h] at hs
  have hfix : fixKwargs (hand w1).kwargs = .ok (hand w1).kwargs := by decide +kernel
  obtain ⟨kwargs, contract, new, h1, h2, h3, _, h5, _⟩ := C97_developer (hand_tx w1 hfix) rfl rfl ⟨rfl, rfl⟩ fees h (Except.ok.inj hs)
  rw [hfix] at h1
  cases h1
  have e : PyVal.str (py! "con_c") = .str contract := h2
  cases e
  have e : normValue (.str (py! "eve")) = .ok new := h3
  have e' : normValue (.str (py! "eve")) = .ok (.str (py! "eve")) := by decide +kernel
  rw [e'] at e
  cases e
  exact h5

end DeployDemo

end Verif.Lang
