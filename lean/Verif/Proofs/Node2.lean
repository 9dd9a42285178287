import Verif.Proofs.Node
/-! # Nodes: stored code stays genuine -/
namespace Verif.Lang
open Verif Verif.Spec

theorem compiledKey_plain {c : Str} (hc : Spec.Plain c) : PlainKey (compiledKey c) :=
  ⟨c, py! "__compiled__", [], hc, by decide, by simp, rfl⟩

theorem compiledKey_inj {c c' : Str} (h : compiledKey c = compiledKey c') : c = c' :=
  (record_inj (s := py! "__compiled__") (t := py! "__compiled__") (by decide) (by decide) h).1

theorem record_ne_compiled {c c' s : Str} (hs : s ∈ records) (hne : s ≠ py! "__compiled__") : makeKey c s ≠ compiledKey c' := fun h =>
  hne (record_inj hs (by decide) h).2

theorem codeKey_plain {c : Str} (hc : Spec.Plain c) : PlainKey (codeKey c) :=
  ⟨c, py! "__code__", [], hc, by decide, by simp, rfl⟩

theorem codeKey_inj {c c' : Str} (h : codeKey c = codeKey c') : c = c' := (record_inj (s := py! "__code__") (t := py! "__code__") (by decide) (by decide) h).1

theorem record_ne_code {c c' s : Str} (hs : s ∈ records) (hne : s ≠ py! "__code__") : makeKey c s ≠ codeKey c' := fun h =>
  hne (record_inj hs (by decide) h).2

/-! ### Actions of transactions on a node -/

/-- Contract code; reads by the submission contract; genuine code and other records written by it. -/
def NodeAct (N : Node) : Action → Prop
  | .rawSet k v => (∃ c b, k = compiledKey c ∧ v = .bytes b ∧ Genuine N c b) ∨ 
      ∃ c s, s ∈ records ∧ s ≠ py! "__compiled__" ∧ k = makeKey c s ∧ (s = py! "__code__" → ∃ t, v = .str t)
  | .rawGet _ => True
  | a => UserAction NoColon a

theorem NodeAct.of_user {N : Node} {a : Action} (h : UserAction NoColon a) : NodeAct N a := by
  cases a <;> first | exact h | exact h.elim

/-- Pending code is genuine. -/
def PendGood (N : Node) (d : Driver) : Prop :=
  ∀ c v, Spec.Plain c → c ≠ py! "submission" → Dict.get? d.pendingWrites (compiledKey c) = some v → ∃ b, v = .bytes b ∧ Genuine N c b

theorem all_mono {P Q : Action → Prop} (h : ∀ a, P a → Q a) : ∀ {p : Prog}, p.All P → p.All Q := by
  intro p
  induction p with
  | ret v => exact id
  | raise e => exact id
  | act a k ih => exact fun hp => ⟨h _ hp.1, fun r => ih r (hp.2 r)⟩
  | call c body k ihb ih => exact fun hp => ⟨ihb hp.1, fun r => ih r (hp.2 r)⟩
  | load n d body k ihb ih => exact fun hp => ⟨ihb hp.1, fun r => ih r (hp.2 r)⟩

/-- What actions do to a pending record. -/
theorem pend_act {N : Node} {H : Host} {a : Action} (ha : NodeAct N a) (w : World) {c s : Str} (hc : Spec.Plain c) (hs : s ∈ records)
    {Q : PyVal → Prop} (hQ : ∀ v v', a = .rawSet (makeKey c s) v → normValue v = .ok v' → Q v')
    (h : ∀ v, Dict.get? w.driver.pendingWrites (makeKey c s) = some v → Q v) (v : PyVal)
    (hg : Dict.get? (a.run H w).2.driver.pendingWrites (makeKey c s) = some v) : Q v := by
  by_cases hraw : ∃ k v, a = .rawSet k v
  · obtain ⟨k, x, rfl⟩ := hraw
    cases hr : (Action.rawSet k x).run H w with
    | mk r w1 =>
      rw [hr] at hg
      cases r with
      | error e =>
        -- a refused write leaves what is pending
        have : Dict.get? w1.driver.pendingWrites (makeKey c s) = Dict.get? w.driver.pendingWrites (makeKey c s) := by
          simp only [Action.run, World.md] at hr
          rcases hset : w.driver.set w.meter k x false with ⟨r, m', d'⟩
          rw [hset] at hr
          cases r with
          | ok u => cases hr
          | error e' =>
            cases hr
            show Dict.get? d'.pendingWrites _ = _
            rw [(Driver.set_error hset).1]
        exact h v (this.symm.trans hg)
      | ok u =>
        obtain ⟨⟨v1, h1, h2⟩, h3⟩ := rawSet_ok hr
        by_cases e : makeKey c s = k
        · subst e
          rw [h2] at hg
          cases hg
          exact hQ _ _ rfl h1
        · rw [h3 _ e] at hg
          exact h v hg
  · by_cases hget : ∃ k, a = .rawGet k
    · obtain ⟨k, rfl⟩ := hget
      have e : ((Action.rawGet k).run H w).2.driver.pendingWrites = w.driver.pendingWrites := by
        show (World.rd w (w.driver.get k)).2.driver.pendingWrites = _
        unfold World.rd
        rw [get_reads]
      rw [e] at hg
      exact h v hg
    · have hu : UserAction NoColon a := by
        cases a <;> first | exact ha | exact absurd ⟨_, _, rfl⟩ hraw | exact absurd ⟨_, rfl⟩ hget
      refine h v ?_
      rw [← hg]
      by_cases hgu : ∃ n, a = .guarded n
      · obtain ⟨_, rfl⟩ := hgu; rfl
      · symm
        refine Steps.rel (R := fun p q => Dict.get? q.2.pendingWrites (makeKey c s) = Dict.get? p.2.pendingWrites (makeKey c s)) (fun _ => rfl)
          (fun _ _ _ h h' => h'.trans h) (fun p q hq => ?_) (Action.run_steps H w a fun n h => hgu ⟨n, h⟩)
        cases q with
        | write k v' txn =>
          have hk : UserKey NoColon k := by
            cases a <;> first | exact absurd hq id | exact absurd hu id | skip
            · obtain ⟨_, rfl⟩ := hq
              obtain ⟨c, v, hc, hv, hx⟩ := hu
              exact ⟨c, v, [], hc, hv, Or.inl rfl, by rw [hx, List.append_nil]⟩
            · obtain ⟨_, s', rfl⟩ := hq
              obtain ⟨c, v, hc, hv, hx⟩ := hu
              exact ⟨c, v, ':' :: s', hc, hv, Or.inr ⟨s', rfl⟩, by rw [HashVar.entry, hx]⟩
            · obtain ⟨_, t, rfl⟩ := hq
              obtain ⟨c, v, hc, hv, hx⟩ := hu
              exact ⟨c, v, ':' :: t, hc, hv, Or.inr ⟨t, rfl⟩, by rw [hx]; simp⟩
          exact (Driver.set_pend p.1 p.2 k v' txn).1 _ (userKey_ne hk hc.2.2.1 hs).symm
        | mutate k v' x y =>
          cases hq
          have hne : makeKey c s ≠ k := (userKey_ne hu hc.2.2.1 hs).symm
          show Dict.get? (p.2.mutate _ _ _ _).pendingWrites (makeKey c s) = _
          unfold Driver.mutate
          simp only
          split
          · rfl
          · exact (mutate_put p.2.pendingWrites k v').1 _ hne
        | _ => rfl

theorem pendGood_act {N : Node} {H : Host} {a : Action} (ha : NodeAct N a) (w : World) (h : PendGood N w.driver) :
    PendGood N (a.run H w).2.driver := by
  intro c v hc hs hg
  refine pend_act (c := c) (s := py! "__compiled__") ha w hc (by decide) (fun v v' e hv => ?_) (fun v hv => h c v hc hs hv) v hg
  subst e
  rcases ha with ⟨c', t, e, rfl, hgen⟩ | ⟨c', s, hs', hne, e, _⟩
  · have := compiledKey_inj e
    subst this
    cases hv
    exact ⟨t, rfl, hgen⟩
  · exact (record_ne_compiled hs' hne e.symm).elim

/-- No code record is pending as `None`. -/
def PendCode (d : Driver) : Prop :=
  ∀ c v, Spec.Plain c → Dict.get? d.pendingWrites (codeKey c) = some v → v ≠ .none

theorem pendCode_act {N : Node} {H : Host} {a : Action} (ha : NodeAct N a) (w : World) (h : PendCode w.driver) :
    PendCode (a.run H w).2.driver := by
  intro c v hc hg
  refine pend_act (c := c) (s := py! "__code__") ha w hc (by decide) (fun v v' e hv => ?_) (fun v hv => h c v hc hv) v hg
  subst e
  rcases ha with ⟨c', t, e, rfl, hgen⟩ | ⟨c', s, hs', hne, e, hcode⟩
  · cases hv
    simp
  · obtain ⟨t, rfl⟩ := hcode (record_inj hs' (by decide) e.symm).2
    cases hv
    simp

/-! ### The transactions of a node -/

theorem parse_genuine {N : Node} (hN : RoundTrip N) {name code text : Str} (h : N.tools.parse name code = .ok text)
    (hd : ∀ m, N.read code = some m → Disciplined m ∧ Declares m) :
    ∃ m, N.read code = some m ∧ Accepted N.info name (moduleAst m) ∧ Disciplined m ∧ Declares m ∧
      (∀ blob, N.tools.marshal text = .ok blob → N.load blob = some (compileModule name m)) ∧
      ∀ blob, N.tools.marshal text = .ok blob → Genuine N name blob := by
  change N.parse name code = .ok text at h
  unfold Node.parse at h
  split at h
  · cases h
  rename_i m hm
  obtain ⟨t', ht, rfl⟩ := map_ok h
  exact ⟨m, hm, ⟨t', ht⟩, (hd m hm).1, (hd m hm).2, fun b hb => hN _ _ _ _ hm ⟨t', ht⟩ hb,
    fun b hb => ⟨m, ⟨t', ht⟩, (hd m hm).1, (hd m hm).2, hN _ _ _ _ hm ⟨t', ht⟩ hb⟩⟩

theorem perform_all {P : Action → Prop} {a : Action} (ha : P a) {k : PyVal → Prog} (hk : ∀ v, (k v).All P) : (perform a k).All P :=
  ⟨ha, fun r => by cases r with | ok v => exact hk v | error e => exact trivial⟩

theorem node_submits (N : Node) (name : Str) : Submits (fun p => p.All (NodeAct N)) name (Genuine N name) where
  ret _ := trivial
  raise _ := trivial
  get h := perform_all trivial h
  caller h := perform_all trivial h
  signer h := perform_all trivial h
  env h := perform_all trivial h
  compiled ht h := perform_all (.inl ⟨_, _, rfl, rfl, ht⟩) h
  record hs hne hc h := perform_all (.inr ⟨_, _, hs, hne, rfl, hc⟩) h
  bind hp hf := bind_all hp fun r => by cases r with | ok v => exact hf v | error e => exact trivial

/-- The two shapes of calls of the submission contract, with the arguments they get. -/
theorem submission_cases {N : Node} {H : Host} {n : Nat} {d : Driver} {fname : Str} {fn : Bool × (Dict Str PyVal → Prog)}
    (h : (N.codeFor H n d (py! "submission") fname).fn = some fn) (kwargs : Dict Str PyVal) :
    fn.1 = true ∧ ((∃ e, fn.2 kwargs = .raise e) ∨
      (∃ name source owner args, dget kwargs (py! "name") = .str name ∧ dget kwargs (py! "code") = .str source ∧
        args = (Dict.get? kwargs (py! "constructor_args")).getD (.dict []) ∧
        fn.2 kwargs = submitContract H N.tools name source owner (N.deploy n d name source args)) ∨
      ∃ contract new, dget kwargs (py! "contract") = .str contract ∧ fn.2 kwargs = changeDeveloper contract new) := by
  unfold Node.codeFor at h
  rw [if_pos rfl] at h
  simp only at h
  split at h
  · cases h
    refine ⟨rfl, ?_⟩
    simp only [submitFn, bindParams]
    split
    swap
    · exact .inl ⟨_, rfl⟩
    split
    · rename_i name source h1 h2
      refine .inr (.inl ⟨name, source, _, _, ?_, ?_, ?_, rfl⟩)
      · rw [← h1]; simp [dget, Dict.get?]
      · rw [← h2]; simp [dget, Dict.get?]
      · simp [dget, Dict.get?]
    · exact .inl ⟨_, rfl⟩
  · split at h
    · cases h
      refine ⟨rfl, ?_⟩
      simp only [developerFn, bindParams]
      split
      swap
      · exact .inl ⟨_, rfl⟩
      split
      · rename_i contract h1
        refine .inr (.inr ⟨contract, _, ?_, rfl⟩)
        rw [← h1]; simp [dget, Dict.get?]
      · exact .inl ⟨_, rfl⟩
    · cases h

theorem changeDeveloper_all {P : Action → Prop} {contract : Str} {new : PyVal} (h1 : P (.rawGet (developerKey contract))) (h2 : P .ctxCaller)
    (h3 : P (.rawSet (developerKey contract) new)) : (changeDeveloper contract new).All P := by
  refine perform_all h1 fun d => perform_all h2 fun caller => ?_
  split
  · exact trivial
  · exact perform_all h3 fun _ => trivial

/-- What a deployment does satisfies whatever contract code does. -/
theorem deploy_user {N : Node} {d : Driver} (hg : GenuineState N d) {name source : Str} (hpl : Spec.Plain name) {m : Module}
    (hm : N.read source = some m) (ha : Accepted N.info name (moduleAst m)) (hd : Disciplined m) (hdec : Declares m) (n : Nat) (args : PyVal) :
    (N.deploy n d name source args).All (UserAction NoColon) := by
  obtain ⟨src, hD, hs⟩ := chain_deployed hg
  have hD' := plus_deployed hD ha hpl.2.1
  have hr := user_ready hD' (by
    intro c m' h
    unfold plusSrc at h
    split at h
    · rename_i e; subst e; cases h; exact ⟨hd, hdec, hpl.2.2.1⟩
    · obtain ⟨h1, h2, h3, _⟩ := hs c m' h; exact ⟨h1, h2, h3.2.2.1⟩)
  unfold Node.deploy
  rw [hm]
  exact deploy_P user_closed user_allows hr (fun _ => trivial)
    (fun hp hf => bind_all hp fun r => by cases r with | ok v => exact hf v | error e => exact trivial)
    (fun c i h => plus_name hD' h) n args

/-- All a transaction of the language does. -/
theorem langTx_user {N : Node} {H : Host} {d : Driver} (hg : GenuineState N d) {tx : Tx} (ht : NodeTx N H d tx)
    (hsub : tx.contract ≠ py! "submission") : tx.code.top.All (UserAction NoColon) ∧
    ∀ fn kwargs, tx.code.fn = some fn → (fn.2 kwargs).All (UserAction NoColon) := by
  obtain ⟨n, hcode⟩ := ht.code
  rw [hcode]
  have hc : N.codeFor H n d tx.contract tx.function = (N.chain d).codeFor n tx.contract tx.function := by
    unfold Node.codeFor; rw [if_neg hsub]
  rw [hc]
  obtain ⟨src, hD, hs⟩ := chain_deployed hg
  have hr := user_ready hD fun c m h => ⟨(hs c m h).1, (hs c m h).2.1, (hs c m h).2.2.1.2.2.1⟩
  refine ⟨Chain.top_P user_closed user_allows (fun _ _ _ _ _ _ _ _ _ _ => trivial) n tx.contract, fun fn kwargs hf => ?_⟩
  obtain ⟨m, hm, ⟨i, f, w, d, h1, h2, h3, rfl⟩ | rfl⟩ := entry_wrapped hD ht.pub hf
  · refine Chain.body_P user_closed user_allows hr n tx.contract m f _ _ trivial hm (List.mem_of_getElem? h1) (by simp) ?_
    intro q hq
    obtain ⟨p, _, rfl⟩ := List.mem_map.1 hq
    exact trivial
  · exact trivial

/-- All a transaction does. -/
theorem nodeTx_all {N : Node} (hN : RoundTrip N) {H : Host} {d : Driver} (hg : GenuineState N d) {tx : Tx} (ht : NodeTx N H d tx) :
    tx.code.top.All (NodeAct N) ∧
    ∀ fn kwargs, tx.code.fn = some fn → fixKwargs tx.kwargs = .ok kwargs → (fn.2 kwargs).All (NodeAct N) := by
  by_cases hsub : tx.contract = py! "submission"
  · obtain ⟨n, hcode⟩ := ht.code
    rw [hcode, hsub]
    refine ⟨by unfold Node.codeFor; rw [if_pos rfl]; exact trivial, fun fn kwargs hf hk => ?_⟩
    obtain ⟨f1, f2, f3⟩ := ht.fair hsub kwargs hk
    obtain ⟨_, ⟨e, h⟩ | ⟨name, source, owner, args, h1, h2, _, h⟩ | ⟨contract, new, h1, h⟩⟩ := submission_cases hf kwargs
    · rw [h]; exact trivial
    · rw [h]
      refine submitContract_P (node_submits N name) fun t hp => ?_
      obtain ⟨m, hm, ha, hd, hdec, _, hgen⟩ := parse_genuine hN hp fun m hm => f2 source m h2 hm
      exact ⟨hgen, all_mono (fun a h => NodeAct.of_user h) (deploy_user hg (f1 name h1).1 hm ha hd hdec n args)⟩
    · rw [h]
      exact changeDeveloper_all trivial trivial (.inr ⟨contract, py! "__developer__", by decide, by decide, rfl, fun h => absurd h (by decide)⟩)
  · obtain ⟨h1, h2⟩ := langTx_user hg ht hsub
    exact ⟨all_mono (fun a h => NodeAct.of_user h) h1, fun fn kwargs hf _ => all_mono (fun a h => NodeAct.of_user h) (h2 fn kwargs hf)⟩

/-! ### Nothing is caught, nothing is changed in place -/

theorem perform_noCatch {a : Action} {k : PyVal → Prog} (hk : ∀ v, (k v).NoCatch) : (perform a k).NoCatch := ⟨fun _ => rfl, hk⟩

theorem any_submits (k name : Str) : Submits (fun p => p.NoCatch ∧ p.All (Action.NoMutate k)) name (fun _ => True) where
  ret _ := ⟨trivial, trivial⟩
  raise _ := ⟨trivial, trivial⟩
  get h := ⟨perform_noCatch fun v => (h v).1, perform_all trivial fun v => (h v).2⟩
  caller h := ⟨perform_noCatch fun v => (h v).1, perform_all trivial fun v => (h v).2⟩
  signer h := ⟨perform_noCatch fun v => (h v).1, perform_all trivial fun v => (h v).2⟩
  env h := ⟨perform_noCatch fun v => (h v).1, perform_all trivial fun v => (h v).2⟩
  compiled _ h := ⟨perform_noCatch fun v => (h v).1, perform_all trivial fun v => (h v).2⟩
  record _ _ _ h := ⟨perform_noCatch fun v => (h v).1, perform_all trivial fun v => (h v).2⟩
  bind hp hf := ⟨bind_noCatch hp.1 (fun _ => rfl) fun v => (hf v).1,
    bind_all hp.2 fun r => by cases r with | ok v => exact (hf v).2 | error e => exact trivial⟩

theorem global_fn {C : Chain} {name id c : Str} {i : Nat} (h : C.global name id = some (.ok (.fn c i))) : c = name := by
  obtain ⟨m', h1, h2⟩ := Option.bind_eq_some_iff.1 h
  rcases bindings_mem (globalOf_mem h2) with ⟨n, a, _, _, e⟩ | ⟨cls, kws, h1, h2⟩ | ⟨e, h1, h2⟩ | ⟨f, j, _, _, e⟩
  · cases e
  · unfold declVal at h2
    split at h2
    · cases h2
    · obtain ⟨ks, _, hk⟩ := bind_ok h2.symm
      rcases construct_kind hk with ⟨_, _, _, _, ⟨_, _, _, e⟩ | ⟨_, _, e⟩⟩ | ⟨_, ⟨_, e⟩ | ⟨_, e⟩ | ⟨_, _, e⟩⟩ <;> cases e
  · unfold pureVal at h2
    split at h2
    · obtain ⟨_, _, e⟩ := map_ok h2.symm
      cases e
    · split at h2
      · obtain ⟨_, _, h2⟩ := map_ok h2.symm
        cases h2
      · cases h2
    · repeat' split at h2
      all_goals cases h2
    · split at h2 <;> cases h2
    · obtain ⟨_, _, h2⟩ := map_ok h2.symm
      cases h2
    · cases h2
  · cases e; rfl

theorem deploy_any {N : Node} {d : Driver} (k : Str) (n : Nat) (name source : Str) (args : PyVal) :
    (N.deploy n d name source args).NoCatch ∧ (N.deploy n d name source args).All (Action.NoMutate k) := by
  unfold Node.deploy
  split
  · exact ⟨trivial, trivial⟩
  · exact deploy_P (any_closed k) (any_allows k) (any_ready k _) (fun _ => trivial) (any_submits k name).bind
      (fun c i h => global_fn h) n args

theorem nodeTx_any {N : Node} {H : Host} {d : Driver} {tx : Tx} (hg : GenuineState N d) (ht : NodeTx N H d tx) (k : Str) :
    (tx.code.top.NoCatch ∧ tx.code.top.All (Action.NoMutate k)) ∧
    ∀ fn kwargs, tx.code.fn = some fn → (fn.2 kwargs).NoCatch ∧ (fn.2 kwargs).All (Action.NoMutate k) := by
  obtain ⟨n, hcode⟩ := ht.code
  rw [hcode]
  by_cases hsub : tx.contract = py! "submission"
  · rw [hsub]
    refine ⟨by unfold Node.codeFor; rw [if_pos rfl]; exact ⟨trivial, trivial⟩, fun fn kwargs hf => ?_⟩
    obtain ⟨_, ⟨e, h⟩ | ⟨name, source, owner, args, h1, h2, _, h⟩ | ⟨contract, new, h1, h⟩⟩ := submission_cases hf kwargs
    · rw [h]; exact ⟨trivial, trivial⟩
    · rw [h]
      exact submitContract_P (any_submits k name) fun t _ => ⟨fun _ _ => trivial, deploy_any k n name source args⟩
    · rw [h]
      refine ⟨?_, changeDeveloper_all trivial trivial trivial⟩
      refine perform_noCatch fun d => perform_noCatch fun caller => ?_
      split
      · exact trivial
      · exact perform_noCatch fun _ => trivial
  · have hc : N.codeFor H n d tx.contract tx.function = (N.chain d).codeFor n tx.contract tx.function := by
      unfold Node.codeFor; rw [if_neg hsub]
    rw [hc]
    obtain ⟨src, hD, hs⟩ := chain_deployed hg
    refine ⟨Chain.top_P (any_closed k) (any_allows k) (fun _ _ _ _ _ _ _ _ _ _ => trivial) n tx.contract, fun fn kwargs hf => ?_⟩
    obtain ⟨m, hm, ⟨i, f, w, d', h1, h2, h3, rfl⟩ | rfl⟩ := entry_wrapped hD ht.pub hf
    · exact Chain.body_P (any_closed k) (any_allows k) (any_ready k _) n tx.contract m f _ _ trivial hm (List.mem_of_getElem? h1)
        (fun _ _ => trivial) (fun _ _ => trivial)
    · exact ⟨trivial, trivial⟩

end Verif.Lang
