import Verif.Props.Lang
import Verif.Props.Submission
import Verif.Spec.Node
/-! # Nodes: what interpreted contracts can do to stored contracts -/
namespace Verif.Lang
open Verif Verif.Spec

/-! ### Interpreted code is contract code in the sense of C52 -/

/-- Storage objects are those of declarations; no storage classes, no driver. -/
def UserVal : Val → Prop
  | .var x => ∃ c v, NoColon c ∧ VarName v ∧ x.key = makeKey c v
  | .hash h => ∃ c v, NoColon c ∧ VarName v ∧ h.key = makeKey c v
  | .cls _ => False
  | .driver => False
  | .meth v _ => UserVal v
  | _ => True

theorem user_closed : Closed (fun p => p.All (UserAction NoColon)) (UserAction NoColon) where
  ret := fun _ => trivial
  raise := fun _ => trivial
  act := fun {a f} h hk => ⟨h, fun r => by
    cases r with
    | ok v => exact hk v
    | error e => exact trivial⟩
  load := fun {n d body f} h hk => ⟨h, fun r => by
    cases r with
    | ok v => exact hk v
    | error e => exact trivial⟩

theorem user_allows : Allows Clean CleanAttr UserVal (UserAction NoColon) where
  data := fun _ => trivial
  sys := fun _ => trivial
  mod := fun _ => trivial
  meth := fun _ h => h
  unmeth := fun h => h
  cls := fun h1 h2 => (h1.1 h2).elim
  build := fun h _ => h.elim
  driver := fun h => (h.2 rfl).elim
  rawSet := fun h => h.elim
  rawGet := fun h => h.elim
  varSet := fun _ h => h
  hashSet := fun _ _ h => h
  hashClear := fun _ h => h
  varGet := fun _ => trivial
  hashGet := fun _ _ => trivial
  hashAll := fun _ _ => trivial
  foreignHashAll := fun _ _ => trivial
  foreignVarSet := fun _ _ => trivial
  foreignHashSet := fun _ _ _ => trivial
  foreignHashClear := fun _ _ => trivial
  envGet := fun _ => trivial
  ctx := by
    intro a x h
    unfold ctxAction at h
    repeat' split at h
    all_goals first | cases h | skip
    all_goals exact trivial
  ownerOf := fun _ => trivial
  line := fun _ _ _ => trivial
  params := fun _ => trivial
  newLog := fun _ => trivial
  emit := fun _ _ => trivial
  random := fun h => by obtain ⟨_, rfl⟩ | ⟨_, rfl⟩ | ⟨_, rfl⟩ := randomCall_kind h <;> exact trivial

theorem declared_name {I : PyInfo} {c : Str} {m : Module} (h : Accepted I c (moduleAst m)) (hd : Declares m) {y cls : Str}
    {kws : List (Str × Expr)} (hy : Top.decl y cls kws ∈ m) : VarName y := by
  refine ⟨hd _ _ _ hy, ?_⟩
  have hn : Ast.name y ∈ (moduleAst m).nodes := top_nodes hy (by simp [Top.toAst, Ast.nodes, nodesAll])
  exact ((C39_names h).1 y hn).1.1

theorem user_ready {I : PyInfo} {src : Str → Option Module} {C : Chain} (hD : Deployed I src C)
    (hd : ∀ c m, src c = some m → Disciplined m ∧ Declares m ∧ ':' ∉ c) :
    Ready (fun p => p.All (UserAction NoColon)) Clean CleanAttr UserVal C (fun _ => True) := by
  have hsrc : ∀ {c' m}, C.code c' = some m → ∃ m0, src c' = some m0 ∧ m = compileModule c' m0 := by
    intro c' m h
    rw [hD.compiled] at h
    obtain ⟨m0, h1, h2⟩ := Option.map_eq_some_iff.1 h
    exact ⟨m0, h1, h2.symm⟩
  have hglob : ∀ {c' id v}, C.global c' id = some (.ok v) → UserVal v := by
    intro c' id v h
    obtain ⟨m, h1, h2⟩ := Option.bind_eq_some_iff.1 h
    obtain ⟨m0, hs, rfl⟩ := hsrc h1
    rcases bindings_mem (globalOf_mem h2) with ⟨n, a, _, _, e⟩ | ⟨cls, kws, h1, h2⟩ | ⟨e, h1, h2⟩ | ⟨f, j, _, _, e⟩
    · cases e; exact trivial
    · obtain ⟨_, y, ⟨cls0, kws0, hy⟩, ⟨t, dv, rfl⟩ | ⟨dv, rfl⟩ | ⟨u, rfl⟩ | ⟨u, rfl⟩ | ⟨_, _, rfl⟩⟩ := compiled_decl (hD.accepted _ _ hs) h1 h2.symm
      · exact ⟨c', y, (hd _ _ hs).2.2, declared_name (hD.accepted _ _ hs) (hd _ _ hs).2.1 hy, rfl⟩
      · exact ⟨c', y, (hd _ _ hs).2.2, declared_name (hD.accepted _ _ hs) (hd _ _ hs).2.1 hy, rfl⟩
      · exact trivial
      · exact trivial
      · exact trivial
    · obtain ⟨t, ht, e'⟩ := compile_mem h1
      have := compiled_all (hD.accepted _ _ hs) (hd _ _ hs).1 ht
      rw [← e'] at this
      exact pureVal_S user_allows this h2.symm
    · cases e; exact trivial
  refine
    { events := fun _ _ _ _ _ _ _ _ _ _ => trivial
      attrs := fun a h => h.1
      global := fun c id v _ _ h => hglob h
      member := fun c a v _ h => hglob h
      code := ?_
      plain := fun _ _ _ _ h => (h trivial).elim
      call := ?_ }
  · intro c' m f _ hm hf
    obtain ⟨m0, hs, rfl⟩ := hsrc hm
    obtain ⟨f0, h0, rfl⟩ := compiled_fun hf
    exact compiled_all (hD.accepted _ _ hs) (hd _ _ hs).1 h0
  · intro c' m i f w d n vs ks k _ _ _ _ _ _ _ hb hcont
    refine ⟨hb trivial, fun r => ?_⟩
    cases r with
    | ok v => exact hcont v
    | error e => exact trivial

/-! ### Programs put together with `bind` -/

theorem bind_noCatch {p : Prog} {f : Except PyErr PyVal → Prog} (hp : p.NoCatch) (he : ∀ e, f (.error e) = .raise e)
    (hf : ∀ v, (f (.ok v)).NoCatch) : (p.bind f).NoCatch := by
  induction p with
  | ret v => exact hf v
  | raise e => simp only [Prog.bind]; rw [he]; exact trivial
  | act a k ih =>
    refine ⟨fun e => ?_, fun v => ih _ (hp.2 v)⟩
    show (k (.error e)).bind f = _
    rw [hp.1 e]
    exact he e
  | call c body k _ ih =>
    refine ⟨hp.1, fun e => ?_, fun v => ih _ (hp.2.2 v)⟩
    show (k (.error e)).bind f = _
    rw [hp.2.1 e]
    exact he e
  | load n d body k _ ih =>
    refine ⟨hp.1, fun e => ?_, fun v => ih _ (hp.2.2 v)⟩
    show (k (.error e)).bind f = _
    rw [hp.2.1 e]
    exact he e

theorem bind_all {P : Action → Prop} {p : Prog} {f : Except PyErr PyVal → Prog} (hp : p.All P) (hf : ∀ r, (f r).All P) :
    (p.bind f).All P := by
  induction p with
  | ret v => exact hf _
  | raise e => exact hf _
  | act a k ih => exact ⟨hp.1, fun r => ih r (hp.2 r)⟩
  | call c body k _ ih => exact ⟨hp.1, fun r => ih r (hp.2 r)⟩
  | load n d body k _ ih => exact ⟨hp.1, fun r => ih r (hp.2 r)⟩

theorem bind_outside {c : Str} {F : Prog → Prop} {p : Prog} {f : Except PyErr PyVal → Prog} (hp : Outside c F p) (hf : ∀ r, Outside c F (f r)) :
    Outside c F (p.bind f) := by
  induction p with
  | ret v => exact hf _
  | raise e => exact hf _
  | act a k ih => exact ⟨hp.1, fun r => ih r (hp.2 r)⟩
  | call c' body k _ ih => exact ⟨hp.1, hp.2.1, fun r => ih r (hp.2.2 r)⟩
  | load n d body k _ ih => exact ⟨hp.1, fun r => ih r (hp.2 r)⟩

/-- More may be known of the bodies. -/
theorem Outside.and_all {c : Str} {F : Prog → Prop} {P : Action → Prop} : ∀ {p : Prog}, Outside c F p → p.All P →
    Outside c (fun b => F b ∧ b.All P) p := by
  intro p
  induction p with
  | ret v => exact fun _ _ => trivial
  | raise e => exact fun _ _ => trivial
  | act a k ih => exact fun h h' => ⟨h.1, fun r => ih r (h.2 r) (h'.2 r)⟩
  | call c' body k ihb ih =>
    exact fun h h' => ⟨fun e => ⟨h.1 e, h'.1⟩, fun e => (h.2.1 e).imp (fun hF => ⟨hF, h'.1⟩) fun ho => ihb ho h'.1, fun r => ih r (h.2.2 r) (h'.2 r)⟩
  | load n d body k ihb ih => exact fun h h' => ⟨ihb h.1 h'.1, fun r => ih r (h.2 r) (h'.2 r)⟩

theorem Outside.mono {c : Str} {F G : Prog → Prop} (hFG : ∀ b, F b → G b) : ∀ {p : Prog}, Outside c F p → Outside c G p := by
  intro p
  induction p with
  | ret v => exact fun _ => trivial
  | raise e => exact fun _ => trivial
  | act a k ih => exact fun h => ⟨h.1, fun r => ih r (h.2 r)⟩
  | call c' body k ihb ih =>
    exact fun h => ⟨fun e => hFG _ (h.1 e), fun e => (h.2.1 e).imp (hFG _) ihb, fun r => ih r (h.2.2 r)⟩
  | load n d body k ihb ih => exact fun h => ⟨ihb h.1, fun r => ih r (h.2 r)⟩

/-! ### A property of programs through submission -/

/-- What `submit_contract` needs: calls of the submission contract itself, and its records written. -/
structure Submits (P : Prog → Prop) (name : Str) (blobs : List (Fin 256) → Prop) : Prop where
  ret : ∀ v, P (.ret v)
  raise : ∀ e, P (.raise e)
  get : ∀ {k f}, (∀ v, P (f v)) → P (perform (.rawGet k) f)
  caller : ∀ {f}, (∀ v, P (f v)) → P (perform .ctxCaller f)
  signer : ∀ {f}, (∀ v, P (f v)) → P (perform .ctxSigner f)
  env : ∀ {f}, (∀ v, P (f v)) → P (perform (.envGet (py! "now")) f)
  compiled : ∀ {b f}, blobs b → (∀ v, P (f v)) → P (perform (.rawSet (compiledKey name) (.bytes b)) f)
  record : ∀ {s v f}, s ∈ records → s ≠ py! "__compiled__" → (s = py! "__code__" → ∃ t, v = .str t) → (∀ v, P (f v)) →
    P (perform (.rawSet (makeKey name s) v) f)
  bind : ∀ {p : Prog} {f : PyVal → Prog}, P p → (∀ v, P (f v)) → P (p.bind fun r => match r with | .error e => .raise e | .ok v => f v)

theorem submitContract_P {P : Prog → Prop} {name : Str} {blobs : List (Fin 256) → Prop} (hP : Submits P name blobs) {H : Host} {T : Toolchain}
    {code : Str} {owner : PyVal} {top : Prog} (ht : ∀ t, T.parse name code = .ok t → (∀ b, T.marshal t = .ok b → blobs b) ∧ P top) :
    P (submitContract H T name code owner top) := by
  have hset : ∀ t time dev, (∀ b, T.marshal t = .ok b → blobs b) → P (setContract T name t owner time dev) := by
    intro t time dev h
    refine hP.get fun v => ?_
    split
    · split
      · exact hP.raise _
      · rename_i b hb
        exact hP.record (s := py! "__code__") (by decide) (by decide) (fun _ => ⟨_, rfl⟩) fun _ => hP.compiled (h b hb) fun _ =>
          hP.record (s := py! "__owner__") (by decide) (by decide) (fun h => absurd h (by decide)) fun _ =>
          hP.record (s := py! "__submitted__") (by decide) (by decide) (fun h => absurd h (by decide)) fun _ =>
          hP.record (s := py! "__developer__") (by decide) (by decide) (fun h => absurd h (by decide)) fun _ => hP.ret _
    · exact hP.ret _
  refine hP.caller fun caller => ?_
  split
  · exact hP.raise _
  refine hP.signer fun signer => ?_
  split
  · exact hP.raise _
  split
  · exact hP.raise _
  split
  · exact hP.raise _
  refine hP.get fun v => ?_
  split
  swap
  · exact hP.raise _
  split
  · exact hP.raise _
  rename_i t hpt
  obtain ⟨h1, h2⟩ := ht _ hpt
  have e : (fun r : Except PyErr PyVal => match r with
      | .error e => Prog.raise e
      | .ok (.list [now]) => storeContract T name t owner caller now
      | .ok _ => perform (.envGet (py! "now")) fun now => storeContract T name t owner caller now) =
      fun r => match r with
        | .error e => .raise e
        | .ok v => match v with
          | .list [now] => storeContract T name t owner caller now
          | _ => perform (.envGet (py! "now")) fun now => storeContract T name t owner caller now := by
    funext r
    cases r with
    | error e => rfl
    | ok v =>
      cases v with
      | list l =>
        cases l with
        | nil => rfl
        | cons x l => cases l <;> rfl
      | _ => rfl
  have key : P (top.bind fun r => match r with
      | .error e => .raise e
      | .ok (.list [now]) => storeContract T name t owner caller now
      | .ok _ => perform (.envGet (py! "now")) fun now => storeContract T name t owner caller now) := by
    rw [e]
    refine hP.bind h2 fun v => ?_
    split
    · exact hset _ _ _ h1
    · exact hP.env fun _ => hset _ _ _ h1
  exact key

/-! ### Attempts, for the arguments of the transaction only -/

theorem attempt_driver' {H : Host} {cfg : ExecCfg} {tx : Tx} {P : Action → Prop} {S : Driver → Driver → Prop}
    (hrefl : ∀ d, S d d) (htrans : ∀ a b c, S a b → S b c → S a c)
    (hreads : ∀ d r, S d { d with pendingReads := r }) (hact : ∀ a w, P a → S w.driver (a.run H w).2.driver)
    (htop : tx.code.top.All P)
    (hfn : ∀ fn kwargs, tx.code.fn = some fn → fixKwargs tx.kwargs = .ok kwargs → (fn.2 kwargs).All P) (m : Bool) (w : World) :
    S w.driver (attempt H cfg tx m w).2.driver := by
  have hrun : ∀ p : Prog, p.All P → ∀ w, S w.driver (p.run H w).2.driver := by
    refine Prog.run_rel (H := H) (P := P) (R := fun w w' => S w.driver w'.driver) (fun w => hrefl _) (fun _ _ _ => htrans _ _ _)
      hact ?_ ?_ ?_ (fun w name => hrefl _)
    · intro c w
      obtain ⟨r, s, h⟩ := enter_frame c w
      rw [h]; exact hreads _ r
    · intro w
      obtain ⟨s, h⟩ := popState_frame w
      rw [h]; exact hrefl _
    · intro w name dyn
      obtain ⟨r, h⟩ := importStart_frame H w name dyn
      rw [h]; exact hreads _ r
  obtain ⟨w1, h1, h⟩ := attempt_cases (H := H) (cfg := cfg) (tx := tx) (R := fun w w' => S w.driver w'.driver) (fun w => hrefl _)
    (fun _ _ _ => htrans _ _ _) (fun w r => hreads _ r) (fun w => hrefl _) (fun w _ => hrefl _) (fun w _ => hrefl _)
    (fun w _ => hrefl _) (fun w => hrun _ htop w) m w
  rcases h with ⟨e, h⟩ | h | ⟨fn, kwargs, hf, hk, h⟩
  · rw [h]; exact h1
  · rw [h]; exact h1
  · rw [h]
    refine htrans _ _ _ h1 (htrans _ (setUp tx m w1).driver _ (hrefl _) ?_)
    unfold callEntry
    split
    · refine hrun _ ?_ _
      exact ⟨hfn fn kwargs hf hk, fun r => by cases r <;> trivial⟩
    · exact hrun _ (hfn fn kwargs hf hk) _

/-! ### Deploying -/

theorem deploy_P {P : Prog → Prop} {ok : Action → Prop} {Nm A : Str → Prop} {S : Val → Prop} {C : Chain} {runs : Str → Prop}
    (hP : Closed P ok) (hS : Allows Nm A S ok) (hC : Ready P Nm A S C runs) {name : Str} (hfn : ∀ i, S (.fn name i))
    (hbind : ∀ {p : Prog} {f : PyVal → Prog}, P p → (∀ v, P (f v)) → P (p.bind fun r => match r with | .error e => .raise e | .ok v => f v))
    (hname : ∀ c i, C.global name (py! "____") = some (.ok (.fn c i)) → c = name) (n : Nat) (args : PyVal) : P (C.deploy n name args) := by
  have hnow : P (C.boundNow name) := by
    unfold Chain.boundNow
    split
    · exact hP.ret _
    · exact hP.raise _
    · exact hP.raise _
    · exact hP.ret _
  have e : C.deploy n name args = (C.top n name).bind fun r => match r with
      | .error e => .raise e
      | .ok _ => match C.global name (py! "____") with
        | none => C.boundNow name
        | some (.ok (.fn c i)) => orRaise (constructorArgs args) fun ks => C.call n c i [] ks fun _ => C.boundNow name
        | some _ => .raise .typeError := by
    unfold Chain.deploy
    congr 1
    funext r
    cases r <;> rfl
  rw [e]
  refine hbind (Chain.top_P hP hS hC.events n name) fun v => ?_
  split
  · exact hnow
  · rename_i c i hg
    rw [hname c i hg]
    cases ha : constructorArgs args with
    | error e => exact hP.raise _
    | ok ks =>
      refine Chain.call_P hP hS hC n name i [] ks _ (hfn i) (by simp) ?_ fun _ _ => hnow
      intro q hq
      obtain ⟨v, hv⟩ : ∃ v, q.2 = .data v := by
        clear hnow hg e
        unfold constructorArgs at ha
        split at ha
        · cases ha; cases hq
        · rename_i kvs
          induction kvs generalizing ks with
          | nil => cases ha; cases hq
          | cons p kvs ih =>
            rw [List.mapM_cons] at ha
            obtain ⟨x, hx, ha⟩ := bind_ok ha
            obtain ⟨xs, hxs, ha⟩ := bind_ok ha
            cases ha
            rcases List.mem_cons.1 hq with rfl | hq
            · split at hx
              · cases hx; exact ⟨_, rfl⟩
              · cases hx
            · exact ih _ hq hxs
        · cases ha
      rw [hv]; exact hS.data v
  · exact hP.raise _

/-- The code of a state with genuine code is the compiled form of sources. -/
theorem chain_deployed {N : Node} {d : Driver} (hg : GenuineState N d) :
    ∃ src, Deployed N.info src (N.chain d) ∧ ∀ c m, src c = some m → Disciplined m ∧ Declares m ∧ Spec.Plain c ∧ c ≠ py! "submission" := by
  classical
  let Q : Str → Module → Prop := fun c m => Accepted N.info c (moduleAst m) ∧ Disciplined m ∧ Declares m ∧ N.code d c = some (compileModule c m)
  have hcode : ∀ {c x}, N.code d c = some x → Spec.Plain c ∧ c ≠ py! "submission" ∧ ∃ m, Q c m := by
    intro c x h
    have h' := h
    unfold Node.code at h
    split at h
    · cases h
    rename_i hn
    simp only [not_or] at hn
    have hpl : Spec.Plain c := ⟨hn.2.1, hn.2.2.1, hn.2.2.2.1, hn.2.2.2.2⟩
    refine ⟨hpl, hn.1, ?_⟩
    split at h
    · cases h
    · cases h
    split at h
    · rename_i blob hf
      obtain ⟨b, e, m, h1, h2, h3, h4⟩ := hg c _ hpl hn.1 hf (by simp)
      cases e
      rw [h] at h4
      cases h4
      exact ⟨m, h1, h2, h3, h'⟩
    · cases h
  refine ⟨fun c => if h : ∃ m, Q c m then some (Classical.choose h) else none, ⟨fun c => ?_, fun c m h => ?_, fun c m h => ?_⟩, fun c m h => ?_⟩
  · show N.code d c = _
    by_cases h : ∃ m, Q c m
    · rw [dif_pos h]
      exact (Classical.choose_spec h).2.2.2
    · rw [dif_neg h]
      cases hx : N.code d c with
      | none => rfl
      | some x => exact (h (hcode hx).2.2).elim
  all_goals
    try simp only at h
    split at h
    swap
    · cases h
    rename_i hq
    cases h
    have hs := Classical.choose_spec hq
  · exact hs.1
  · exact (hcode hs.2.2.2).1.2.1
  · exact ⟨hs.2.1, hs.2.2.1, (hcode hs.2.2.2).1, (hcode hs.2.2.2).2.1⟩

/-- One more source. -/
def plusSrc (src : Str → Option Module) (name : Str) (m : Module) (c : Str) : Option Module := if c = name then some m else src c

theorem plus_deployed {I : PyInfo} {src : Str → Option Module} {C : Chain} (h : Deployed I src C) {name : Str} {m : Module}
    (ha : Accepted I name (moduleAst m)) (hn : '.' ∉ name) : Deployed I (plusSrc src name m) (C.plus name (compileModule name m)) where
  compiled c := by
    show (if c = name then _ else _) = _
    unfold plusSrc
    split
    · rename_i e; subst e; rfl
    · exact h.compiled c
  accepted c m' hc := by
    unfold plusSrc at hc
    split at hc
    · rename_i e; subst e; cases hc; exact ha
    · exact h.accepted c m' hc
  plain c m' hc := by
    unfold plusSrc at hc
    split at hc
    · rename_i e; subst e; exact hn
    · exact h.plain c m' hc

theorem plus_name {I : PyInfo} {src : Str → Option Module} {C : Chain} (h : Deployed I src C) {name : Str} {c : Str} {i : Nat}
    (hg : C.global name (py! "____") = some (.ok (.fn c i))) : c = name := by
  obtain ⟨m, h1, h2⟩ := Option.bind_eq_some_iff.1 hg
  rw [h.compiled] at h1
  obtain ⟨m0, hs, rfl⟩ := Option.map_eq_some_iff.1 h1
  rcases bindings_mem (globalOf_mem h2) with ⟨n, a, _, _, e⟩ | ⟨cls, kws, h1, h2⟩ | ⟨e, h1, h2⟩ | ⟨f, j, _, _, e⟩
  · cases e
  · obtain ⟨_, y, _, ⟨_, _, e⟩ | ⟨_, e⟩ | ⟨_, e⟩ | ⟨_, e⟩ | ⟨_, _, e⟩⟩ := compiled_decl (h.accepted _ _ hs) h1 h2.symm <;> cases e
  · unfold pureVal at h2
    split at h2
    · obtain ⟨_, _, e⟩ := map_ok h2.symm
      cases e
    · split at h2
      · obtain ⟨_, _, h2⟩ := map_ok h2.symm
        cases h2
      · cases h2
    · repeat' split at h2
      all_goals cases h2
    · split at h2 <;> cases h2
    · obtain ⟨_, _, h2⟩ := map_ok h2.symm
      cases h2
    · cases h2
  · cases e; rfl

end Verif.Lang
