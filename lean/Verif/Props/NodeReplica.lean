import Verif.Spec.NodeReplica
import Verif.Props.NodeEvents
import Verif.Props.Replica
/-! # Property C101: nodes that get the same requests agree -/
namespace Verif.Lang
open Verif Verif.Spec

/-! ### Programs without listings -/

/-- A value by which nothing is listed. -/
def BlindVal : Val → Prop
  | .meth v a => BlindVal v ∧ a ≠ py! "all" ∧ a ≠ py! "clear"
  | _ => True

theorem blind_closed : Closed (fun p => p.All CacheBlind) CacheBlind where
  ret := fun _ => trivial
  raise := fun _ => trivial
  act := fun {a f} h hk => ⟨h, fun r => by
    cases r with
    | ok v => exact hk v
    | error e => exact trivial⟩
  load := fun {n d body f} h hk => ⟨h, fun r => by
    cases r with
    | ok v => exact hk v
    | error e => exact trivial⟩

theorem construct_meth {cls : Str} {vs : List Val} {ks : List (Str × Val)} {u : Val} {a : Str} : construct cls vs ks ≠ .ok (.meth u a) := by
  intro h
  unfold construct at h
  simp only [bind, Except.bind, pure, Except.pure] at h
  repeat' split at h
  all_goals cases h

theorem blind_allows : Allows (fun _ => True) (fun a => a ≠ py! "all" ∧ a ≠ py! "clear") BlindVal CacheBlind where
  data := fun _ => trivial
  sys := fun _ => trivial
  mod := fun _ => trivial
  meth := fun ha h => ⟨h, ha⟩
  unmeth := fun h => h.1
  cls := fun _ _ => trivial
  build := fun {s vs ks v} _ hk => by
    cases v with
    | meth u a => exact (construct_meth hk).elim
    | _ => exact trivial
  driver := fun _ => trivial
  rawSet := fun _ _ _ => trivial
  rawGet := fun _ _ => trivial
  varSet := fun _ _ => trivial
  hashSet := fun _ _ _ => trivial
  hashClear := fun _ h => (h.2.2 rfl).elim
  varGet := fun _ => trivial
  hashGet := fun _ _ => trivial
  hashAll := fun _ h => (h.2.1 rfl).elim
  foreignHashAll := fun _ h => (h.2.1 rfl).elim
  foreignVarSet := fun _ _ => trivial
  foreignHashSet := fun _ _ _ => trivial
  foreignHashClear := fun _ _ => trivial
  envGet := fun _ => trivial
  ctx := by
    intro a x h
    unfold ctxAction at h
    repeat' split at h
    all_goals first | cases h | skip
    all_goals exact trivial
  ownerOf := fun _ => trivial
  line := fun _ _ _ => trivial
  params := fun _ => trivial
  newLog := fun _ => trivial
  emit := fun _ _ => trivial
  random := fun h => by obtain ⟨_, rfl⟩ | ⟨_, rfl⟩ | ⟨_, rfl⟩ := randomCall_kind h <;> exact trivial

theorem blind_global {C : Chain} {c id : Str} {v : Val} (h : C.global c id = some (.ok v)) : BlindVal v := by
  obtain ⟨m', h1, h2⟩ := Option.bind_eq_some_iff.1 h
  rcases bindings_mem (globalOf_mem h2) with ⟨n, a, _, _, e⟩ | ⟨cls, kws, h1, h2⟩ | ⟨e, h1, h2⟩ | ⟨f, j, _, _, e⟩
  · cases e; exact trivial
  · unfold declVal at h2
    split at h2
    · cases h2
    · obtain ⟨ks, _, hk⟩ := bind_ok h2.symm
      exact blind_allows.build trivial hk
  · unfold pureVal at h2
    split at h2
    · obtain ⟨_, _, e⟩ := map_ok h2.symm
      cases e; exact trivial
    · split at h2
      · obtain ⟨_, _, h2⟩ := map_ok h2.symm
        cases h2; exact trivial
      · cases h2
    · repeat' split at h2
      all_goals cases h2
      all_goals exact trivial
    · split at h2 <;> (cases h2; try exact trivial)
    · obtain ⟨_, _, h2⟩ := map_ok h2.symm
      cases h2; exact trivial
    · cases h2
  · cases e; exact trivial

theorem blind_ready {C : Chain} (hl : ∀ c m, C.code c = some m → Listless m) :
    Ready (fun p => p.All CacheBlind) (fun _ => True) (fun a => a ≠ py! "all" ∧ a ≠ py! "clear") BlindVal C (fun _ => True) where
  attrs := fun _ _ => trivial
  events := fun _ _ _ _ _ _ _ _ _ _ => trivial
  global := fun _ _ _ _ _ h => blind_global h
  member := fun _ _ _ _ h => blind_global h
  code := fun c m f _ hm hf => hl c m hm _ (funs_mem.1 hf)
  plain := fun _ _ _ _ h => (h trivial).elim
  call := fun _ _ _ _ _ _ _ hb hk => ⟨hb trivial, fun r => by
    cases r with
    | ok v => exact hk v
    | error e => exact trivial⟩

theorem blind_submits (name : Str) : Submits (fun p => p.All CacheBlind) name (fun _ => True) where
  ret _ := trivial
  raise _ := trivial
  get h := perform_all trivial h
  caller h := perform_all trivial h
  signer h := perform_all trivial h
  env h := perform_all trivial h
  compiled _ h := perform_all trivial h
  record _ _ _ h := perform_all trivial h
  bind hp hf := bind_all hp fun r => by cases r with | ok v => exact hf v | error e => exact trivial

/-- Compilation adds no listings. -/
theorem Listless.compile {m : Module} (h : Listless m) (c : Str) : Listless (compileModule c m) := by
  intro t' ht'
  obtain ⟨t, ht, rfl⟩ := compile_mem ht'
  have hr : Renames (moduleAst m).names (fun _ => True) (fun a => a ≠ py! "all" ∧ a ≠ py! "clear") (fun _ => True)
      (fun a => a ≠ py! "all" ∧ a ≠ py! "clear") := ⟨fun _ _ => trivial, fun _ h => h, trivial⟩
  have ha := h t ht
  cases t with
  | «import» n a => exact trivial
  | decl x cls kws =>
    simp only [Top.comp]
    split
    · exact kwsAll_append (kwsAll_comp hr ha) ⟨trivial, trivial, trivial⟩
    · exact kwsAll_comp hr ha
  | assign x e => exact compAssigned_all hr ha c x
  | «def» f => exact ⟨exprsAll_comp hr ha.1, stmtsAll_comp hr c ha.2⟩

theorem code_listless {N : Node} (hL : NoListings N) {d : Driver} {c : Str} {m : Module} (h : N.code d c = some m) : Listless m := by
  unfold Node.code at h
  split at h
  · cases h
  split at h
  · cases h
  · cases h
  split at h
  · exact hL.load h
  · cases h

/-- No transaction of such a node lists anything. -/
theorem node_blind {N : Node} (hL : NoListings N) {H : Host} {d : Driver} (hg : GenuineState N d) {tx : Tx} (ht : NodeTx N H d tx) :
    tx.code.All CacheBlind := by
  obtain ⟨n, hcode⟩ := ht.code
  rw [hcode]
  by_cases hsub : tx.contract = py! "submission"
  · rw [hsub]
    refine ⟨by unfold Node.codeFor; rw [if_pos rfl]; exact trivial, fun fn hf kwargs => ?_⟩
    obtain ⟨_, ⟨e, h⟩ | ⟨name, source, owner, args, h1, h2, _, h⟩ | ⟨contract, new, h1, h⟩⟩ := submission_cases hf kwargs
    · rw [h]; exact trivial
    · rw [h]
      refine submitContract_P (blind_submits name) fun t _ => ⟨fun _ _ => trivial, ?_⟩
      unfold Node.deploy
      split
      · exact trivial
      · rename_i m hm
        refine deploy_P blind_closed blind_allows (blind_ready ?_) (fun _ => trivial) (blind_submits name).bind (fun c i h => global_fn h) n args
        intro c m' hc
        change (if c = name then _ else _) = _ at hc
        split at hc
        · cases hc; exact (hL.read hm).compile name
        · exact code_listless hL hc
    · rw [h]
      exact changeDeveloper_all trivial trivial trivial
  · have hc : N.codeFor H n d tx.contract tx.function = (N.chain d).codeFor n tx.contract tx.function := by
      unfold Node.codeFor; rw [if_neg hsub]
    rw [hc]
    obtain ⟨src, hD, hs⟩ := chain_deployed hg
    have hr : Ready _ _ _ _ (N.chain d) _ := blind_ready fun c m h => code_listless hL h
    refine ⟨Chain.top_P blind_closed blind_allows hr.events n tx.contract, fun fn hf kwargs => ?_⟩
    obtain ⟨m, hm, ⟨i, f, w, d', h1, h2, h3, rfl⟩ | rfl⟩ := entry_wrapped hD ht.pub hf
    · refine Chain.body_P blind_closed blind_allows hr n tx.contract m f _ _ trivial hm (List.mem_of_getElem? h1) (by simp) ?_
      intro q hq
      obtain ⟨p, _, rfl⟩ := List.mem_map.1 hq
      exact trivial
    · exact trivial

/-! ### Nodes -/

theorem find_cleared (d : Driver) (k : Str) : d.clearTxWrites.clearEvents.find k = d.find k := rfl

/-- Nodes that differ in their caches load the same code. -/
theorem code_alike {N : Node} {a b : World} (h : Twins a b) : N.code b.driver = N.code a.driver := by
  funext c
  have hf : ∀ k, b.driver.find k = a.driver.find k := fun k => h.driver.find k
  unfold Node.code
  rw [hf, hf]

theorem load_alike {N : Node} {H : Host} {n : Nat} {a b : World} (h : Twins a b) (t : Tx) :
    Request.load N H n b.driver t = Request.load N H n a.driver t := by
  have hc : N.chain b.driver = N.chain a.driver := by unfold Node.chain; rw [code_alike h]
  have : N.codeFor H n b.driver t.contract t.function = N.codeFor H n a.driver t.contract t.function := by
    unfold Node.codeFor Node.deploy
    rw [hc]
  unfold Request.load
  rw [this]

theorem step_alike {N : Node} {H : Host} {n : Nat} {a b : World} (h : Twins a b) (q : Request) :
    q.step N H n b.driver = q.step N H n a.driver := by
  cases q with
  | tx cfg t => exact congrArg (NodeOp.tx cfg) (load_alike h t)
  | _ => rfl

/-- What is asked for is a step of a node's history and, for C86, a steady step. -/
theorem orderly_step {N : Node} (hN : RoundTrip N) (hL : NoListings N) {H : Host} {n : Nat} {disk : Disk} (hd : GenuineDisk N disk)
    {a : World} (ha : NodeHistory N H (fun _ _ => True) (fun _ => True) { driver := .open disk } a) {q : Request} {qs : List Request}
    (hs : Orderly N H n a (q :: qs)) :
    NodeHistory N H (fun _ _ => True) (fun _ => True) { driver := .open disk } (q.run N H n a).2 ∧
    Steady H a [q.step N H n a.driver] := by
  obtain ⟨hs, _⟩ := hs
  cases q with
  | tx cfg t =>
    obtain ⟨h1, h2, h3, h4, o, h5⟩ := hs
    have ht : NodeTx N H a.driver (Request.load N H n a.driver t) := ⟨h1, h2, ⟨n, rfl⟩, h3⟩
    have hh := NodeHistory.tx ha ht h4 trivial (pair_of_fst h5)
    exact ⟨hh, ⟨h1, node_blind hL (history_inv hN hd ha).state ht, ⟨o, h5⟩, (C100_restart hN hd hh).1⟩, trivial⟩
  | apply nanos => exact ⟨.apply nanos ha hs trivial, hs, trivial⟩
  | commit => exact ⟨.commit ha hs trivial, hs, trivial⟩
  | rollback => exact ⟨.rollback ha, trivial, trivial⟩

theorem twins_live {N : Node} (hN : RoundTrip N) (hL : NoListings N) {H : Host} {n : Nat} {disk : Disk} (hd : GenuineDisk N disk)
    {b b' : World} {qs : List Request} {rs : List Report} (h : NodeLives N H n b qs rs b') : ∀ {a : World},
    NodeHistory N H (fun _ _ => True) (fun _ => True) { driver := .open disk } a → Twins a b → Orderly N H n a qs →
    rs = (smooth N H n a qs).1 ∧ Twins (smooth N H n a qs).2 b' := by
  induction h with
  | stop => exact fun _ ht _ => ⟨rfl, ht⟩
  | @step w w' q qs rs _ ih =>
    intro a ha ht hs
    obtain ⟨h1, h2⟩ := orderly_step hN hL hd ha hs
    obtain ⟨e, ht'⟩ := ht.step h2
    have er : Request.run N H n w q = (q.step N H n a.driver).run H w := by unfold Request.run; rw [step_alike ht]
    rw [er] at ih
    obtain ⟨e2, ht2⟩ := ih h1 ht' hs.2
    refine ⟨?_, ht2⟩
    rw [er, ← e, e2]
    rfl
  | evict keep _ ih => exact fun ha ht hs => ih ha (ht.evict keep) hs
  | restart h1 h2 _ ih => exact fun ha ht hs => ih ha (ht.restart h1 h2) hs

/-- **C101.** Whatever cache entries a node loses, whenever, and however often it is restarted between blocks, it
reports for every transaction and block exactly what a node reports that gets the same requests and runs
undisturbed from the same disk, and ends with the same disk and the same pending writes. The code that runs
is what each node finds in its own storage. Nothing is assumed of contracts but that they are as in C96 and use
neither `Hash.all` nor `Hash.clear`. -/
theorem C101_undisturbed {N : Node} (hN : RoundTrip N) (hL : NoListings N) {H : Host} {n : Nat} {disk : Disk} (hd : GenuineDisk N disk)
    {qs : List Request} {rs : List Report} {b : World} (hs : Orderly N H n { driver := .open disk } qs)
    (h : NodeLives N H n { driver := .open disk } qs rs b) :
    rs = (smooth N H n { driver := .open disk } qs).1 ∧
    b.driver.disk = (smooth N H n { driver := .open disk } qs).2.driver.disk ∧
    b.driver.pendingWrites = (smooth N H n { driver := .open disk } qs).2.driver.pendingWrites := by
  have ht : Twins { driver := .open disk } { driver := .open disk } :=
    ⟨⟨rfl, rfl, rfl, rfl, rfl, rfl, rfl⟩, ⟨rfl, rfl, rfl, rfl, rfl, rfl, rfl⟩, [], rfl, rfl, rfl, coh_nil _, coh_nil _⟩
  obtain ⟨e, ht⟩ := twins_live hN hL hd h (.start _) ht hs
  obtain ⟨c, hb, _⟩ := ht.driver
  have e1 := congrArg Driver.disk hb
  have e2 := congrArg Driver.pendingWrites hb
  exact ⟨e, e1, e2⟩

/-- **C101.** Any two nodes agree, and run the same code. -/
theorem C101_agree {N : Node} (hN : RoundTrip N) (hL : NoListings N) {H : Host} {n : Nat} {disk : Disk} (hd : GenuineDisk N disk)
    {qs : List Request} {rs rs' : List Report} {a b : World} (hs : Orderly N H n { driver := .open disk } qs)
    (ha : NodeLives N H n { driver := .open disk } qs rs a) (hb : NodeLives N H n { driver := .open disk } qs rs' b) :
    rs = rs' ∧ a.driver.disk = b.driver.disk ∧ a.driver.pendingWrites = b.driver.pendingWrites ∧ N.code a.driver = N.code b.driver := by
  obtain ⟨a1, a2, a3⟩ := C101_undisturbed hN hL hd hs ha
  obtain ⟨b1, b2, b3⟩ := C101_undisturbed hN hL hd hs hb
  have ht : Twins { driver := .open disk } { driver := .open disk } :=
    ⟨⟨rfl, rfl, rfl, rfl, rfl, rfl, rfl⟩, ⟨rfl, rfl, rfl, rfl, rfl, rfl, rfl⟩, [], rfl, rfl, rfl, coh_nil _, coh_nil _⟩
  refine ⟨a1.trans b1.symm, a2.trans b2.symm, a3.trans b3.symm, ?_⟩
  rw [code_alike (twins_live hN hL hd ha (.start _) ht hs).2, code_alike (twins_live hN hL hd hb (.start _) ht hs).2]

/-! ### An example, and why listings are excluded -/

/-- Each request in turn. -/
theorem smooth_lives (N : Node) (H : Host) (n : Nat) : ∀ (qs : List Request) (w : World),
    NodeLives N H n w qs (smooth N H n w qs).1 (smooth N H n w qs).2
  | [], w => .stop w
  | q :: qs, w => .step (smooth_lives N H n qs (q.run N H n w).2)

/-- A node that is restarted after the first requests, if nothing is pending then. -/
theorem restart_lives (N : Node) (H : Host) (n : Nat) (qs qs' : List Request) (w : World)
    (h1 : (smooth N H n w qs).2.driver.pendingWrites = []) (h2 : (smooth N H n w qs).2.driver.pendingReads = []) :
    NodeLives N H n w (qs ++ qs') ((smooth N H n w qs).1 ++ (smooth N H n { driver := .open (smooth N H n w qs).2.driver.disk } qs').1)
      (smooth N H n { driver := .open (smooth N H n w qs).2.driver.disk } qs').2 := by
  induction qs generalizing w with
  | nil => exact .restart h1 h2 (smooth_lives N H n qs' _)
  | cons s ss ih => exact .step (ih _ h1 h2)

namespace ReplicaDemo
open NodeDemo (disk0 disk0_any fees)

/-- `h = Hash()`, `put(k, v)`: `h[k] = v`, `read(k)`: `return h[k]`. -/
def src : Module := [
  .decl (py! "h") (py! "Hash") [],
  .def { name := py! "put", args := [(py! "k", some (py! "str")), (py! "v", some (py! "int"))], deco := .export, body := [
    .assignSub (.name (py! "h")) (.name (py! "k")) (.name (py! "v"))] },
  .def { name := py! "read", args := [(py! "k", some (py! "str"))], deco := .export, body := [
    .ret [.sub (.name (py! "h")) (.name (py! "k"))]] }]

/-- The same and `every()`: `return h.all()`. -/
def listing : Module := src ++ [
  .def { name := py! "every", args := [], deco := .export, body := [
    .ret [.call (.attr (.name (py! "h")) (py! "all")) [] []]] }]

/-- A node that knows this source. -/
def node (m : Module) : Node := { NodeDemo.node with
  read := fun s => if s = py! "c" then some m else none
  write := fun m => ((funs m).findSome? fun f => match f.deco with | .wrapped _ c => some c | _ => none).getD []
  load := fun b => some (compileModule (NodeDemo.decode b) m) }

theorem read_cases {m m' : Module} {s : Str} (h : (node m).read s = some m') : m' = m := by
  change (if s = py! "c" then some m else none) = some m' at h
  split at h
  · cases h; rfl
  · cases h

theorem faithful : RoundTrip (node src) := by
  intro source m name b h _ hb
  show some (compileModule (NodeDemo.decode b) src) = _
  rw [NodeDemo.decode_encode hb, read_cases h]
  rfl

theorem listless : Listless src := by
  intro t ht
  simp only [src, List.mem_cons, List.not_mem_nil, or_false] at ht
  rcases ht with rfl | rfl | rfl <;> simp [Top.All, stmtsAll, Stmt.All, Expr.All, exprsAll, kwsAll]

theorem noListings : NoListings (node src) where
  read h := by rw [read_cases h]; exact listless
  load {b m} h := by
    have : some (compileModule (NodeDemo.decode b) src) = some m := h
    cases this
    exact listless.compile _

theorem fair_source {s : Str} {m : Module} (h : (node src).read s = some m) : Disciplined m ∧ Declares m := by
  rw [read_cases h]
  refine ⟨⟨?_, ?_⟩, ?_⟩
  · simp [src, Top.All, stmtsAll, Stmt.All, Expr.All, exprsAll, kwsAll, storageClasses]
  · rw [OwnName, ← names_iff]; decide
  · intro x cls kws h
    simp [src] at h
    rw [h.1]; decide

/-- `bob` submits `con_c`. -/
def submission : Tx :=
  { sender := Verif.Demo.bob, contract := py! "submission", function := py! "submit_contract",
    kwargs := [(py! "name", .str (py! "con_c")), (py! "code", .str (py! "c"))], stamps := 50, stampCost := 1, metering := some false,
    code := { top := .ret .none, fn := none } }

/-- `bob` calls `con_c`. -/
def call (f : Str) (kwargs : Dict Str PyVal) : Tx :=
  { sender := Verif.Demo.bob, contract := py! "con_c", function := f, kwargs := kwargs, stamps := 50, stampCost := 1,
    code := { top := .ret .none, fn := none } }

/-- A block with the submission and `put('k', 5)`, then one more call. -/
def requests (f : Str) (kwargs : Dict Str PyVal) : List Request :=
  [.tx {} submission, .tx {} (call (py! "put") [(py! "k", .str (py! "k")), (py! "v", .int 5)]), .apply 1, .tx {} (call f kwargs)]

def w0 : World := { driver := .open disk0 }

/-- `read('k')` -/
def reading : List Request := requests (py! "read") [(py! "k", .str (py! "k"))]

theorem submission_fair : ∀ kwargs, fixKwargs submission.kwargs = .ok kwargs → FairArgs (node src) kwargs := by
  intro kwargs hk
  have hfix : fixKwargs submission.kwargs = .ok submission.kwargs := by decide +kernel
  rw [hfix] at hk
  cases hk
  refine ⟨fun n h => ?_, fun s m _ hm => fair_source hm, fun n h => ?_⟩
  · have : PyVal.str (py! "con_c") = .str n := h
    cases this
    decide
  · cases h

def put : Tx := call (py! "put") [(py! "k", .str (py! "k")), (py! "v", .int 5)]
def w1 : World := (Request.run (node src) Verif.Demo.host 5 w0 (.tx {} submission)).2
def w2 : World := (Request.run (node src) Verif.Demo.host 5 w1 (.tx {} put)).2
def w3 : World := (Request.run (node src) Verif.Demo.host 5 w2 (.apply 1)).2

theorem pending : w2.driver.pendingWrites =
    [(makeKey (py! "con_c") (py! "__code__"), .str (py! "con_c")),
     (makeKey (py! "con_c") (py! "__compiled__"), .bytes [99, 111, 110, 95, 99]),
     (makeKey (py! "con_c") (py! "__owner__"), .none), (makeKey (py! "con_c") (py! "__submitted__"), .int 0),
     (makeKey (py! "con_c") (py! "__developer__"), .str Verif.Demo.bob),
     (Spec.stateKey (py! "con_c") (py! "h") [py! "k"], .int 5),
     (Spec.stateKey (py! "currency") (py! "balances") [py! "bob"], .dec ⟨false, 95, 0⟩)] := by
  decide +kernel

theorem stable : StablePending w2.driver := by
  unfold StablePending
  rw [pending]
  intro p hp
  simp only [List.mem_cons, List.not_mem_nil, or_false] at hp
  rcases hp with rfl | rfl | rfl | rfl | rfl | rfl | rfl
  · exact ⟨NodeDemo.plain_key (by decide) (by decide), stable_of (by decide +kernel)⟩
  · exact ⟨NodeDemo.plain_key (by decide) (by decide), stable_of (by decide +kernel)⟩
  · exact ⟨NodeDemo.plain_key (by decide) (by decide), .inl rfl⟩
  · exact ⟨NodeDemo.plain_key (by decide) (by decide), stable_of (by decide +kernel)⟩
  · exact ⟨NodeDemo.plain_key (by decide) (by decide), stable_of (by decide +kernel)⟩
  · exact ⟨⟨_, _, _, by decide, by decide, by decide, rfl⟩, stable_of (by decide +kernel)⟩
  · exact ⟨⟨_, _, _, by decide, by decide, by decide, rfl⟩, stable_of (by decide +kernel)⟩

theorem orderly : Orderly (node src) Verif.Demo.host 5 w0 reading := by
  have h0 : ∃ o, (execute Verif.Demo.host {} (Request.load (node src) Verif.Demo.host 5 w0.driver submission) w0).1 = .ok o :=
    ok_of_isOk (by decide +kernel)
  have h1 : ∃ o, (execute Verif.Demo.host {} (Request.load (node src) Verif.Demo.host 5 w1.driver put) w1).1 = .ok o :=
    ok_of_isOk (by decide +kernel)
  have h3 : ∃ o, (execute Verif.Demo.host {} (Request.load (node src) Verif.Demo.host 5 w3.driver
      (call (py! "read") [(py! "k", .str (py! "k"))])) w3).1 = .ok o := ok_of_isOk (by decide +kernel)
  have g3 : Orderly (node src) Verif.Demo.host 5 w3 [.tx {} (call (py! "read") [(py! "k", .str (py! "k"))])] :=
    ⟨⟨rfl, rfl, fun h => (by cases h), fees, h3⟩, trivial⟩
  have g2 : Orderly (node src) Verif.Demo.host 5 w2 [.apply 1, .tx {} (call (py! "read") [(py! "k", .str (py! "k"))])] := ⟨stable, g3⟩
  have g1 : Orderly (node src) Verif.Demo.host 5 w1 [.tx {} put, .apply 1, .tx {} (call (py! "read") [(py! "k", .str (py! "k"))])] :=
    ⟨⟨rfl, rfl, fun h => (by cases h), fees, h1⟩, g2⟩
  exact ⟨⟨rfl, rfl, fun _ => submission_fair, fees, h0⟩, g1⟩

/-- The requests are orderly, a contract is submitted, called and read, and a node that is restarted after the block
(so that it has nothing in its cache) reports the same. -/
example : (smooth (node src) Verif.Demo.host 5 w0 reading).1.map Report.returned = [some (.ok .none), some (.ok .none), none, some (.ok (.int 5))] ∧
    ∃ rs b, NodeLives (node src) Verif.Demo.host 5 w0 reading rs b ∧ b.driver.cache = [] ∧ rs = (smooth (node src) Verif.Demo.host 5 w0 reading).1 := by
  have h := restart_lives (node src) Verif.Demo.host 5 (reading.take 3) (reading.drop 3) w0 (by decide +kernel) (by decide +kernel)
  exact ⟨by decide +kernel, _, _, h, by decide +kernel, (C101_undisturbed faithful noListings (disk0_any _) orderly h).1⟩

/-- **C101 is false with listings**: after the same block, a node that has been running answers `every()` with `[5]`
and one that has been restarted with `[]`. -/
theorem C101_refuted_listing : ∃ rs a rs' b,
    NodeLives (node listing) Verif.Demo.host 5 w0 (requests (py! "every") []) rs a ∧
    NodeLives (node listing) Verif.Demo.host 5 w0 (requests (py! "every") []) rs' b ∧
    rs.map Report.returned = [some (.ok .none), some (.ok .none), none, some (.ok (.list [.int 5]))] ∧
    rs'.map Report.returned = [some (.ok .none), some (.ok .none), none, some (.ok (.list []))] :=
  ⟨_, _, _, _, smooth_lives _ _ _ _ _,
    restart_lives _ _ _ ((requests (py! "every") []).take 3) ((requests (py! "every") []).drop 3) _ (by decide +kernel) (by decide +kernel),
    by decide +kernel, by decide +kernel⟩

end ReplicaDemo
end Verif.Lang
