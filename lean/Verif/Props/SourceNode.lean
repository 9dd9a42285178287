import Verif.Proofs.Node5
import Verif.Props.Deploy
/-!
# C98: a node behaves as if it ran the submitted sources

`SourceNode`, `SourceStep`, `Runs` are in `Verif/Spec/SourceNode.lean`.
-/
namespace Verif.Lang
open Verif Verif.Spec

/-- The records code is loaded from. -/
def CodeRec (k : Str) : Prop := ∃ c s, Spec.Plain c ∧ c ≠ py! "submission" ∧ (s = py! "__code__" ∨ s = py! "__compiled__") ∧ k = makeKey c s

theorem CodeRec.plain {k : Str} (h : CodeRec k) : PlainKey k := by
  obtain ⟨c, s, hc, _, rfl | rfl, rfl⟩ := h
  · exact codeKey_plain hc
  · exact compiledKey_plain hc

theorem code_records {N : Node} {d d' : Driver} (h : ∀ k, CodeRec k → d'.find k = d.find k) (c : Str) : N.code d' c = N.code d c := by
  by_cases hc : c = py! "submission"
  · unfold Node.code; rw [if_pos (.inl hc), if_pos (.inl hc)]
  · exact code_congr fun hp s hs => h _ ⟨c, s, hp, hc, hs, rfl⟩

theorem Runs.congr {N : Node} {src : Sources} {d d' : Driver} (hr : Runs N src d) (h : ∀ k, CodeRec k → d'.find k = d.find k) : Runs N src d' :=
  ⟨fun c => (code_records h c).trans (hr.code c), hr.accepted, hr.disciplined, hr.named⟩

/-- What holds of a node and the sources all along. -/
structure SrcInv (N : Node) (s : SourceNode) : Prop where
  inv : CodeInv N s.world.driver
  pend : PendCode s.world.driver
  coh : ∀ k, CodeRec k → (dget s.world.driver.cache k).isNone = false →
    s.world.driver.disk.get (locOf k) = .ok (dget s.world.driver.cache k)
  runs : Runs N s.current s.world.driver
  base : Runs N s.committed (.open s.world.driver.disk)

theorem SrcInv.pending {N : Node} {s : SourceNode} (h : SrcInv N s) {k : Str} (hk : CodeRec k) {v : PyVal}
    (hg : Dict.get? s.world.driver.pendingWrites k = some v) : v.isNone = false := by
  have hne : v ≠ .none := by
    obtain ⟨c, r, hc, hs, rfl | rfl, rfl⟩ := hk
    · exact h.pend c v hc hg
    · obtain ⟨b, rfl, _⟩ := h.inv.pend c v hc hs hg
      simp
  cases v <;> first | rfl | exact (hne rfl).elim

/-- What is read is what is pending, else what is on disk. -/
theorem SrcInv.find {N : Node} {s : SourceNode} (h : SrcInv N s) {k : Str} (hk : CodeRec k) :
    s.world.driver.find k = match Dict.get? s.world.driver.pendingWrites k with | some v => .ok v | none => s.world.driver.disk.get (locOf k) := by
  rw [Driver.find_through h.inv.bypass]
  cases hg : Dict.get? s.world.driver.pendingWrites k with
  | some v =>
    have e : dget s.world.driver.pendingWrites k = v := by unfold dget; rw [hg]; rfl
    rw [e, h.pending hk hg]
    rfl
  | none =>
    have e : dget s.world.driver.pendingWrites k = .none := by unfold dget; rw [hg]; rfl
    rw [e, if_pos (show PyVal.none.isNone = true from rfl)]
    unfold through
    cases hn : (dget s.world.driver.cache k).isNone with
    | true => rfl
    | false => rw [if_neg (by simp), h.coh k hk hn]

theorem open_find (disk : Disk) (k : Str) : (Driver.open disk).find k = disk.get (locOf k) := by
  rw [Driver.find_through rfl]; rfl

theorem SrcInv.tx {N : Node} (hN : RoundTrip N) (hb : N.D.builtin (py! "decimal") = true) {H : Host}
    (hhost : H.imported (py! "submission") = false ∧ H.importable (py! "submission") = false)
    {s : SourceNode} {cfg : ExecCfg} {tx : Tx} {w' : World} {o : Output} (ih : SrcInv N s)
    (ht : NodeTx N H s.world.driver tx) (hfee : PlainFees cfg) (hnamed : NamedTx N tx) (he : execute H cfg tx s.world = (.ok o, w')) :
    SourceStep N H s { s with world := w', current := N.sourcesAfter s.current tx o } ∧
    SrcInv N { s with world := w', current := N.sourcesAfter s.current tx o } := by
  have hg := ih.inv.state
  obtain ⟨n, hcode⟩ := ht.code
  refine ⟨.tx (cfg := cfg) n ((execute_sources hb ih.runs hcode ht.pub ht.fair hnamed cfg s.world).symm.trans he), ?_⟩
  have hnm : ∀ k, tx.code.All (Action.NoMutate k) := fun k =>
    ⟨(nodeTx_any hg ht k).1.2, fun fn hf kwargs => ((nodeTx_any hg ht k).2 fn kwargs hf).2⟩
  have hall := nodeTx_all hN hg ht
  obtain ⟨h1, _⟩ := execute_around (c := []) (fun n => hnm _) ht.auto he
  refine ⟨ih.inv.tx hN ht hfee he, ?_, ?_, ?_, by show Runs N s.committed (.open w'.driver.disk); rw [h1]; exact ih.base⟩
  · have hatt : PendCode (attempt H cfg tx (tx.metered cfg) (startWorld s.world)).2.driver :=
      attempt_driver' (H := H) (cfg := cfg) (tx := tx) (P := NodeAct N) (S := fun d d' => PendCode d → PendCode d') (fun _ => id)
        (fun _ _ _ h h' => h' ∘ h) (fun _ _ => id) (fun a w ha h => pendCode_act ha w h) hall.1 hall.2 (tx.metered cfg) (startWorld s.world) ih.pend
    obtain ⟨_, writes, w2, hw, rfl, rfl⟩ := execute_ok he
    have hran : PendCode (ranWorld H cfg tx s.world).driver := by
      unfold ranWorld
      cases hr : (ranOutcome H cfg tx s.world).result with
      | ok v =>
        obtain ⟨_, h2⟩ := tryBlock_ok ht.auto hr
        rw [h2]
        exact hatt
      | error e =>
        obtain ⟨_, h2⟩ := tryBlock_failed ht.auto (h := hr)
        rw [h2]
        exact ih.pend
    cases hm : tx.metered cfg with
    | false => rw [hm, if_neg (by simp)] at hw; cases hw; exact hran
    | true =>
      rw [hm, if_pos rfl] at hw
      obtain ⟨_, _, b, r, _, _, _, _, hw2⟩ := chargeFee_ok ht.auto rfl hw
      show PendCode w2.driver
      rw [hw2]
      intro c v hc hgt
      have hne : balanceKey cfg tx.sender ≠ codeKey c :=
        userKey_ne (balance_user (N := NoColon) hfee.1.2.2.1 hfee.2 tx.sender) hc.2.2.1 (by decide)
      change Dict.get? (Dict.set (ranWorld H cfg tx s.world).driver.pendingWrites (balanceKey cfg tx.sender) b) (codeKey c) = some v at hgt
      rw [Dict.get?_set_ne _ _ hne] at hgt
      exact hran c v hc hgt
  · rintro k hk hn
    obtain ⟨c, r, hc, hs, hr, rfl⟩ := id hk
    obtain ⟨_, _, _, _, h5⟩ := execute_around (c := c) (fun n => hnm _) ht.auto he
    have e : dget w'.driver.cache (makeKey c r) = dget s.world.driver.cache (makeKey c r) := by
      unfold dget; rw [h5 _ ⟨r, by simp [makeKey]⟩]
    dsimp only at hn ⊢
    rw [e] at hn ⊢
    rw [h1]
    exact ih.coh _ hk hn
  · show Runs N (N.sourcesAfter s.current tx o) w'.driver
    unfold Node.sourcesAfter
    split
    · rename_i hcond
      obtain ⟨hcon, hfun, hst⟩ := hcond
      obtain ⟨kwargs, name, source, m, n', hk, hname, hsource, hm, ha, _, hafter, _⟩ :=
        C97_deployed hN hg ih.inv.bypass ht hcon hfun hhost hfee he hst
      rw [hk]
      dsimp only
      rw [hname, hsource]
      dsimp only
      rw [hm]
      dsimp only
      have hfair := (ht.fair hcon kwargs hk).2.1 source m hsource hm
      refine ⟨fun c => ?_, fun c m' h => ?_, fun c m' h => ?_, fun c m' h => ?_⟩
      · rw [hafter c, ih.runs.code c]
        unfold Sources.plus
        split
        · rename_i e; subst e; rfl
        · rfl
      all_goals
        unfold Sources.plus at h
        split at h
      · rename_i e; subst e; cases h; exact ha
      · exact ih.runs.accepted c m' h
      · cases h; exact hfair.1
      · exact ih.runs.disciplined c m' h
      · cases h; exact hnamed hcon kwargs source m hk hsource hm
      · exact ih.runs.named c m' h
    · rename_i hcond
      exact ⟨fun c => (C97_unchanged hg ht hfee he hcond c).trans (ih.runs.code c), ih.runs.accepted, ih.runs.disciplined, ih.runs.named⟩

/-- After the pending writes went to disk. -/
theorem SrcInv.written {N : Node} {s : SourceNode} (ih : SrcInv N s) {disk' : Disk}
    (i2 : ∀ k, PlainKey k → Dict.get? s.world.driver.pendingWrites k = none → disk'.get (locOf k) = s.world.driver.disk.get (locOf k))
    (i3 : ∀ k v, Dict.get? s.world.driver.pendingWrites k = some v → disk'.get (locOf k) = .ok v) {k : Str} (hk : CodeRec k) :
    disk'.get (locOf k) = s.world.driver.find k := by
  rw [ih.find hk]
  cases hp : Dict.get? s.world.driver.pendingWrites k with
  | none => exact i2 k hk.plain hp
  | some v => exact i3 k v hp

theorem SrcInv.apply {N : Node} {s : SourceNode} (ih : SrcInv N s) (nanos : Int) (hs : StablePending s.world.driver) :
    SrcInv N { s with world.driver := (s.world.driver.hardApply nanos).2, committed := s.current } := by
  have hinv := ih.inv.apply nanos hs
  obtain ⟨disk', i1, i2, i3⟩ := applyWrites_gets nanos (dget s.world.driver.pendingReads) s.world.driver.pendingWrites s.world.driver.disk hs ih.inv.wf
  have hw := fun k (hk : CodeRec k) => ih.written i2 i3 hk
  have heq := hardApply_eq nanos ih.inv.deltas i1
  have hcoh : ∀ k, CodeRec k → (dget (s.world.driver.hardApply nanos).2.cache k).isNone = false →
      (s.world.driver.hardApply nanos).2.disk.get (locOf k) = .ok (dget (s.world.driver.hardApply nanos).2.cache k) := by
    rw [heq]
    intro k hk hn
    have e := get?_foldl_set s.world.driver.pendingWrites ih.inv.wf s.world.driver.cache k
    unfold dget at hn ⊢
    dsimp only at hn ⊢
    rw [e] at hn ⊢
    cases hp : Dict.get? s.world.driver.pendingWrites k with
    | none =>
      rw [hp] at hn
      exact (i2 k hk.plain hp).trans (ih.coh k hk hn)
    | some v => exact i3 k v hp
  have hdisk : ∀ k, CodeRec k → (s.world.driver.hardApply nanos).2.disk.get (locOf k) = s.world.driver.find k := by
    rw [heq]; exact hw
  refine ⟨hinv, ?_, hcoh, ih.runs.congr fun k hk => ?_, ih.runs.congr fun k hk => (open_find _ k).trans (hdisk k hk)⟩
  · show PendCode (s.world.driver.hardApply nanos).2
    rw [heq]
    intro c v _ h
    cases h
  · show (s.world.driver.hardApply nanos).2.find k = _
    rw [← hdisk k hk, Driver.find_through hinv.bypass]
    have hp : (s.world.driver.hardApply nanos).2.pendingWrites = [] := by rw [heq]
    rw [hp]
    unfold through
    cases hn : (dget (s.world.driver.hardApply nanos).2.cache k).isNone with
    | true => rfl
    | false =>
      rw [hcoh k hk hn]
      rfl

theorem SrcInv.commit {N : Node} {s : SourceNode} (ih : SrcInv N s) (hs : StablePending s.world.driver) :
    SrcInv N { s with world.driver := s.world.driver.commit.2, committed := s.current } := by
  have hinv := ih.inv.commit hs
  obtain ⟨disk', i1, i2, i3⟩ := commitLoop_gets s.world.driver.pendingWrites s.world.driver.disk hs ih.inv.wf
  have hw := fun k (hk : CodeRec k) => ih.written i2 i3 hk
  have heq : s.world.driver.commit.2 = { s.world.driver with disk := disk', cache := [], pendingWrites := [], pendingReads := [] } := by
    unfold Driver.commit; rw [i1]
  have hdisk : ∀ k, CodeRec k → s.world.driver.commit.2.disk.get (locOf k) = s.world.driver.find k := by
    rw [heq]; exact hw
  refine ⟨hinv, ?_, ?_, ih.runs.congr fun k hk => ?_, ih.runs.congr fun k hk => (open_find _ k).trans (hdisk k hk)⟩
  · show PendCode s.world.driver.commit.2
    rw [heq]
    intro c v _ h
    cases h
  · show ∀ k, CodeRec k → (dget s.world.driver.commit.2.cache k).isNone = false → _
    rw [heq]
    intro k _ h
    cases h
  · show s.world.driver.commit.2.find k = _
    rw [← hdisk k hk, Driver.find_through hinv.bypass, heq]
    rfl

theorem SrcInv.rollback {N : Node} {s : SourceNode} (ih : SrcInv N s) :
    SrcInv N { s with world.driver := s.world.driver.rollback, current := s.committed } := by
  refine ⟨ih.inv.rollback, fun c v _ h => (by cases h), fun k _ h => (by cases h), ih.base.congr fun k hk => ?_, ih.base⟩
  rw [open_find, Driver.find_through ih.inv.rollback.bypass]
  rfl

theorem SrcInv.evict {N : Node} {s : SourceNode} (ih : SrcInv N s) (keep : Str → Bool) :
    SrcInv N { s with world.driver := s.world.driver.evict keep } := by
  have hcoh : ∀ k, CodeRec k → (dget (s.world.driver.evict keep).cache k).isNone = false →
      s.world.driver.disk.get (locOf k) = .ok (dget (s.world.driver.evict keep).cache k) := by
    intro k hk hn
    have e := evict_dget s.world.driver keep k hn
    rw [e] at hn ⊢
    exact ih.coh k hk hn
  refine ⟨ih.inv.evict keep, ih.pend, hcoh, ih.runs.congr fun k hk => ?_, ih.base⟩
  show (s.world.driver.evict keep).find k = s.world.driver.find k
  rw [Driver.find_through (d := s.world.driver.evict keep) ih.inv.bypass, Driver.find_through ih.inv.bypass]
  have h1 : through (s.world.driver.evict keep).cache s.world.driver.disk k = s.world.driver.disk.get (locOf k) := by
    unfold through
    cases hn : (dget (s.world.driver.evict keep).cache k).isNone with
    | true => rfl
    | false => rw [hcoh k hk hn]; rfl
  have h2 : through s.world.driver.cache s.world.driver.disk k = s.world.driver.disk.get (locOf k) := by
    unfold through
    cases hn : (dget s.world.driver.cache k).isNone with
    | true => rfl
    | false => rw [ih.coh k hk hn]; rfl
  rw [h2]
  show (if _ then through (s.world.driver.evict keep).cache s.world.driver.disk k else _) = _
  rw [h1]
  rfl

/-- **C98.** A node opened on a disk whose code is the compiled form of the sources `src`. Every history of it - blocks of
submissions and calls, by anybody, successful or failing; commits, rollbacks, expiring caches, restarts - is, state for
state, a history of a node that never compiles, stores or loads code but keeps the submitted sources and runs them as
`Spec/Source.lean` says. In particular every output (result, stamps, writes, reads, events) of every transaction is the
one the sources give. And at every point the node would run exactly the compiled forms of these sources. -/
theorem C98_sources {N : Node} (hN : RoundTrip N) (hb : N.D.builtin (py! "decimal") = true) {H : Host}
    (hhost : H.imported (py! "submission") = false ∧ H.importable (py! "submission") = false) {settled : Driver → Prop}
    {disk : Disk} (hd : GenuineDisk N disk) {src : Sources} (hsrc : Runs N src (.open disk))
    {w : World} (h : NodeHistory N H (fun _ tx => NamedTx N tx) settled { driver := .open disk } w) :
    ∃ current committed, SourceHistory N H ⟨{ driver := .open disk }, src, src⟩ ⟨w, current, committed⟩ ∧
      Runs N current w.driver ∧ Runs N committed (.open w.driver.disk) := by
  suffices h : ∃ s, s.world = w ∧ SourceHistory N H ⟨{ driver := .open disk }, src, src⟩ s ∧ SrcInv N s by
    obtain ⟨⟨_, current, committed⟩, rfl, h1, h2⟩ := h
    exact ⟨current, committed, h1, h2.runs, h2.base⟩
  generalize hw0 : ({ driver := .open disk } : World) = w0 at h ⊢
  induction h with
  | start =>
    subst hw0
    exact ⟨_, rfl, .start, .open hd, fun c v _ h => (by cases h), fun k _ h => (by cases h), hsrc, hsrc⟩
  | tx _ h1 h2 h3 h4 ih =>
    obtain ⟨s, rfl, hs, hi⟩ := ih
    obtain ⟨a, b⟩ := hi.tx hN hb hhost h1 h2 h3 h4
    exact ⟨_, rfl, hs.step a, b⟩
  | apply nanos _ h _ ih =>
    obtain ⟨s, rfl, hs, hi⟩ := ih
    exact ⟨_, rfl, hs.step (.apply nanos), hi.apply nanos h⟩
  | commit _ h _ ih =>
    obtain ⟨s, rfl, hs, hi⟩ := ih
    exact ⟨_, rfl, hs.step .commit, hi.commit h⟩
  | rollback _ ih =>
    obtain ⟨s, rfl, hs, hi⟩ := ih
    exact ⟨_, rfl, hs.step .rollback, hi.rollback⟩
  | evict keep _ ih =>
    obtain ⟨s, rfl, hs, hi⟩ := ih
    exact ⟨_, rfl, hs.step (.evict keep), hi.evict keep⟩
  | restart _ _ ih =>
    obtain ⟨s, rfl, hs, hi⟩ := ih
    exact ⟨_, rfl, hs.step .restart, .open hi.inv.disk, fun c v _ h => (by cases h), fun k _ h => (by cases h), hi.base, hi.base⟩

/-- **C98**, of one transaction: after any such history, whatever transaction comes next - whoever sends it, whatever it
calls, and however it ends - does on the node exactly what it does on the sources: the same output and the same state. -/
theorem C98_transaction {N : Node} (hN : RoundTrip N) (hb : N.D.builtin (py! "decimal") = true) {H : Host}
    (hhost : H.imported (py! "submission") = false ∧ H.importable (py! "submission") = false) {settled : Driver → Prop}
    {disk : Disk} (hd : GenuineDisk N disk) {src : Sources} (hsrc : Runs N src (.open disk))
    {w : World} (h : NodeHistory N H (fun _ tx => NamedTx N tx) settled { driver := .open disk } w) :
    ∃ current committed, SourceHistory N H ⟨{ driver := .open disk }, src, src⟩ ⟨w, current, committed⟩ ∧
      ∀ cfg tx n, startsWith tx.function (py! "__") = false →
        (tx.contract = py! "submission" → ∀ kwargs, fixKwargs tx.kwargs = .ok kwargs → FairArgs N kwargs) → NamedTx N tx →
        execute H cfg { tx with code := N.codeFor H n w.driver tx.contract tx.function } w =
          execute H cfg { tx with code := N.sourceFor H n current tx.contract tx.function } w := by
  obtain ⟨current, committed, h1, h2, _⟩ := C98_sources hN hb hhost hd hsrc h
  exact ⟨current, committed, h1, fun cfg tx n hpub hfair hnamed =>
    execute_sources hb h2 (tx := { tx with code := N.codeFor H n w.driver tx.contract tx.function }) rfl hpub hfair hnamed cfg w⟩

namespace SourceNodeDemo
open NodeDemo (w0 disk0 fees ran)
open DeployDemo

/-- There is no contract on the first disk. -/
theorem runs0 : Runs node (fun _ => none) (.open disk0) := by
  refine ⟨fun c => ?_, fun _ _ h => (by cases h), fun _ _ h => (by cases h), fun _ _ h => (by cases h)⟩
  obtain ⟨disk', i1, i2, _⟩ := commitLoop_gets NodeDemo.genesis.pendingWrites NodeDemo.genesis.disk NodeDemo.genesis_stable
    (by unfold Dict.WF; decide +kernel)
  have hdisk : disk0 = disk' := by
    show NodeDemo.genesis.commit.2.disk = disk'
    unfold Driver.commit
    rw [i1]
  unfold Node.code
  split
  · rfl
  · rename_i hn
    simp only [not_or] at hn
    have hk : (Driver.open disk0).find (codeKey c) = .ok .none := by
      rw [open_find, hdisk, i2 _ (codeKey_plain ⟨hn.2.1, hn.2.2.1, hn.2.2.2.1, hn.2.2.2.2⟩) ?_]
      · rfl
      · change Dict.get? [(codeKey (py! "submission"), PyVal.str (py! "src")), (makeKey (py! "submission") (py! "__compiled__"), .bytes []),
          (Verif.Demo.bobKey, .int 100)] (codeKey c) = none
        have hc : Spec.Plain c := ⟨hn.2.1, hn.2.2.1, hn.2.2.2.1, hn.2.2.2.2⟩
        have h1 : codeKey (py! "submission") ≠ codeKey c := fun h => hn.1 (record_inj (by decide) (by decide) h).1.symm
        have h2 : makeKey (py! "submission") (py! "__compiled__") ≠ codeKey c := fun h => by
          have := (record_inj (c := py! "submission") (s := py! "__compiled__") (by decide) (by decide) h).2
          revert this
          decide
        have h3 : Verif.Demo.bobKey ≠ codeKey c :=
          userKey_ne (balance_user (N := NoColon) (cfg := {}) (by decide) (by decide) Verif.Demo.bob) hc.2.2.1 (by decide)
        rw [Dict.get?_cons, if_neg h1, Dict.get?_cons, if_neg h2, Dict.get?_cons, if_neg h3]
        rfl
    rw [hk]
    rfl

theorem named {s : Str} {m : Module} (h : node.read s = some m) : WellNamed m := by
  rw [read_cases h]
  refine ⟨?_, ?_, ?_, ?_, by decide, ?_⟩
  all_goals simp [srcC, privateNames]
  all_goals decide

def w2 : World := (execute Verif.Demo.host {} (get w1) w1).2

/-- `bob` submits `con_c` and calls it. -/
theorem history : NodeHistory node Verif.Demo.host (fun _ tx => NamedTx node tx) (fun _ => True) w0 w2 := by
  obtain ⟨o1, h1⟩ := ran (cfg := {}) (t := submission w0 seeded) (w := w0) (by decide +kernel)
  obtain ⟨o2, h2⟩ := ran (cfg := {}) (t := get w1) (w := w1) (by decide +kernel)
  exact .tx (.tx (.start _) (submission_tx w0 seeded (by decide +kernel)) fees (fun _ _ _ _ _ _ h => named h) h1)
    (get_tx w1) fees (fun h => by cases h) h2

/-- `C98_sources` and `C98_transaction` for this history: the sources have come to hold `con_c`, and `get` run on
them answers what the constructor has set. -/
example : ∃ current committed, SourceHistory node Verif.Demo.host ⟨w0, fun _ => none, fun _ => none⟩ ⟨w2, current, committed⟩ ∧
    (execute Verif.Demo.host {} { get w2 with code := node.sourceFor Verif.Demo.host 5 current (py! "con_c") (py! "get") } w2).1.map Output.result =
      .ok (.ok (.int 42)) := by
  obtain ⟨current, committed, h1, h2⟩ := C98_transaction faithful rfl ⟨rfl, rfl⟩ (NodeDemo.disk0_any node) runs0 history
  refine ⟨current, committed, h1, ?_⟩
  have := h2 {} (get w2) 5 rfl (fun h => by cases h) (fun h => by cases h)
  have h42 : (execute Verif.Demo.host {} (get w2) w2).1.map Output.result = .ok (.ok (.int 42)) := by decide +kernel
  exact (congrArg (fun p => p.1.map Output.result) this).symm.trans h42

/-- What a submission adds to the sources. -/
example : ∃ o, execute Verif.Demo.host {} (submission w0 seeded) w0 = (.ok o, w1) ∧
    node.sourcesAfter (fun _ => none) (submission w0 seeded) o (py! "con_c") = some srcC ∧
    node.sourcesAfter (fun _ => none) (submission w0 seeded) o (py! "con_d") = none := by
  obtain ⟨o, h⟩ := ran (cfg := {}) (t := submission w0 seeded) (w := w0) (by decide +kernel)
  have hs : (execute Verif.Demo.host {} (submission w0 seeded) w0).1.map Output.status = .ok 0 := by decide +kernel
  have hst : o.status = 0 := by
    rw [congrArg Prod.fst h] at hs
    exact Except.ok.inj hs
  have hfix : fixKwargs (submission w0 seeded).kwargs = .ok (submission w0 seeded).kwargs := by decide +kernel
  refine ⟨o, h, ?_⟩
  unfold Node.sourcesAfter
  rw [if_pos ⟨rfl, rfl, hst⟩, hfix]
  exact ⟨rfl, rfl⟩

end SourceNodeDemo

end Verif.Lang
