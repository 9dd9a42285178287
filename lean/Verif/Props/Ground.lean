import Verif.Proofs.Ground
import Verif.Props.SourceNode
/-!
# C103: imports of deployed contracts neither dangle nor go in circles; C102: metered code finishes

`Imports`, `Nested`, `Grounded` are in `Verif/Spec/Finish.lean`.
-/
namespace Verif.Lang
open Verif Verif.Spec

/-- Every contract there is is grounded. -/
def AllGrounded (code : Str → Option Module) : Prop := ∀ c, code c ≠ none → Grounded code c

theorem AllGrounded.congr {code code' : Str → Option Module} (h : AllGrounded code) (e : ∀ c, code' c = code c) : AllGrounded code' := by
  have : code' = code := funext e
  rw [this]
  exact h

/-- One more contract, with a name that was free, leaves the others as they were. -/
theorem Grounded.plus {code code' : Str → Option Module} {name : Str} (hfree : code name = none) (hs : name ≠ py! "submission")
    (h : ∀ c, c ≠ name → code' c = code c) {c : Str} (hc : Grounded code c) : Grounded code' c := by
  induction hc with
  | submission => exact .submission
  | @mk c hc _ ih =>
    have hne : c ≠ name := fun e => hc (e ▸ hfree)
    refine .mk (by rw [h c hne]; exact hc) fun d ⟨m, a, h1, h2⟩ => ih d ⟨m, a, by rw [← h c hne]; exact h1, h2⟩

theorem code_submission (N : Node) (d : Driver) : N.code d (py! "submission") = none := by
  unfold Node.code; rw [if_pos (.inl rfl)]

/-- What holds of the records code is loaded from all along. -/
structure RecInv (N : Node) (d : Driver) : Prop where
  inv : CodeInv N d
  pend : PendCode d
  coh : ∀ k, CodeRec k → (dget d.cache k).isNone = false → d.disk.get (locOf k) = .ok (dget d.cache k)

theorem RecInv.source {N : Node} {w : World} (h : RecInv N w.driver) {k : Str} (hk : CodeRec k) :
    w.driver.find k = match Dict.get? w.driver.pendingWrites k with | some v => .ok v | none => w.driver.disk.get (locOf k) := by
  have hpend : ∀ {v : PyVal}, Dict.get? w.driver.pendingWrites k = some v → v.isNone = false := by
    intro v hg
    have hne : v ≠ .none := by
      obtain ⟨c, r, hc, hs, rfl | rfl, rfl⟩ := hk
      · exact h.pend c v hc hg
      · obtain ⟨b, rfl, _⟩ := h.inv.pend c v hc hs hg
        simp
    cases v <;> first | rfl | exact (hne rfl).elim
  rw [Driver.find_through h.inv.bypass]
  cases hg : Dict.get? w.driver.pendingWrites k with
  | some v =>
    have e : dget w.driver.pendingWrites k = v := by unfold dget; rw [hg]; rfl
    rw [e, hpend hg]
    rfl
  | none =>
    have e : dget w.driver.pendingWrites k = .none := by unfold dget; rw [hg]; rfl
    rw [e, if_pos (show PyVal.none.isNone = true from rfl)]
    unfold through
    cases hn : (dget w.driver.cache k).isNone with
    | true => rfl
    | false => rw [if_neg (by simp), h.coh k hk hn]

/-- What holds of a node all along. -/
structure GroundInv (N : Node) (w : World) : Prop where
  recs : RecInv N w.driver
  loaded : w.loaded = []
  now : AllGrounded (N.code w.driver)
  base : AllGrounded (N.code (.open w.driver.disk))

theorem GroundInv.tx {N : Node} (hN : RoundTrip N) {H : Host}
    (hhost : H.imported (py! "submission") = false ∧ H.importable (py! "submission") = false)
    {w w' : World} {cfg : ExecCfg} {tx : Tx} {o : Output} (ih : GroundInv N w)
    (ht : NodeTx N H w.driver tx) (hfee : PlainFees cfg) (he : execute H cfg tx w = (.ok o, w')) : GroundInv N w' := by
  have hg := ih.recs.inv.state
  have hnm : ∀ k, tx.code.All (Action.NoMutate k) := fun k =>
    ⟨(nodeTx_any hg ht k).1.2, fun fn hf kwargs => ((nodeTx_any hg ht k).2 fn kwargs hf).2⟩
  have hall := nodeTx_all hN hg ht
  obtain ⟨h1, _⟩ := execute_around (c := []) (fun n => hnm _) ht.auto he
  refine ⟨⟨ih.recs.inv.tx hN ht hfee he, ?_, ?_⟩, ?_, ?_, by rw [h1]; exact ih.base⟩
  · have hatt : PendCode (attempt H cfg tx (tx.metered cfg) (startWorld w)).2.driver :=
      attempt_driver' (H := H) (cfg := cfg) (tx := tx) (P := NodeAct N) (S := fun d d' => PendCode d → PendCode d') (fun _ => id)
        (fun _ _ _ h h' => h' ∘ h) (fun _ _ => id) (fun a w ha h => pendCode_act ha w h) hall.1 hall.2 (tx.metered cfg) (startWorld w) ih.recs.pend
    obtain ⟨_, writes, w2, hw, rfl, rfl⟩ := execute_ok he
    have hran : PendCode (ranWorld H cfg tx w).driver := by
      unfold ranWorld
      cases hr : (ranOutcome H cfg tx w).result with
      | ok v =>
        obtain ⟨_, h2⟩ := tryBlock_ok ht.auto hr
        rw [h2]
        exact hatt
      | error e =>
        obtain ⟨_, h2⟩ := tryBlock_failed ht.auto (h := hr)
        rw [h2]
        exact ih.recs.pend
    cases hm : tx.metered cfg with
    | false => rw [hm, if_neg (by simp)] at hw; cases hw; exact hran
    | true =>
      rw [hm, if_pos rfl] at hw
      obtain ⟨_, _, b, r, _, _, _, _, hw2⟩ := chargeFee_ok ht.auto rfl hw
      show PendCode w2.driver
      rw [hw2]
      intro c v hc hgt
      have hne : balanceKey cfg tx.sender ≠ codeKey c :=
        userKey_ne (balance_user (N := NoColon) hfee.1.2.2.1 hfee.2 tx.sender) hc.2.2.1 (by decide)
      change Dict.get? (Dict.set (ranWorld H cfg tx w).driver.pendingWrites (balanceKey cfg tx.sender) b) (codeKey c) = some v at hgt
      rw [Dict.get?_set_ne _ _ hne] at hgt
      exact hran c v hc hgt
  · rintro k hk hn
    obtain ⟨c, r, hc, hs, hr, rfl⟩ := id hk
    obtain ⟨_, _, _, _, h5⟩ := execute_around (c := c) (fun n => hnm _) ht.auto he
    have e : dget w'.driver.cache (makeKey c r) = dget w.driver.cache (makeKey c r) := by
      unfold dget; rw [h5 _ ⟨r, by simp [makeKey]⟩]
    rw [e] at hn ⊢
    rw [h1]
    exact ih.recs.coh _ hk hn
  · obtain ⟨_, writes, w2, _, _, rfl⟩ := execute_ok he
    rfl
  · by_cases hcond : tx.contract = py! "submission" ∧ tx.function = py! "submit_contract" ∧ o.status = 0
    · obtain ⟨hcon, hfun, hst⟩ := hcond
      obtain ⟨name, hfree, hthere, hsame, hnew⟩ := deployed_grounded hN hg ih.recs.inv.bypass ht hcon hfun hhost hfee ih.loaded he hst
      intro c hc
      by_cases hcn : c = name
      · rw [hcn]; exact hnew
      · have hns : name ≠ py! "submission" := fun e => hthere (by rw [e]; exact code_submission N w'.driver)
        exact (ih.now c (by rw [← hsame c hcn]; exact hc)).plus hfree hns hsame
    · exact ih.now.congr (C97_unchanged hg ht hfee he hcond)

theorem RecInv.written {N : Node} {d : Driver} (ih : RecInv N d) {disk' : Disk}
    (i2 : ∀ k, PlainKey k → Dict.get? d.pendingWrites k = none → disk'.get (locOf k) = d.disk.get (locOf k))
    (i3 : ∀ k v, Dict.get? d.pendingWrites k = some v → disk'.get (locOf k) = .ok v) {k : Str} (hk : CodeRec k) :
    disk'.get (locOf k) = d.find k := by
  rw [RecInv.source (w := { driver := d }) ih hk]
  cases hp : Dict.get? d.pendingWrites k with
  | none => exact i2 k hk.plain hp
  | some v => exact i3 k v hp

theorem GroundInv.apply {N : Node} {w : World} (ih : GroundInv N w) (nanos : Int) (hs : StablePending w.driver) :
    GroundInv N { w with driver := (w.driver.hardApply nanos).2 } := by
  have hinv := ih.recs.inv.apply nanos hs
  obtain ⟨disk', i1, i2, i3⟩ := applyWrites_gets nanos (dget w.driver.pendingReads) w.driver.pendingWrites w.driver.disk hs ih.recs.inv.wf
  have hw := fun k (hk : CodeRec k) => ih.recs.written i2 i3 hk
  have heq := hardApply_eq nanos ih.recs.inv.deltas i1
  have hcoh : ∀ k, CodeRec k → (dget (w.driver.hardApply nanos).2.cache k).isNone = false →
      (w.driver.hardApply nanos).2.disk.get (locOf k) = .ok (dget (w.driver.hardApply nanos).2.cache k) := by
    rw [heq]
    intro k hk hn
    have e := get?_foldl_set w.driver.pendingWrites ih.recs.inv.wf w.driver.cache k
    unfold dget at hn ⊢
    dsimp only at hn ⊢
    rw [e] at hn ⊢
    cases hp : Dict.get? w.driver.pendingWrites k with
    | none =>
      rw [hp] at hn
      exact (i2 k hk.plain hp).trans (ih.recs.coh k hk hn)
    | some v => exact i3 k v hp
  have hdisk : ∀ k, CodeRec k → (w.driver.hardApply nanos).2.disk.get (locOf k) = w.driver.find k := by
    rw [heq]; exact hw
  refine ⟨⟨hinv, ?_, hcoh⟩, ih.loaded, ih.now.congr (code_records fun k hk => ?_),
    ih.now.congr (code_records fun k hk => (open_find _ k).trans (hdisk k hk))⟩
  · show PendCode (w.driver.hardApply nanos).2
    rw [heq]
    intro c v _ h
    cases h
  · show (w.driver.hardApply nanos).2.find k = _
    rw [← hdisk k hk, Driver.find_through hinv.bypass]
    have hp : (w.driver.hardApply nanos).2.pendingWrites = [] := by rw [heq]
    rw [hp]
    unfold through
    cases hn : (dget (w.driver.hardApply nanos).2.cache k).isNone with
    | true => rfl
    | false =>
      rw [hcoh k hk hn]
      rfl

theorem GroundInv.commit {N : Node} {w : World} (ih : GroundInv N w) (hs : StablePending w.driver) :
    GroundInv N { w with driver := w.driver.commit.2 } := by
  have hinv := ih.recs.inv.commit hs
  obtain ⟨disk', i1, i2, i3⟩ := commitLoop_gets w.driver.pendingWrites w.driver.disk hs ih.recs.inv.wf
  have hw := fun k (hk : CodeRec k) => ih.recs.written i2 i3 hk
  have heq : w.driver.commit.2 = { w.driver with disk := disk', cache := [], pendingWrites := [], pendingReads := [] } := by
    unfold Driver.commit; rw [i1]
  have hdisk : ∀ k, CodeRec k → w.driver.commit.2.disk.get (locOf k) = w.driver.find k := by
    rw [heq]; exact hw
  refine ⟨⟨hinv, ?_, ?_⟩, ih.loaded, ih.now.congr (code_records fun k hk => ?_),
    ih.now.congr (code_records fun k hk => (open_find _ k).trans (hdisk k hk))⟩
  · show PendCode w.driver.commit.2
    rw [heq]
    intro c v _ h
    cases h
  · show ∀ k, CodeRec k → (dget w.driver.commit.2.cache k).isNone = false → _
    rw [heq]
    intro k _ h
    cases h
  · show w.driver.commit.2.find k = _
    rw [← hdisk k hk, Driver.find_through hinv.bypass, heq]
    rfl

theorem GroundInv.rollback {N : Node} {w : World} (ih : GroundInv N w) : GroundInv N { w with driver := w.driver.rollback } := by
  refine ⟨⟨ih.recs.inv.rollback, fun c v _ h => (by cases h), fun k _ h => (by cases h)⟩, ih.loaded,
    ih.base.congr (code_records fun k hk => ?_), ih.base⟩
  rw [open_find, Driver.find_through ih.recs.inv.rollback.bypass]
  rfl

theorem GroundInv.evict {N : Node} {w : World} (ih : GroundInv N w) (keep : Str → Bool) :
    GroundInv N { w with driver := w.driver.evict keep } := by
  have hcoh : ∀ k, CodeRec k → (dget (w.driver.evict keep).cache k).isNone = false →
      w.driver.disk.get (locOf k) = .ok (dget (w.driver.evict keep).cache k) := by
    intro k hk hn
    have e := evict_dget w.driver keep k hn
    rw [e] at hn ⊢
    exact ih.recs.coh k hk hn
  refine ⟨⟨ih.recs.inv.evict keep, ih.recs.pend, hcoh⟩, ih.loaded, ih.now.congr (code_records fun k hk => ?_), ih.base⟩
  have h := RecInv.source (w := { w with driver := w.driver.evict keep }) ⟨ih.recs.inv.evict keep, ih.recs.pend, hcoh⟩ hk
  exact h.trans (ih.recs.source hk).symm

theorem ground_history {N : Node} (hN : RoundTrip N) {H : Host}
    (hhost : H.imported (py! "submission") = false ∧ H.importable (py! "submission") = false) {fees : ExecCfg → Tx → Prop} {settled : Driver → Prop}
    {disk : Disk} (hd : GenuineDisk N disk) (hg : AllGrounded (N.code (.open disk)))
    {w : World} (h : NodeHistory N H fees settled { driver := .open disk } w) : GroundInv N w := by
  generalize hw0 : ({ driver := .open disk } : World) = w0 at h
  induction h with
  | start =>
    subst hw0
    exact ⟨⟨.open hd, fun c v _ h => (by cases h), fun k _ h => (by cases h)⟩, rfl, hg, hg⟩
  | tx _ h1 h2 _ h4 ih => exact ih.tx hN hhost h1 h2 h4
  | apply nanos _ h _ ih => exact ih.apply nanos h
  | commit _ h _ ih => exact ih.commit h
  | rollback _ ih => exact ih.rollback
  | evict keep _ ih => exact ih.evict keep
  | restart _ _ ih =>
    exact ⟨⟨.open ih.recs.inv.disk, fun c v _ h => (by cases h), fun k _ h => (by cases h)⟩, rfl, ih.base, ih.base⟩

/-- **C103.** A node opened on a disk whose contracts are grounded. After every history of it - blocks of submissions and
calls, by anybody, successful or failing; commits, rollbacks, expiring caches, restarts - every contract there is is
grounded: it is there, and so is, in the end, everything it imports. The same holds of what is on the disk. -/
theorem C103_grounded {N : Node} (hN : RoundTrip N) {H : Host}
    (hhost : H.imported (py! "submission") = false ∧ H.importable (py! "submission") = false) {fees : ExecCfg → Tx → Prop} {settled : Driver → Prop}
    {disk : Disk} (hd : GenuineDisk N disk) (hg : ∀ c, N.code (.open disk) c ≠ none → Grounded (N.code (.open disk)) c)
    {w : World} (h : NodeHistory N H fees settled { driver := .open disk } w) :
    (∀ c, N.code w.driver c ≠ none → Grounded (N.code w.driver) c) ∧
    ∀ c, N.code (.open w.driver.disk) c ≠ none → Grounded (N.code (.open w.driver.disk)) c :=
  have i := ground_history hN hhost hd hg h
  ⟨i.now, i.base⟩

/-- **C103**, of one import: what a contract imports is there. -/
theorem C103_resolves {N : Node} (hN : RoundTrip N) {H : Host}
    (hhost : H.imported (py! "submission") = false ∧ H.importable (py! "submission") = false) {fees : ExecCfg → Tx → Prop} {settled : Driver → Prop}
    {disk : Disk} (hd : GenuineDisk N disk) (hg : ∀ c, N.code (.open disk) c ≠ none → Grounded (N.code (.open disk)) c)
    {w : World} (h : NodeHistory N H fees settled { driver := .open disk } w) {c d : Str} (hi : Imports (N.code w.driver) c d) :
    d = py! "submission" ∨ N.code w.driver d ≠ none := by
  obtain ⟨m, a, hm, hmem⟩ := hi
  cases (C103_grounded hN hhost hd hg h).1 c (by rw [hm]; simp) with
  | submission => rw [code_submission] at hm; cases hm
  | mk _ hall =>
    cases hall d ⟨m, a, hm, hmem⟩ with
    | submission => exact .inl rfl
    | mk hd' _ => exact .inr hd'

theorem Grounded.acyclic {code : Str → Option Module} (hs : code (py! "submission") = none) {c : Str} (h : Grounded code c) :
    ¬ Relation.TransGen (Imports code) c c := by
  suffices h : ∀ d, Relation.TransGen (Imports code) c d → d ≠ c from fun ht => h c ht rfl
  induction h with
  | submission =>
    intro d ht
    have : ∀ d, Relation.TransGen (Imports code) (py! "submission") d → False := by
      intro d ht
      induction ht with
      | single h => obtain ⟨m, a, h, _⟩ := h; rw [hs] at h; cases h
      | tail _ _ ih => exact ih
    exact (this d ht).elim
  | @mk c _ _ ih =>
    intro d ht hdc
    subst hdc
    have key : ∀ e, Relation.TransGen (Imports code) d e → ∃ x, Imports code d x ∧ (x = e ∨ Relation.TransGen (Imports code) x e) := by
      intro e he
      induction he with
      | single h => exact ⟨_, h, .inl rfl⟩
      | tail _ h2 ih2 =>
        obtain ⟨x, hx, rfl | hx2⟩ := ih2
        · exact ⟨x, hx, .inr (.single h2)⟩
        · exact ⟨x, hx, .inr (.tail hx2 h2)⟩
    obtain ⟨x, hx, hor⟩ := key d ht
    refine ih x hx x ?_ rfl
    rcases hor with rfl | h2
    · exact ht
    · exact .tail h2 hx

/-- **C103**, of chains of imports: none leads from a contract back to it. -/
theorem C103_acyclic {N : Node} (hN : RoundTrip N) {H : Host}
    (hhost : H.imported (py! "submission") = false ∧ H.importable (py! "submission") = false) {fees : ExecCfg → Tx → Prop} {settled : Driver → Prop}
    {disk : Disk} (hd : GenuineDisk N disk) (hg : ∀ c, N.code (.open disk) c ≠ none → Grounded (N.code (.open disk)) c)
    {w : World} (h : NodeHistory N H fees settled { driver := .open disk } w) (c : Str) :
    ¬ Relation.TransGen (Imports (N.code w.driver)) c c := by
  intro ht
  have hc : ∀ d, Relation.TransGen (Imports (N.code w.driver)) c d → N.code w.driver c ≠ none := by
    intro d hd
    induction hd with
    | single h => obtain ⟨m, a, h, _⟩ := h; rw [h]; simp
    | tail _ _ ih => exact ih
  exact ((C103_grounded hN hhost hd hg h).1 c (hc c ht)).acyclic (code_submission N _) ht

/-- **C103**, of one submission: a source that imports something that is not there - itself included - is not deployed,
whoever submits it. -/
theorem C103_refused {N : Node} (hN : RoundTrip N) {H : Host}
    (hhost : H.imported (py! "submission") = false ∧ H.importable (py! "submission") = false) {fees : ExecCfg → Tx → Prop} {settled : Driver → Prop}
    {disk : Disk} (hd : GenuineDisk N disk) (hg : ∀ c, N.code (.open disk) c ≠ none → Grounded (N.code (.open disk)) c)
    {w w' : World} (h : NodeHistory N H fees settled { driver := .open disk } w)
    {cfg : ExecCfg} {tx : Tx} {o : Output} (ht : NodeTx N H w.driver tx) (hcon : tx.contract = py! "submission") (hfun : tx.function = py! "submit_contract")
    (hfee : PlainFees cfg) (he : execute H cfg tx w = (.ok o, w'))
    {kwargs : Dict Str PyVal} {source : Str} {m : Module} (hk : fixKwargs tx.kwargs = .ok kwargs) (hsrc : dget kwargs (py! "code") = .str source)
    (hm : N.read source = some m) {d : Str} {a : Option Str} (hi : Top.import d a ∈ m) (hno : N.code w.driver d = none) (hns : d ≠ py! "submission") :
    o.status ≠ 0 := by
  intro hs
  have i := ground_history hN hhost hd hg h
  obtain ⟨kwargs', name, source', m', n', hk', hname, hsource, hm', ha, hfree, hafter, _⟩ :=
    C97_deployed hN i.recs.inv.state i.recs.inv.bypass ht hcon hfun hhost hfee he hs
  rw [hk] at hk'
  cases hk'
  rw [hsrc] at hsource
  cases hsource
  rw [hm] at hm'
  cases hm'
  have i' := i.tx hN hhost ht hfee he
  have hc : N.code w'.driver name = some (compileModule name m) := by rw [hafter name, if_pos rfl]
  have himp : Imports (N.code w'.driver) name d := by
    refine ⟨_, a, hc, ?_⟩
    unfold compileModule
    exact List.mem_map.2 ⟨_, hi, rfl⟩
  have hgr := i'.now name (by rw [hc]; simp)
  by_cases hdn : d = name
  · subst hdn
    exact hgr.acyclic (code_submission N _) (.single himp)
  · cases hgr with
    | submission => rw [code_submission] at hc; cases hc
    | mk _ hall =>
      cases hall d himp with
      | submission => exact hns rfl
      | mk hd' _ => exact hd' (by rw [hafter d, if_neg hdn]; exact hno)

/-- **C102.** Metered code finishes. `n` bounds how deep the interpreter of contract code goes into calls and imports and
how often it goes round a loop, and `N.out` is what it raises if that is not enough. After any history and for every
contract there is a bound such that, whoever calls whatever function of it with whatever arguments and stamps, if the
transaction is metered then its outcome and the state it leaves are the same for every greater bound, and whatever is
raised where the bound is reached: the bound is never reached. -/
theorem C102_finishes {N : Node} (hN : RoundTrip N) {H : Host}
    (hhost : H.imported (py! "submission") = false ∧ H.importable (py! "submission") = false) {fees : ExecCfg → Tx → Prop} {settled : Driver → Prop}
    {disk : Disk} (hd : GenuineDisk N disk) (hg : ∀ c, N.code (.open disk) c ≠ none → Grounded (N.code (.open disk)) c)
    {w : World} (h : NodeHistory N H fees settled { driver := .open disk } w) (c : Str) :
    ∃ n0, ∀ (cfg : ExecCfg) (tx : Tx), tx.contract = c → tx.metered cfg = true → ∀ n ≥ n0, ∀ e,
      execute H cfg { tx with code := (N.ending e).codeFor H n w.driver tx.contract tx.function } w =
        execute H cfg { tx with code := N.codeFor H n0 w.driver tx.contract tx.function } w := by
  obtain ⟨r, hr⟩ : ∃ r, c ≠ py! "submission" → Nested (N.code w.driver) r c := by
    cases hc : N.code w.driver c with
    | none => exact ⟨1, fun _ => .mk fun d ⟨m, a, h, _⟩ => by rw [hc] at h; cases h⟩
    | some m =>
      obtain ⟨r, hr⟩ := ((C103_grounded hN hhost hd hg h).1 c (by rw [hc]; simp)).nested (code_submission N _)
      exact ⟨r, fun _ => hr⟩
  refine ⟨max r (maxCallCount + 2), fun cfg tx hcon hm n hn e => ?_⟩
  have hal := N.codeFor_alike e H w.driver (c := tx.contract) (by rw [hcon]; exact hr) (n := max r (maxCallCount + 2)) (n' := n)
    (Nat.le_max_left _ _) (by omega) (by omega) (by omega) tx.function
  exact (execute_alike (tx := { tx with code := N.codeFor H (max r (maxCallCount + 2)) w.driver tx.contract tx.function }) hal hm w).symm

/-- **C102**, of any code at all: if the imports of a contract nest less than `r` deep, every bound that is at least `r` and
greater than the number of lines a transaction may run (tracer.py:38, 90-92) is as good as any other. -/
theorem C102_bound {C : Chain} {H : Host} {r : Nat} {c : Str} (h : Nested C.code r c) {cfg : ExecCfg} {tx : Tx} (hm : tx.metered cfg = true)
    {n n' : Nat} (h1 : max r (maxCallCount + 2) ≤ n) (h2 : max r (maxCallCount + 2) ≤ n') (e e' : PyErr) (fname : Str) (w : World) :
    execute H cfg { tx with code := ({ C with out := e } : Chain).codeFor n c fname } w =
      execute H cfg { tx with code := ({ C with out := e' } : Chain).codeFor n' c fname } w := by
  have hal := Chain.codeFor_alike { C with out := e } e' (c := c) (r := r) h (n := n) (n' := n') (by omega) (by omega) (by omega) (by omega) fname
  exact execute_alike (tx := { tx with code := ({ C with out := e } : Chain).codeFor n c fname }) hal hm w

namespace GroundDemo
open NodeDemo (disk0 disk0_any fees)

/-- There is no contract on the first disk, so all of them are grounded. -/
theorem start (N : Node) : ∀ c, N.code (.open disk0) c ≠ none → Grounded (N.code (.open disk0)) c := by
  intro c hc
  exfalso
  refine hc ?_
  unfold Node.code
  split
  · rfl
  rename_i hp
  have hp : c ≠ py! "submission" ∧ Spec.Plain c := by
    simp only [not_or] at hp
    exact ⟨hp.1, hp.2.1, hp.2.2.1, hp.2.2.2.1, hp.2.2.2.2⟩
  have hg := disk0_any { N with load := fun _ => none } c
  have hv : ∀ v, (Driver.open disk0).find (compiledKey c) = .ok v → v = .none := by
    intro v hv
    rw [open_find] at hv
    by_cases h : v = .none
    · exact h
    · obtain ⟨b, _, m, _, _, _, h⟩ := hg v hp.2 hp.1 hv h
      cases h
  split
  · rfl
  · rfl
  · split
    · rename_i h
      cases hv _ h
    · rfl

/-- `C103_grounded` for two submissions and a call: `con_b` imports `con_a`, and is grounded. -/
example : Imports (NodeDemo.node.code NodeDemo.w3.driver) Verif.Demo.conB Verif.Demo.conA ∧
    Grounded (NodeDemo.node.code NodeDemo.w3.driver) Verif.Demo.conB := by
  have hc : NodeDemo.node.code NodeDemo.w3.driver Verif.Demo.conB = some (compileModule Verif.Demo.conB Demo.srcB) := by
    have h1 : NodeDemo.w3.driver.find (codeKey Verif.Demo.conB) = .ok (.str (py! "Bcon_b")) := by decide +kernel
    have h2 : NodeDemo.w3.driver.find (compiledKey Verif.Demo.conB) = .ok (.bytes [66, 99, 111, 110, 95, 98]) := by decide +kernel
    unfold Node.code
    rw [if_neg (by decide), h1, h2]
    rfl
  refine ⟨⟨_, none, hc, List.mem_map.2 ⟨_, List.mem_cons_self, rfl⟩⟩, ?_⟩
  exact (C103_grounded NodeDemo.faithful ⟨rfl, rfl⟩ NodeDemo.disk0_genuine (start _) NodeDemo.history).1 _ (by rw [hc]; simp)

/-- `C103_refused`: on the empty node, `con_b`, which imports `con_a`, is refused. -/
example : ∃ o w', execute Verif.Demo.host {} (NodeDemo.submission NodeDemo.w0 Verif.Demo.conB (py! "b")) NodeDemo.w0 = (.ok o, w') ∧ o.status ≠ 0 := by
  obtain ⟨o, h⟩ := NodeDemo.ran (cfg := {}) (t := NodeDemo.submission NodeDemo.w0 Verif.Demo.conB (py! "b")) (w := NodeDemo.w0) (by decide +kernel)
  refine ⟨o, _, h, C103_refused NodeDemo.faithful ⟨rfl, rfl⟩ NodeDemo.disk0_genuine (start _) (.start (fees := fun _ _ => True) (settled := fun _ => True) _)
    (NodeDemo.submission_tx _ (by decide) (by decide) (by decide +kernel)) rfl rfl fees h
    (kwargs := (NodeDemo.submission NodeDemo.w0 Verif.Demo.conB (py! "b")).kwargs) (source := py! "b") (m := Demo.srcB) (by decide +kernel) rfl rfl
    (d := Verif.Demo.conA) (a := none) List.mem_cons_self ?_ (by decide)⟩
  by_cases hc : NodeDemo.node.code NodeDemo.w0.driver Verif.Demo.conA = none
  · exact hc
  · have hc' : (NodeDemo.node.code NodeDemo.w0.driver Verif.Demo.conA).isNone = true := by decide +kernel
    exact Option.isNone_iff_eq_none.1 hc'

/-- `spin()`: `while None is None: pass`. -/
def spin : Module := [
  .def { name := py! "spin", args := [], deco := .export, body := [
    .while (.op (.cmp (py! "Is")) [.const .none, .const .none]) [.pass]] }]

def chain (e : PyErr) : Chain := { Demo.chain spin with out := e }

/-- `bob` calls `con_b.spin()`. -/
def tx (metered : Bool) (n : Nat) (e : PyErr) : Tx :=
  { sender := Verif.Demo.bob, contract := Verif.Demo.conB, function := py! "spin", kwargs := [], stamps := 3, metering := some metered,
    stampCost := 1, code := (chain e).codeFor n Verif.Demo.conB (py! "spin") }

/-- Metered, it ends: the stamps are used up. -/
example : (execute Verif.Demo.host {} (tx true (maxCallCount + 2) .recursion) Demo.world).1.map Output.result = .ok (.error .assertion) := by
  decide +kernel

theorem spin_run {H : Host} {e : PyErr} {l : Locals} {M : Machine} {c : Str} {k : Flow → Locals → Prog} (hD : M.D = Demo.data) :
    ∀ (n : Nat) {w : World}, w.meter.started = false →
      (whileLoop e (fun l next done => tick M c (.while (.op (.cmp (py! "Is")) [.const .none, .const .none]) [.pass]) <|
        eval M c l (.op (.cmp (py! "Is")) [.const .none, .const .none]) fun t => asData t fun t =>
          if truthy t then execAll M c [.pass] l next else done) n l k).run H w = (.error e, w)
  | 0, _, _ => rfl
  | n + 1, w, hw => by
    rw [whileLoop]
    have hline : ∀ x y, Action.run H w (.line true x y) = (.ok .none, w) := by
      intro x y
      simp only [Action.run, Meter.line, hw]
      rfl
    have ht : ∀ s p, (tick M c s p).run H w = p.run H w := by
      intro s p
      unfold tick api
      simp only [Prog.run, hline, orRaise]
    rw [ht]
    have he : ∀ (k : Val → Prog), eval M c l (.op (.cmp (py! "Is")) [.const .none, .const .none]) k = k (.data (.bool true)) := by
      intro k
      simp only [eval, evalAll, hD, orRaise, constVal, asDatas, asData]
      rfl
    rw [he]
    simp only [asData, truthy]
    rw [if_pos (by decide), execAll, exec, ht]
    simp only [execAll, afterRound]
    exact spin_run hD n hw

/-- The same without the loop. -/
def ended (e : PyErr) : Tx :=
  { tx false 1 e with code := { top := (chain .recursion).top 1 Verif.Demo.conB, fn := some (true, fun _ => .raise e) } }

/-- Where the transaction is ready to run. -/
def start1 : World := { Demo.world with driver := Demo.world.driver.clearTxWrites.clearEvents }
def base1 : World := { start1 with env := Dict.update start1.env [] }
def base2 : World := (setBase (ended .recursion) base1).2
def loaded2 : World := (loadEntry Verif.Demo.host (ended .recursion) base2).2

theorem base_ok : (setBase (ended .recursion) base1).1 = .ok () := by decide +kernel

theorem load_ok : (loadEntry Verif.Demo.host (ended .recursion) base2).1 = .ok false := by
  have h : (match (loadEntry Verif.Demo.host (ended .recursion) base2).1 with | .ok false => true | _ => false) = true := by decide +kernel
  split at h
  · assumption
  · cases h

theorem attempt_spin (t : Tx) (h1 : t.contract = Verif.Demo.conB) (h2 : t.function = py! "spin") (h3 : t.environment = [])
    (h4 : t.sender = Verif.Demo.bob) (h5 : t.code.top = (ended .recursion).code.top) :
    attempt Verif.Demo.host {} t false start1 = invoke Verif.Demo.host t false false loaded2 := by
  have e1 : setBase t base1 = setBase (ended .recursion) base1 := by unfold setBase; rw [h1, h2, h4]; rfl
  have e2 : loadEntry Verif.Demo.host t base2 = loadEntry Verif.Demo.host (ended .recursion) base2 := by unfold loadEntry; rw [h1, h5]; rfl
  have e3 : setBase (ended .recursion) base1 = (.ok (), base2) := pair_of_fst base_ok
  have e4 : loadEntry Verif.Demo.host (ended .recursion) base2 = (.ok false, loaded2) := pair_of_fst load_ok
  unfold attempt
  rw [if_neg (by simp), h3]
  simp only
  change (match setBase t base1 with | (.error e, w) => _ | (.ok _, w) => _) = _
  rw [e1, e3]
  simp only
  rw [e2, e4]

theorem spin_over (n : Nat) (e : PyErr) :
    execute Verif.Demo.host {} (tx false (n + 1) e) Demo.world = execute Verif.Demo.host {} (ended e) Demo.world := by
  have hfn : (tx false (n + 1) e).code.fn = some (true, fun kwargs => (chain e).body (n + 1) Verif.Demo.conB (compileModule Verif.Demo.conB spin)
      { name := py! "spin", args := [], deco := .wrapped (py! "__export") Verif.Demo.conB, body := [
        .while (.op (.cmp (py! "Is")) [.const .none, .const .none]) [.pass]] } [] (kwargs.map fun p => (p.1, .data p.2))) := rfl
  refine execute_attempt (tx := tx false (n + 1) e) (code := (ended e).code) ?_
  refine (attempt_spin (tx false (n + 1) e) rfl rfl rfl rfl rfl).trans (Eq.trans ?_ (attempt_spin (ended e) rfl rfl rfl rfl rfl).symm)
  unfold invoke
  rw [if_neg (by simp), hfn, show (ended e).code.fn = some (true, fun _ => .raise e) from rfl,
    show fixKwargs (tx false (n + 1) e).kwargs = .ok [] from rfl, show fixKwargs (ended e).kwargs = .ok [] from rfl]
  simp only [Bool.false_eq_true, if_false]
  rw [if_neg (show ¬ (ended e).contract = py! "submission" by show ¬ Verif.Demo.conB = _; decide)]
  have hs : (setUp (ended e) false loaded2).meter.started = false := by
    show loaded2.meter.started = false
    decide +kernel
  change callEntry Verif.Demo.host (ended e) [] _ (setUp (ended e) false loaded2) = callEntry Verif.Demo.host (ended e) [] _ (setUp (ended e) false loaded2)
  generalize setUp (ended e) false loaded2 = ws at hs
  unfold callEntry
  simp only [if_true, Prog.run]
  cases hr : enter (ended e).contract ws with
  | mk r w1 =>
    have hm := enter_meter (ended e).contract ws
    rw [hr] at hm
    cases r with
    | error e => rfl
    | ok u =>
      have hb : ((chain e).body (n + 1) Verif.Demo.conB (compileModule Verif.Demo.conB spin)
          { name := py! "spin", args := [], deco := .wrapped (py! "__export") Verif.Demo.conB, body := [
            .while (.op (.cmp (py! "Is")) [.const .none, .const .none]) [.pass]] } [] []).run Verif.Demo.host w1 = (.error e, w1) := by
        unfold Chain.body
        obtain ⟨l, hl⟩ : ∃ l, Fun.start (chain e).D ((compileModule Verif.Demo.conB spin).map Top.bound)
          { name := py! "spin", args := [], deco := .wrapped (py! "__export") Verif.Demo.conB, body := [
            .while (.op (.cmp (py! "Is")) [.const .none, .const .none]) [.pass]] } [] [] = .ok l := ⟨_, rfl⟩
        rw [hl]
        simp only [orRaise, execAll, exec]
        exact spin_run (M := (chain e).machine (n + 1)) rfl (n + 1) (by rw [hm]; exact hs)
      simp only [List.map_nil]
      rw [hb]
      rfl

/-- **C102 is false of unmetered code**: whatever the bound is, `spin()` reaches it. -/
theorem C102_refuted_unmetered (n : Nat) (e : PyErr) :
    (execute Verif.Demo.host {} (tx false (n + 1) e) Demo.world).1.map Output.result = .ok (.error e) := by
  rw [spin_over]
  cases e <;> decide +kernel

end GroundDemo
end Verif.Lang
