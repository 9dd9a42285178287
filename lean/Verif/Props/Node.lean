import Verif.Proofs.Node4
import Verif.Props.Replica
/-!
# C96: a node on which everything is deployed through `submission`

`NodeHistory`, `GenuineState`, `FairArgs` are in `Verif/Spec/Node.lean`, the node in `Verif/Model/Node.lean`.
-/
namespace Verif.Lang
open Verif Verif.Spec

/-- **C96, stored code.** On a node that starts from a disk with genuine code only, at every point of every history the
code read for a contract is the compiled form of a source that the compiler accepted under that contract's name and that
constructs storage in declarations only: whoever submits what, whatever contracts do, whatever fails. The same holds
for the disk. -/
theorem C96_genuine {N : Node} (hN : RoundTrip N) {H : Host} {fees : ExecCfg → Tx → Prop} {settled : Driver → Prop} {disk : Disk}
    (hd : GenuineDisk N disk) {w : World} (h : NodeHistory N H fees settled { driver := .open disk } w) :
    GenuineState N w.driver ∧ GenuineDisk N w.driver.disk :=
  ⟨(history_inv hN hd h).state, (history_inv hN hd h).disk⟩

theorem history_around {N : Node} (hN : RoundTrip N) {H : Host} {c : Str} {v0 : PyVal} {b0 : List (Fin 256)} {mod : Module} (hc : Spec.Plain c)
    (hcs : c ≠ py! "submission")
    {disk : Disk} (hd : GenuineDisk N disk) (hcode : disk.get (locOf (codeKey c)) = .ok v0) (hv0 : v0 ≠ .none)
    (hcomp : disk.get (locOf (compiledKey c)) = .ok (.bytes b0)) (hload : N.load b0 = some mod)
    {w : World} (h : NodeHistory N H (fun cfg tx => tx.metered cfg = true → ¬ Under c (balanceKey cfg tx.sender)) (Settled c)
      { driver := .open disk } w) :
    Around H c (GuardFn N H c mod) { driver := .open disk } w := by
  have hpk : PlainKey (c ++ '.' :: py! "__code__") := codeKey_plain hc
  have hpk' : PlainKey (c ++ '.' :: py! "__compiled__") := compiledKey_plain hc
  have hcode0 : CodeIs v0 b0 (stateOf c (.open disk)) := by
    rw [CodeIs, (nodeInv_open c disk).2 _ hpk, (nodeInv_open c disk).2 _ hpk']
    exact ⟨hcode, hcomp⟩
  generalize hw0 : ({ driver := .open disk } : World) = w0 at h
  induction h with
  | start => exact .start _
  | tx hp h1 h2 h3 h4 ih =>
    subst hw0
    rename_i w w' cfg tx o
    have hg := (C96_genuine hN hd hp).1
    have hR := C91_history (R := fun s t => CodeIs v0 b0 s → CodeIs v0 b0 t ∧ True) (fun _ h => ⟨h, trivial⟩)
      (fun _ _ _ h h' hs => h' (h hs).1) (fun b hb => guardFn_keeps hv0 hc (fun _ _ _ => trivial) (fun _ _ _ _ _ _ => trivial) hb)
      (fun s t t' ht h hs => ⟨⟨(ht _ hpk).symm.trans (h hs).1.1, (ht _ hpk').symm.trans (h hs).1.2⟩, trivial⟩) ih hcode0
    have hf : w.driver.find (codeKey c) = .ok v0 ∧ w.driver.find (compiledKey c) = .ok (.bytes b0) := by
      have := hR.1
      rw [CodeIs, stateOf_eq] at this
      exact this
    exact .tx ih h1.auto (nodeTx_outside hg h1 hc hcs hf.1 hv0 hf.2 hload) h3 h4
  | apply nanos hp h1 h2 ih => exact .apply nanos ih h2
  | commit hp h1 h2 ih => exact .commit ih h2
  | rollback hp ih => exact .rollback ih
  | evict keep hp ih => exact .evict keep ih
  | restart hp h1 ih => exact .restart ih h1

/-- **C96, a deployed contract.** Take a contract `c` with code on the disk of such a node, and any relation
between its states that its exported functions keep when they return and that does not speak of the developer. Every
history keeps it: whatever else is submitted, under this name or others, and called, in whatever order and depth. And
its stored code stays what it is. -/
theorem C96_guarded {N : Node} (hN : RoundTrip N) {H : Host} {c : Str} {v0 : PyVal} {b0 : List (Fin 256)} {mod : Module} (hc : Spec.Plain c)
    (hcs : c ≠ py! "submission")
    {R : (Str → Except PyErr PyVal) → (Str → Except PyErr PyVal) → Prop}
    (hdev : ∀ s t, SameButDeveloper s t → R s t) (htrans : ∀ s t u, R s t → R t u → R s u)
    (hF : ∀ body, Exported N.D c mod body → KeepsState H c R body)
    (hplain : ∀ s t t', (∀ n, PlainKey (c ++ '.' :: n) → t n = t' n) → R s t → R s t')
    {disk : Disk} (hd : GenuineDisk N disk) (hcode : disk.get (locOf (codeKey c)) = .ok v0) (hv0 : v0 ≠ .none)
    (hcomp : disk.get (locOf (compiledKey c)) = .ok (.bytes b0)) (hload : N.load b0 = some mod)
    {w : World} (h : NodeHistory N H (fun cfg tx => tx.metered cfg = true → ¬ Under c (balanceKey cfg tx.sender)) (Settled c)
      { driver := .open disk } w) :
    w.driver.find (codeKey c) = .ok v0 ∧ w.driver.find (compiledKey c) = .ok (.bytes b0) ∧ R (stateOf c (.open disk)) (stateOf c w.driver) := by
  have hpk : PlainKey (c ++ '.' :: py! "__code__") := codeKey_plain hc
  have hpk' : PlainKey (c ++ '.' :: py! "__compiled__") := compiledKey_plain hc
  have hcode0 : CodeIs v0 b0 (stateOf c (.open disk)) := by
    rw [CodeIs, (nodeInv_open c disk).2 _ hpk, (nodeInv_open c disk).2 _ hpk']
    exact ⟨hcode, hcomp⟩
  obtain ⟨h1, h2⟩ := C91_history (R := fun s t => CodeIs v0 b0 s → CodeIs v0 b0 t ∧ R s t) (fun s h => ⟨h, hdev s s fun _ _ => rfl⟩)
    (fun _ _ _ h h' hs => ⟨(h' (h hs).1).1, htrans _ _ _ (h hs).2 (h' (h hs).1).2⟩) (fun b hb => guardFn_keeps hv0 hc hdev hF hb)
    (fun s t t' ht h hs => ⟨⟨(ht _ hpk).symm.trans (h hs).1.1, (ht _ hpk').symm.trans (h hs).1.2⟩, hplain _ _ _ ht (h hs).2⟩) (history_around hN hc hcs hd hcode hv0 hcomp hload h) hcode0
  rw [CodeIs, stateOf_eq] at h1
  exact ⟨h1.1, h1.2, h2⟩

/-! ### Examples -/

namespace NodeDemo

/-- The first function says which source a module is from, its decorator for which contract. -/
def write (m : Module) : Str :=
  match funs m with
  | f :: _ => match f.deco with
    | .wrapped _ c => (if f.name = py! "put" then 'A' else 'B') :: c
    | _ => []
  | [] => []

def meaning : Str → Option Module
  | 'A' :: c => some (compileModule c Demo.srcA)
  | 'B' :: c => some (compileModule c Demo.srcB)
  | _ => none

/-- Texts of characters up to 255, one byte each. -/
def encode (t : Str) : Except PyErr (List (Fin 256)) := if t.all (·.toNat < 256) then .ok (t.map fun c => Fin.ofNat 256 c.toNat) else .error .unmodelled

def decode (b : List (Fin 256)) : Str := b.map fun x => Char.ofNat x.val

theorem decode_encode {t : Str} {b : List (Fin 256)} (h : encode t = .ok b) : decode b = t := by
  unfold encode at h
  split at h
  · rename_i ha
    cases h
    unfold decode
    rw [List.map_map]
    refine (List.map_congr_left fun c hc => ?_).trans (List.map_id t)
    have hc : c.toNat < 256 := by simpa using List.all_eq_true.1 ha c hc
    show Char.ofNat (c.toNat % 256) = c
    rw [Nat.mod_eq_of_lt hc, Char.ofNat_toNat]
  · cases h

/-- A node that knows two sources. -/
def node : Node where
  info := AstDemo.info
  D := Demo.data
  cost := fun _ _ => (1, 0)
  topCost := fun _ _ => (1, 0)
  read := fun s => if s = py! "a" then some Demo.srcA else if s = py! "b" then some Demo.srcB else none
  write := write
  load := fun b => meaning (decode b)
  marshal := encode
  importTime := .int 0

theorem read_cases {s : Str} {m : Module} (h : node.read s = some m) : m = Demo.srcA ∨ m = Demo.srcB := by
  change (if s = py! "a" then some Demo.srcA else if s = py! "b" then some Demo.srcB else none) = some m at h
  split at h
  · cases h; exact .inl rfl
  split at h
  · cases h; exact .inr rfl
  · cases h

theorem faithful : RoundTrip node := by
  intro source m name b h _ hb
  show meaning (decode b) = _
  rw [decode_encode hb]
  rcases read_cases h with rfl | rfl <;> rfl

theorem fair_source {s : Str} {m : Module} (h : node.read s = some m) : Disciplined m ∧ Declares m := by
  rcases read_cases h with rfl | rfl
  · refine ⟨Demo.disciplined Verif.Demo.conA _ rfl, ?_⟩
    intro x cls kws h
    simp [Demo.srcA] at h
    rw [h.1]; decide
  · refine ⟨Demo.disciplined Verif.Demo.conB _ rfl, ?_⟩
    intro x cls kws h
    simp [Demo.srcB] at h

/-- Only the submission contract, and money of `bob`. -/
def genesis : Driver := (Verif.Demo.world (Verif.Demo.stored (py! "submission") ++ [(Verif.Demo.bobKey, .int 100)])).driver

def disk0 : Disk := genesis.commit.2.disk

theorem genesis_stable : StablePending genesis := by
  intro p hp
  change p ∈ [(codeKey (py! "submission"), PyVal.str (py! "src")), (makeKey (py! "submission") (py! "__compiled__"), .bytes []),
        (Verif.Demo.bobKey, .int 100)] at hp
  simp only [List.mem_cons, List.not_mem_nil, or_false] at hp
  rcases hp with rfl | rfl | rfl
  · exact ⟨⟨py! "submission", py! "__code__", [], by decide, by decide, by decide, rfl⟩, stable_of (by decide +kernel)⟩
  · exact ⟨⟨py! "submission", py! "__compiled__", [], by decide, by decide, by decide, rfl⟩, stable_of (by decide +kernel)⟩
  · exact ⟨⟨py! "currency", py! "balances", [Verif.Demo.bob], by decide, by decide, by decide, rfl⟩, stable_of (by decide +kernel)⟩

theorem disk0_any (N : Node) : GenuineDisk N disk0 := by
  have hinv : CodeInv N genesis := by
    refine ⟨?_, fun _ _ _ h => (h rfl).elim, ?_, rfl, rfl, by unfold Dict.WF; decide +kernel⟩
    · intro c v hc hs hg
      exfalso
      have h1 : codeKey (py! "submission") ≠ compiledKey c := record_ne_compiled (by decide) (by decide)
      have h2 : makeKey (py! "submission") (py! "__compiled__") ≠ compiledKey c := fun h => hs (compiledKey_inj h).symm
      have h3 : Verif.Demo.bobKey ≠ compiledKey c :=
        userKey_ne (balance_user (N := NoColon) (cfg := {}) (by decide) (by decide) Verif.Demo.bob) hc.2.2.1 (by decide)
      change Dict.get? [(codeKey (py! "submission"), PyVal.str (py! "src")), (makeKey (py! "submission") (py! "__compiled__"), .bytes []),
        (Verif.Demo.bobKey, .int 100)] (compiledKey c) = some v at hg
      rw [Dict.get?_cons, if_neg h1, Dict.get?_cons, if_neg h2, Dict.get?_cons, if_neg h3] at hg
      cases hg
    · intro c t _ _ h ht
      cases h
      exact (ht rfl).elim
  exact (hinv.commit genesis_stable).disk

theorem disk0_genuine : GenuineDisk node disk0 := disk0_any node

/-- `bob` submits a source. -/
def submission (w : World) (name source : Str) : Tx :=
  { sender := Verif.Demo.bob, contract := py! "submission", function := py! "submit_contract",
    kwargs := [(py! "name", .str name), (py! "code", .str source)], stamps := 50, stampCost := 1, metering := some false,
    code := node.codeFor Verif.Demo.host 5 w.driver (py! "submission") (py! "submit_contract") }

/-- `bob` calls `con_b.poke`. -/
def poke (w : World) (v : Int) : Tx :=
  { sender := Verif.Demo.bob, contract := Verif.Demo.conB, function := py! "poke", kwargs := [(py! "v", .int v)], stamps := 50, stampCost := 1,
    code := node.codeFor Verif.Demo.host 5 w.driver Verif.Demo.conB (py! "poke") }

def w0 : World := { driver := .open disk0 }
def w1 : World := (execute Verif.Demo.host {} (submission w0 Verif.Demo.conA (py! "a")) w0).2
def w2 : World := (execute Verif.Demo.host {} (submission w1 Verif.Demo.conB (py! "b")) w1).2
def w3 : World := (execute Verif.Demo.host {} (poke w2 7) w2).2

theorem submission_tx (w : World) {name source : Str} (hn : Spec.Plain name) (hs : name ≠ py! "submission")
    (hfix : fixKwargs (submission w name source).kwargs = .ok (submission w name source).kwargs) :
    NodeTx node Verif.Demo.host w.driver (submission w name source) where
  auto := rfl
  pub := rfl
  code := ⟨5, rfl⟩
  fair := by
    intro _ kwargs hk
    rw [hfix] at hk
    cases hk
    refine ⟨fun n h => ?_, fun s m _ hm => fair_source hm, fun n h => ?_⟩
    · have : PyVal.str name = .str n := h
      cases this
      exact ⟨hn, hs⟩
    · cases h

theorem poke_tx (w : World) (v : Int) : NodeTx node Verif.Demo.host w.driver (poke w v) where
  auto := rfl
  pub := rfl
  code := ⟨5, rfl⟩
  fair := fun h => by cases h

theorem fees : PlainFees {} := ⟨by decide, by decide⟩

theorem ran {cfg : ExecCfg} {t : Tx} {w : World} (h : (execute Verif.Demo.host cfg t w).1.isOk = true) :
    ∃ o, execute Verif.Demo.host cfg t w = (.ok o, (execute Verif.Demo.host cfg t w).2) :=
  (ok_of_isOk h).imp fun _ h => pair_of_fst h

/-- Two submissions and a call: the contracts are deployed and `con_b` has called `con_a`. -/
theorem history : NodeHistory node Verif.Demo.host (fun _ _ => True) (fun _ => True) w0 w3 := by
  obtain ⟨o1, h1⟩ := ran (cfg := {}) (t := submission w0 Verif.Demo.conA (py! "a")) (w := w0) (by decide +kernel)
  obtain ⟨o2, h2⟩ := ran (cfg := {}) (t := submission w1 Verif.Demo.conB (py! "b")) (w := w1) (by decide +kernel)
  obtain ⟨o3, h3⟩ := ran (cfg := {}) (t := poke w2 7) (w := w2) (by decide +kernel)
  exact .tx (.tx (.tx (.start _) (submission_tx w0 (by decide) (by decide) (by decide +kernel)) fees trivial h1)
    (submission_tx w1 (by decide) (by decide) (by decide +kernel)) fees trivial h2) (poke_tx w2 7) fees trivial h3

theorem pending : w3.driver.pendingWrites =
    [(makeKey Verif.Demo.conA (py! "__code__"), .str (py! "Acon_a")), (makeKey Verif.Demo.conA (py! "__compiled__"), .bytes [65, 99, 111, 110, 95, 97]),
     (makeKey Verif.Demo.conA (py! "__owner__"), .none), (makeKey Verif.Demo.conA (py! "__submitted__"), .int 0),
     (makeKey Verif.Demo.conA (py! "__developer__"), .str Verif.Demo.bob),
     (makeKey Verif.Demo.conB (py! "__code__"), .str (py! "Bcon_b")), (makeKey Verif.Demo.conB (py! "__compiled__"), .bytes [66, 99, 111, 110, 95, 98]),
     (makeKey Verif.Demo.conB (py! "__owner__"), .none), (makeKey Verif.Demo.conB (py! "__submitted__"), .int 0),
     (makeKey Verif.Demo.conB (py! "__developer__"), .str Verif.Demo.bob),
     (makeKey Verif.Demo.conA (py! "x"), .int 7), (Verif.Demo.bobKey, .dec { neg := false, coef := 95, exp := 0 })] := by
  decide +kernel

theorem plain_key {c n : Str} (hc : Spec.Plain c) (hn : Spec.Plain n) : PlainKey (makeKey c n) := ⟨c, n, [], hc, hn, by simp, by simp [makeKey, stateKey]⟩

theorem stable : StablePending w3.driver := by
  unfold StablePending
  rw [pending]
  intro p hp
  simp only [List.mem_cons, List.not_mem_nil, or_false] at hp
  rcases hp with rfl | rfl | rfl | rfl | rfl | rfl | rfl | rfl | rfl | rfl | rfl | rfl
  all_goals refine ⟨?_, ?_⟩
  all_goals first
    | exact Or.inl rfl
    | exact stable_of (by decide +kernel)
    | exact plain_key (by decide) (by decide)
    | exact ⟨py! "currency", py! "balances", [Verif.Demo.bob], by decide, by decide, by decide, rfl⟩

/-- The disk after this block. -/
def disk1 : Disk := (w3.driver.hardApply 1).2.disk

theorem block : NodeHistory node Verif.Demo.host (fun _ _ => True) (fun _ => True) w0 { w3 with driver := (w3.driver.hardApply 1).2 } :=
  .apply 1 history stable trivial

/-- `C96_genuine` for this history: all code on the disk is genuine. -/
theorem disk1_genuine : GenuineDisk node disk1 := by
  have h := (C96_genuine faithful disk0_genuine block).2
  dsimp only at h
  unfold disk1
  exact h

/-- And there is some. -/
theorem disk1_code : disk1.get (locOf (codeKey Verif.Demo.conA)) = .ok (.str (py! "Acon_a")) := by decide +kernel

theorem disk1_compiled : disk1.get (locOf (compiledKey Verif.Demo.conA)) = .ok (.bytes [65, 99, 111, 110, 95, 97]) := by decide +kernel

theorem disk1_x : stateOf Verif.Demo.conA (.open disk1) (py! "x") = .ok (.int 7) := by decide +kernel

/-- `C96_guarded` for `con_a`: its `x` is 7 for ever. -/
theorem stays {w : World}
    (h : NodeHistory node Verif.Demo.host (fun cfg tx => tx.metered cfg = true → ¬ Under Verif.Demo.conA (balanceKey cfg tx.sender))
      (Settled Verif.Demo.conA) { driver := .open disk1 } w) :
    w.driver.find (codeKey Verif.Demo.conA) = .ok (.str (py! "Acon_a")) ∧ stateOf Verif.Demo.conA w.driver (py! "x") = .ok (.int 7) := by
  obtain ⟨h1, _, h2⟩ := C96_guarded faithful (R := SetOnce) (by decide) (by decide) (fun s t h v hv hs => (h _ (by decide)).symm.trans hs)
    (fun _ _ _ h h' v hv hs => h' v hv (h v hv hs)) Demo.put_keeps
    (fun _ _ _ h h' v hv hs => (h _ ⟨Verif.Demo.conA, py! "x", [], by decide, by decide, by decide, rfl⟩) ▸ h' v hv hs)
    disk1_genuine disk1_code (by simp) disk1_compiled rfl h
  exact ⟨h1, h2 _ (by simp) disk1_x⟩

/-- Such a history: a second attempt to submit `con_a`, and to set its `x`; both fail. -/
example : ∃ w, NodeHistory node Verif.Demo.host (fun cfg tx => tx.metered cfg = true → ¬ Under Verif.Demo.conA (balanceKey cfg tx.sender))
    (Settled Verif.Demo.conA) { driver := .open disk1 } w ∧ Dict.get? w.driver.pendingWrites Verif.Demo.bobKey ≠ none := by
  have e : ∀ s, ¬ Under Verif.Demo.conA (balanceKey {} s) := by
    rintro s ⟨t, h⟩
    have h : (some 'o' : Option Char) = some 'u' := congrArg (fun l => l[1]?) h
    revert h
    decide
  let v0 : World := { driver := .open disk1 }
  obtain ⟨o1, h1⟩ := ran (cfg := {}) (t := submission v0 Verif.Demo.conA (py! "b")) (w := v0) (by decide +kernel)
  let v1 : World := (execute Verif.Demo.host {} (submission v0 Verif.Demo.conA (py! "b")) v0).2
  obtain ⟨o2, h2⟩ := ran (cfg := {}) (t := poke v1 8) (w := v1) (by decide +kernel)
  exact ⟨_, .tx (.tx (.start _) (submission_tx v0 (by decide) (by decide) (by decide +kernel)) fees (fun _ => e _) h1)
    (poke_tx v1 8) fees (fun _ => e _) h2, by decide +kernel⟩

end NodeDemo

end Verif.Lang
