import Verif.Proofs.Submission3
import Verif.Proofs.Transaction
import Verif.Props.Demo
/-!
# C51 - C53, C65: deploying contracts
-/
namespace Verif
open Spec

/-! ## C51: the rules -/

namespace Spec

/-- The rules for submitting a contract called `name`, in the context in which `submit_contract` runs. -/
structure MaySubmit (H : Host) (f : Frame) (name : Str) : Prop where
  direct : f.caller = f.signer
  length : name.length ≤ 64
  lower : H.strIsLower name = true
  name : py! "con_" <+: name ∨ f.caller = some (py! "sys")

end Spec

theorem strEq_opt {a b : Option Str} : strEq (optStr a) (optStr b) = true ↔ a = b := by
  cases a <;> cases b <;> simp [strEq, optStr]

theorem strEq_opt_str {a : Option Str} {b : Str} : strEq (optStr a) (.str b) = true ↔ a = some b :=
  strEq_opt (b := some b)

/-- What the checks of `submit_contract` amount to. -/
theorem submitContract_run {H : Host} {T : Toolchain} {name code : Str} {owner : PyVal} {top : Prog} {w : World} :
    (MaySubmit H w.current name →
      (submitContract H T name code owner top).run H w = (submit T name code owner (optStr w.current.caller) top).run H w) ∧
    (¬ MaySubmit H w.current name → (submitContract H T name code owner top).run H w = (.error .assertion, w)) := by
  unfold submitContract
  rw [run_perform]
  simp only [Action.run]
  by_cases h1 : (!strEq (optStr w.current.caller) (.str (py! "sys")) && !startsWith name (py! "con_")) = true
  · rw [if_pos h1]
    simp only [Bool.and_eq_true, Bool.not_eq_true'] at h1
    refine ⟨fun h => ?_, fun _ => rfl⟩
    rcases h.name with h2 | h2
    · have := List.isPrefixOf_iff_prefix.2 h2
      unfold startsWith at h1
      rw [this] at h1; cases h1.2
    · have := strEq_opt_str.2 h2
      rw [this] at h1; cases h1.1
  · rw [if_neg h1, run_perform]
    simp only [Action.run]
    have hname : py! "con_" <+: name ∨ w.current.caller = some (py! "sys") := by
      simp only [Bool.and_eq_true, Bool.not_eq_true', not_and, Bool.not_eq_false] at h1
      by_cases hs : w.current.caller = some (py! "sys")
      · exact Or.inr hs
      · left
        refine List.isPrefixOf_iff_prefix.1 (h1 ?_)
        cases hq : strEq (optStr w.current.caller) (.str (py! "sys")) with
        | false => rfl
        | true => exact absurd (strEq_opt_str.1 hq) hs
    by_cases h2 : (!strEq (optStr w.current.caller) (optStr w.current.signer)) = true
    · rw [if_pos h2]
      refine ⟨fun h => ?_, fun _ => rfl⟩
      rw [strEq_opt.2 h.direct] at h2; cases h2
    · rw [if_neg h2]
      have hdir : w.current.caller = w.current.signer := by
        rw [← strEq_opt]; simpa using h2
      by_cases h3 : name.length > 64
      · rw [if_pos h3]
        exact ⟨fun h => absurd h.length (by omega), fun _ => rfl⟩
      · rw [if_neg h3]
        by_cases h4 : (!H.strIsLower name) = true
        · rw [if_pos h4]
          refine ⟨fun h => ?_, fun _ => rfl⟩
          rw [h.lower] at h4; cases h4
        · rw [if_neg h4]
          exact ⟨fun _ => rfl, fun h => absurd ⟨hdir, by omega, by simpa using h4, hname⟩ h⟩

/-- What an accepted `submit` found. -/
theorem submit_ok {H : Host} {T : Toolchain} {name code : Str} {owner dev v : PyVal} {top : Prog} {w w' : World}
    (h : (submit T name code owner dev top).run H w = (.ok v, w')) :
    w.driver.find (codeKey name) = .ok .none ∧ ∃ text, T.parse name code = .ok text := by
  unfold submit at h
  rw [run_perform, rawGet_run, get_result] at h
  cases hf : w.driver.find (codeKey name) with
  | error e => rw [hf] at h; cases h
  | ok u =>
    rw [hf] at h
    simp only at h
    split at h
    · rename_i hu
      cases hp : T.parse name code with
      | error e => rw [hp] at h; cases h
      | ok text => exact ⟨by rw [isNone_iff.1 hu], text, rfl⟩
    · cases h

/-- **C51.** A submission that succeeds obeyed every rule: called directly, a lowercase name of at most 64
characters, starting with `con_` unless the caller is `sys`, no contract of that name, code the compiler
accepts. All worlds, callers, names, sources and constructors. -/
theorem C51_rules {H : Host} {T : Toolchain} {name code : Str} {owner v : PyVal} {top : Prog} {w w' : World}
    (h : (submitContract H T name code owner top).run H w = (.ok v, w')) :
    w.current.caller = w.current.signer ∧ name.length ≤ 64 ∧ H.strIsLower name = true ∧
    (py! "con_" <+: name ∨ w.current.caller = some (py! "sys")) ∧
    w.driver.find (codeKey name) = .ok .none ∧ ∃ text, T.parse name code = .ok text := by
  by_cases hm : MaySubmit H w.current name
  · rw [submitContract_run.1 hm] at h
    exact ⟨hm.direct, hm.length, hm.lower, hm.name, submit_ok h⟩
  · rw [submitContract_run.2 hm] at h; cases h

/-- **C51.** A submission that breaks a rule of the call or the name raises and changes nothing at all. -/
theorem C51_refused {H : Host} {T : Toolchain} {name code : Str} {owner : PyVal} {top : Prog} {w : World}
    (h : w.current.caller ≠ w.current.signer ∨ 64 < name.length ∨ H.strIsLower name = false ∨
      (¬ py! "con_" <+: name ∧ w.current.caller ≠ some (py! "sys"))) :
    (submitContract H T name code owner top).run H w = (.error .assertion, w) := by
  refine submitContract_run.2 fun hm => ?_
  rcases h with h | h | h | h
  · exact h hm.direct
  · exact absurd hm.length (by omega)
  · rw [hm.lower] at h; cases h
  · exact hm.name.elim h.1 h.2

/-- **C51.** A submission under a name that has code raises; only the read of that code is recorded. -/
theorem C51_taken {H : Host} {T : Toolchain} {name code : Str} {owner : PyVal} {top : Prog} {w : World}
    (h : HasCode name w.driver) :
    ∃ e r, (submitContract H T name code owner top).run H w = (.error e, { w with driver := { w.driver with pendingReads := r } }) := by
  by_cases hm : MaySubmit H w.current name
  · rw [submitContract_run.1 hm]
    obtain ⟨v, hv, hne⟩ := h
    unfold submit
    rw [run_perform, rawGet_run, get_result, hv]
    have : v.isNone = false := by
      cases hq : v.isNone with
      | false => rfl
      | true => exact absurd (isNone_iff.1 hq) hne
    simp only [this, Bool.false_eq_true, if_false]
    refine ⟨.exception, (w.driver.get (codeKey name)).2.pendingReads, ?_⟩
    simp only [Prog.run]
    rw [← get_reads]
  · exact ⟨.assertion, w.driver.pendingReads, by rw [submitContract_run.2 hm]⟩

/-- **C51.** Another contract cannot submit: a call of `submit_contract` by contract `c` fails (unless the
signer of the transaction has the same name as `c`), and nothing is written. -/
theorem C51_indirect {H : Host} {T : Toolchain} {name code : Str} {owner : PyVal} {top : Prog} {w : World} {c : Str}
    {k : Except PyErr PyVal → Prog} (hthis : w.current.this = some c) (hc : c ≠ py! "submission")
    (hsig : w.current.signer ≠ some c) (hdepth : w.stack.length < World.maxFrames) :
    ∃ e r, (Prog.call (py! "submission") (submitContract H T name code owner top) k).run H w =
        (k (.error e)).run H { w with driver := { w.driver with pendingReads := r } } ∨
      ∃ f, (Prog.call (py! "submission") (submitContract H T name code owner top) k).run H w =
        (k (.error e)).run H { w with driver := { w.driver with pendingReads := r }, stack := f :: w.stack } := by
  simp only [Prog.run, enter]
  have hne : w.current.this ≠ some (py! "submission") := by rw [hthis]; simpa using hc
  rw [if_pos hne]
  have hreads := getOwner_reads w.driver (py! "submission")
  rcases ho : w.driver.getOwner (py! "submission") with ⟨r, d⟩
  rw [ho] at hreads
  simp only at hreads
  cases r with
  | error e =>
    refine ⟨e, d.pendingReads, .inl ?_⟩
    simp only
    rw [← hreads]
  | ok owner' =>
    simp only
    have hadd : ∀ f : Frame, f.this = some (py! "submission") →
        ({ w with driver := d } : World).addState f = { w with driver := d, stack := (f, 1) :: w.stack } := by
      intro f hf
      unfold World.addState
      rw [if_pos ⟨by rw [hf]; exact hne, hdepth⟩]
    rw [hadd _ rfl]
    split
    · rename_i hx
      split at hx
      · cases hx
        rw [hreads]
        exact ⟨.exception, d.pendingReads, .inr ⟨_, rfl⟩⟩
      · cases hx
    · rename_i hx
      split at hx
      · cases hx
      · cases hx
        refine ⟨.assertion, d.pendingReads, .inl ?_⟩
        have hcur : World.current { w with driver := d, stack :=
            (({ owner := owner', caller := w.current.this, signer := w.current.signer, this := some (py! "submission"),
                entry := w.current.entry, submission := w.current.submission } : Frame), 1) :: w.stack } =
            { owner := owner', caller := w.current.this, signer := w.current.signer, this := some (py! "submission"),
              entry := w.current.entry, submission := w.current.submission } := rfl
        rw [C51_refused (Or.inl (by rw [hcur, hthis]; exact fun h => hsig h.symm))]
        simp only [World.popState]
        rw [hreads]
        rfl

/-- A transaction that calls `submit_contract`. -/
def Spec.submitTx (H : Host) (T : Toolchain) (sender name code : Str) (owner : PyVal) (top : Prog) : Tx :=
  { sender := sender, contract := py! "submission", function := py! "submit_contract",
    kwargs := [(py! "name", .str name), (py! "code", .str code), (py! "owner", owner)], stamps := 50, stampCost := 1,
    code := { top := .ret .none, fn := some (true, fun _ => submitContract H T name code owner top) } }

/-- **C51.** Whole transactions, with any number of stamps, environment, configuration and previous history:
if a transaction calling `submit_contract` succeeds, the name is lowercase, at most 64 characters long, and
starts with `con_` unless the sender is `sys`. -/
theorem C51_tx {H : Host} {T : Toolchain} {cfg : ExecCfg} {tx : Tx} {name code : Str} {owner : PyVal} {top : Prog}
    {w w' : World} {o : Output} (hcon : tx.contract = py! "submission") (hhost : H.imported tx.contract = false ∧ H.importable tx.contract = false)
    (hfn : tx.code.fn = some (true, fun _ => submitContract H T name code owner top))
    (h : execute H cfg tx w = (.ok o, w')) (hs : o.status = 0) :
    name.length ≤ 64 ∧ H.strIsLower name = true ∧ (py! "con_" <+: name ∨ tx.sender = py! "sys") := by
  obtain ⟨v, w1, ha, _, _⟩ := execute_success h hs
  rcases attempt_ok ha with ⟨hh, _⟩ | ⟨w0, w2, p, hp, hf, hrun⟩
  · rw [hhost.1, hhost.2] at hh; simp at hh
  · obtain ⟨r, own, hw0⟩ := txPrepared_frame hp
    obtain ⟨fn, kwargs, w3, sub, hfn', _, rfl, rfl, _, hw3⟩ := fnWorld_cases hf
    rw [hfn] at hfn'
    cases hfn'
    have hbase : w3.base = w0.base := by
      rcases hw3 with ⟨r, rfl, _⟩ | ⟨wt, v, wv, ht, hr, rfl⟩
      · rfl
      · have h1 := (Prog.run_outside H tx.code.top wt).2.2.2.1
        rw [hr] at h1
        obtain ⟨r', hft⟩ := topWorld_frame ht
        simp only [World.addLoaded]
        rw [h1, hft]
    simp only [Spec.entryProg, if_true] at hrun
    simp only [Prog.run, enter] at hrun
    have hcur : (setUp tx (tx.metered cfg) { w3 with base := { w3.base with submission := sub } }).current =
        { w3.base with submission := sub } := rfl
    have hthis : (setUp tx (tx.metered cfg) { w3 with base := { w3.base with submission := sub } }).current.this = some tx.contract := by
      rw [hcur, hbase, hw0]; rfl
    have hcaller : (setUp tx (tx.metered cfg) { w3 with base := { w3.base with submission := sub } }).current.caller = some tx.sender := by
      rw [hcur, hbase, hw0]; rfl
    rw [if_neg (by rw [hthis]; simp)] at hrun
    have hins : (setUp tx (tx.metered cfg) { w3 with base := { w3.base with submission := sub } }).insState =
        setUp tx (tx.metered cfg) { w3 with base := { w3.base with submission := sub } } := rfl
    rw [hins] at hrun
    simp only at hrun
    cases hb : (submitContract H T name code owner top).run H
        (setUp tx (tx.metered cfg) { w3 with base := { w3.base with submission := sub } }) with
    | mk r w4 =>
      rw [hb] at hrun
      cases r with
      | error e => cases hrun
      | ok v' =>
        obtain ⟨_, h1, h2, h3, _⟩ := C51_rules hb
        rw [hcaller] at h3
        exact ⟨h1, h2, h3.imp id (fun h => by simpa using h)⟩


/-! ### What is recorded -/

/-- An API call of contract code leaves the records of every contract as they were. -/
theorem record_act {H : Host} {N : Str → Prop} {n s : Str} (hn : ':' ∉ n) (hs : s ∈ records) {a : Action} (ha : UserAction N a)
    (w : World) : (a.run H w).2.driver.find (makeKey n s) = w.driver.find (makeKey n s) := by
  by_cases hg : ∃ n, a = .guarded n
  · obtain ⟨_, rfl⟩ := hg; rfl
  · refine Steps.rel (R := fun p q => q.2.find (makeKey n s) = p.2.find (makeKey n s)) (fun _ => rfl) (fun _ _ _ h h' => h'.trans h)
      (fun p q hq => ?_) (Action.run_steps H w a fun n h => hg ⟨n, h⟩)
    cases q with
    | write k v txn =>
      have hk : UserKey N k := by
        cases a <;> first | exact absurd hq id | exact absurd ha id | skip
        · obtain ⟨_, rfl⟩ := hq
          obtain ⟨c, v, hc, hv, hx⟩ := ha
          exact ⟨c, v, [], hc, hv, Or.inl rfl, by rw [hx, List.append_nil]⟩
        · obtain ⟨_, s, rfl⟩ := hq
          obtain ⟨c, v, hc, hv, hx⟩ := ha
          exact ⟨c, v, ':' :: s, hc, hv, Or.inr ⟨s, rfl⟩, by rw [HashVar.entry, hx]⟩
        · obtain ⟨_, t, rfl⟩ := hq
          obtain ⟨c, v, hc, hv, hx⟩ := ha
          exact ⟨c, v, ':' :: t, hc, hv, Or.inr ⟨t, rfl⟩, by rw [hx]; simp⟩
      obtain ⟨h1, h2, h3, h4, _⟩ := Driver.set_frame p.1 p.2 k v txn
      obtain ⟨h5, _⟩ := Driver.set_pend p.1 p.2 k v txn
      exact find_of (d := p.2) (d' := (p.2.set p.1 k v txn).2.2) h1 h3 (by rw [h2])
        (by simp only [dget, h5 _ (userKey_ne hk hn hs).symm])
    | mutate k v x y =>
      cases hq
      have hne : makeKey n s ≠ k := (userKey_ne ha hn hs).symm
      show (p.2.mutate _ _ _ _).find (makeKey n s) = _
      unfold Driver.mutate
      simp only
      split
      · exact find_of rfl rfl (by simp only [dget, (mutate_put p.2.cache k v).1 _ hne]) rfl
      · exact find_of rfl rfl (by simp only [dget, (mutate_put p.2.cache k v).1 _ hne])
          (by simp only [dget, (mutate_put p.2.pendingWrites k v).1 _ hne])
    | _ => rfl


/-- Contract code that does not itself deploy leaves the records of every contract as they were. -/
theorem record_run {H : Host} {N : Str → Prop} {n s : Str} (hn : ':' ∉ n) (hs : s ∈ records) (p : Prog) (hp : p.All (UserAction N))
    (w : World) : (p.run H w).2.driver.find (makeKey n s) = w.driver.find (makeKey n s) := by
  refine Prog.run_rel (P := UserAction N) (R := fun w w' => w'.driver.find (makeKey n s) = w.driver.find (makeKey n s))
    (fun _ => rfl) (fun _ _ _ h h' => h'.trans h) (fun a w ha => record_act hn hs ha w) (fun c w => ?_) (fun w => ?_)
    (fun w name dyn => ?_) (fun _ _ => rfl) p hp w
  · obtain ⟨r, s, h⟩ := enter_frame c w
    rw [h]; rfl
  · obtain ⟨s, h⟩ := popState_frame w
    rw [h]
  · obtain ⟨r, h⟩ := importStart_frame H w name dyn
    rw [h]; rfl

/-- An accepted driver write. -/
theorem rawSet_ok {H : Host} {k : Str} {v u : PyVal} {w w1 : World} (h : (Action.rawSet k v).run H w = (.ok u, w1)) :
    (∃ v', normValue v = .ok v' ∧ Dict.get? w1.driver.pendingWrites k = some v') ∧
    ∀ k', k' ≠ k → Dict.get? w1.driver.pendingWrites k' = Dict.get? w.driver.pendingWrites k' := by
  have hp := (Driver.set_pend w.meter w.driver k v false).1
  simp only [Action.run, World.md] at h
  unfold Driver.set at h hp
  revert h hp
  cases encode v with
  | error e => intro h _; cases h
  | ok text =>
    simp only
    rcases w.meter.deductWrite (utf8Len k + text.length) with ⟨r, m⟩
    cases r with
    | error e => intro h _; cases h
    | ok x =>
      simp only
      rcases (if (dget w.driver.pendingReads k).isNone then w.driver.get k else (.ok .none, w.driver)) with ⟨r, d⟩
      cases r with
      | error e => intro h _; cases h
      | ok x =>
        simp only
        cases normValue v with
        | error e => intro h _; cases h
        | ok v' =>
          intro h hp
          cases h
          exact ⟨⟨v', rfl, Dict.get?_set_self _ _ _⟩, hp⟩


namespace Spec

/-- What is pending about a contract after its submission: the code and compiled form produced by the
compiler, the caller as developer, the owner given and the submission time. -/
structure Recorded (T : Toolchain) (name text : Str) (owner time developer : PyVal) (d : Driver) : Prop where
  code : Dict.get? d.pendingWrites (codeKey name) = some (.str text)
  compiled : ∃ blob, T.marshal text = .ok blob ∧ Dict.get? d.pendingWrites (compiledKey name) = some (.bytes blob)
  owner : ∃ o, normValue owner = .ok o ∧ Dict.get? d.pendingWrites (ownerKey name) = some o
  time : ∃ t, normValue time = .ok t ∧ Dict.get? d.pendingWrites (timeKey name) = some t
  developer : ∃ v, normValue developer = .ok v ∧ Dict.get? d.pendingWrites (developerKey name) = some v

end Spec

theorem rec_ne (n : Str) {s t : Str} (hs : s ∈ records) (ht : t ∈ records) (h : s ≠ t) : makeKey n s ≠ makeKey n t :=
  fun he => h (record_inj hs ht he).2

theorem setContract_ok {H : Host} {T : Toolchain} {name text : Str} {owner time developer v : PyVal} {w w' : World}
    (hfree : w.driver.find (codeKey name) = .ok .none)
    (h : (setContract T name text owner time developer).run H w = (.ok v, w')) :
    Recorded T name text owner time developer w'.driver := by
  unfold setContract at h
  rw [run_perform, rawGet_run, get_result, hfree] at h
  simp only [PyVal.isNone, if_true] at h
  cases hm : T.marshal text with
  | error e => rw [hm] at h; cases h
  | ok blob =>
    rw [hm] at h
    simp only at h
    generalize ({ w with driver := (w.driver.get (codeKey name)).2 } : World) = w0 at h
    rw [run_perform] at h
    rcases h1 : (Action.rawSet (codeKey name) (.str text)).run H w0 with ⟨r1, w1⟩
    rw [h1] at h
    cases r1 with
    | error e => cases h
    | ok u1 =>
    simp only at h
    rw [run_perform] at h
    rcases h2 : (Action.rawSet (compiledKey name) (.bytes blob)).run H w1 with ⟨r2, w2⟩
    rw [h2] at h
    cases r2 with
    | error e => cases h
    | ok u2 =>
    simp only at h
    rw [run_perform] at h
    rcases h3 : (Action.rawSet (ownerKey name) owner).run H w2 with ⟨r3, w3⟩
    rw [h3] at h
    cases r3 with
    | error e => cases h
    | ok u3 =>
    simp only at h
    rw [run_perform] at h
    rcases h4 : (Action.rawSet (timeKey name) time).run H w3 with ⟨r4, w4⟩
    rw [h4] at h
    cases r4 with
    | error e => cases h
    | ok u4 =>
    simp only at h
    rw [run_perform] at h
    rcases h5 : (Action.rawSet (developerKey name) developer).run H w4 with ⟨r5, w5⟩
    rw [h5] at h
    cases r5 with
    | error e => cases h
    | ok u5 =>
    simp only [Prog.run] at h
    cases h
    obtain ⟨⟨a1, n1, g1⟩, k1⟩ := rawSet_ok h1
    obtain ⟨⟨a2, n2, g2⟩, k2⟩ := rawSet_ok h2
    obtain ⟨⟨a3, n3, g3⟩, k3⟩ := rawSet_ok h3
    obtain ⟨⟨a4, n4, g4⟩, k4⟩ := rawSet_ok h4
    obtain ⟨⟨a5, n5, g5⟩, k5⟩ := rawSet_ok h5
    cases n1
    cases n2
    have ne : ∀ s t : Str, s ∈ records → t ∈ records → s ≠ t → makeKey name s ≠ makeKey name t := fun s t => rec_ne name
    simp only [codeKey, compiledKey, ownerKey, timeKey, developerKey] at g1 g2 g3 g4 k2 k3 k4 k5
    refine ⟨?_, ⟨blob, hm, ?_⟩, ⟨a3, n3, ?_⟩, ⟨a4, n4, ?_⟩, ⟨a5, n5, g5⟩⟩
    · simp only [codeKey, compiledKey, ownerKey, timeKey]
      rw [k5 _ (ne _ _ (by decide) (by decide) (by decide)), k4 _ (ne _ _ (by decide) (by decide) (by decide)),
        k3 _ (ne _ _ (by decide) (by decide) (by decide)), k2 _ (ne _ _ (by decide) (by decide) (by decide)), g1]
    · simp only [codeKey, compiledKey, ownerKey, timeKey]
      rw [k5 _ (ne _ _ (by decide) (by decide) (by decide)), k4 _ (ne _ _ (by decide) (by decide) (by decide)),
        k3 _ (ne _ _ (by decide) (by decide) (by decide)), g2]
    · simp only [codeKey, compiledKey, ownerKey, timeKey]
      rw [k5 _ (ne _ _ (by decide) (by decide) (by decide)), k4 _ (ne _ _ (by decide) (by decide) (by decide)), g3]
    · simp only [codeKey, compiledKey, ownerKey, timeKey]
      rw [k5 _ (ne _ _ (by decide) (by decide) (by decide)), g4]

namespace Spec

/-- The submission time recorded: what the module binds to `now` (`top` answers `[x]`), else the environment's
`now`; the clock at the import of the driver when that is `None`. -/
def recordedTime (T : Toolchain) (answer env : PyVal) : PyVal :=
  let now := match answer with | .list [x] => x | _ => env
  if now = .none then T.importTime else now

end Spec

theorem ite_isNone {a b : PyVal} : (if a.isNone then b else a) = if a = .none then b else a := by
  cases a <;> simp [PyVal.isNone]

/-- The end of `submit`: everything is recorded, unless the module stored itself meanwhile. -/
theorem setContract_cases {H : Host} {T : Toolchain} {name text : Str} {owner time developer v : PyVal} {w w' : World}
    (h : (setContract T name text owner time developer).run H w = (.ok v, w')) :
    (w.driver.find (codeKey name) = .ok .none ∧ Recorded T name text owner time developer w'.driver) ∨
    (HasCode name w.driver ∧ ∃ r, w' = { w with driver := { w.driver with pendingReads := r } }) := by
  cases hf : w.driver.find (codeKey name) with
  | error e =>
    unfold setContract at h
    rw [run_perform, rawGet_run, get_result, hf] at h
    cases h
  | ok u =>
    by_cases hu : u = .none
    · subst hu
      exact Or.inl ⟨rfl, setContract_ok hf h⟩
    · right
      refine ⟨⟨u, hf, hu⟩, (w.driver.get (codeKey name)).2.pendingReads, ?_⟩
      have hn : u.isNone = false := by
        cases hq : u.isNone with
        | false => rfl
        | true => exact absurd (isNone_iff.1 hq) hu
      unfold setContract at h
      rw [run_perform, rawGet_run, get_result, hf] at h
      simp only [hn, Bool.false_eq_true, if_false, Prog.run] at h
      rw [← get_reads]
      cases h; rfl

/-- An accepted submission: the source is compiled, its top level and constructor run on the state found, and the
contract is recorded. -/
theorem submit_split {H : Host} {T : Toolchain} {name code : Str} {owner v : PyVal} {top : Prog} {w w' : World}
    (h : (submitContract H T name code owner top).run H w = (.ok v, w')) :
    ∃ text answer r w1, T.parse name code = .ok text ∧
      top.run H { w with driver := { w.driver with pendingReads := r } } = (.ok answer, w1) ∧
      (setContract T name text owner (recordedTime T answer (w.envGet (py! "now"))) (optStr w.current.caller)).run H w1 = (.ok v, w') := by
  by_cases hm : MaySubmit H w.current name
  · rw [submitContract_run.1 hm] at h
    obtain ⟨hfree, text, ht⟩ := submit_ok h
    unfold submit at h
    rw [run_perform, rawGet_run, get_result, hfree] at h
    simp only [PyVal.isNone, if_true] at h
    rw [ht] at h
    simp only at h
    rw [Prog.run_bind] at h
    have hw0 : ({ w with driver := (w.driver.get (codeKey name)).2 } : World) =
        { w with driver := { w.driver with pendingReads := (w.driver.get (codeKey name)).2.pendingReads } } := by
      rw [← get_reads]
    rw [hw0] at h
    generalize (w.driver.get (codeKey name)).2.pendingReads = reads at h hw0
    generalize hw0' : ({ w with driver := { w.driver with pendingReads := reads } } : World) = w0 at h
    have henv : (top.run H w0).2.env = w0.env := (Prog.run_outside H top w0).2.2.2.2.1
    have henv0 : w0.env = w.env := by rw [← hw0']
    rcases hr : top.run H w0 with ⟨r, w1⟩
    rw [hr] at h henv
    have hget : w1.envGet (py! "now") = w.envGet (py! "now") := by
      simp only [World.envGet]; rw [show w1.env = w.env from henv.trans henv0]
    cases r with
    | error e => cases h
    | ok x =>
      refine ⟨text, x, reads, w1, ht, by rw [hw0', hr], ?_⟩
      simp only at h
      split at h
      · rename_i hx; cases hx
      · rename_i y hx
        cases hx
        unfold storeContract at h
        rw [ite_isNone] at h
        exact h
      · rename_i hx hy
        cases hy
        rw [run_perform] at h
        simp only [Action.run] at h
        rw [hget] at h
        unfold storeContract at h
        rw [ite_isNone] at h
        have : recordedTime T x (w.envGet (py! "now")) =
            if w.envGet (py! "now") = .none then T.importTime else w.envGet (py! "now") := by
          unfold recordedTime
          split
          · rename_i y; exact absurd rfl (hx y)
          · rfl
        rw [this]
        exact h
  · rw [submitContract_run.2 hm] at h; cases h

/-- **C51, C65.** What an accepted submission leaves, for every top level and constructor (`top`), which runs on the
state found. If it leaves the name free, what is pending about the contract is the compiler's output, the caller as
developer, the owner given and the recorded time. Otherwise (it submitted the name itself) the outer submission
writes nothing. -/
theorem C51_record {H : Host} {T : Toolchain} {name code : Str} {owner v : PyVal} {top : Prog} {w w' : World}
    (h : (submitContract H T name code owner top).run H w = (.ok v, w')) :
    ∃ text answer r w1, T.parse name code = .ok text ∧
      top.run H { w with driver := { w.driver with pendingReads := r } } = (.ok answer, w1) ∧
      ((w1.driver.find (codeKey name) = .ok .none ∧
        Recorded T name text owner (recordedTime T answer (w.envGet (py! "now"))) (optStr w.current.caller) w'.driver) ∨
       (HasCode name w1.driver ∧ ∃ r, w' = { w1 with driver := { w1.driver with pendingReads := r } })) := by
  obtain ⟨text, answer, r, w1, h1, h2, h3⟩ := submit_split h
  exact ⟨text, answer, r, w1, h1, h2, setContract_cases h3⟩

/-- **C51.** In particular: if the top level and constructor are contract code that does not itself deploy, and the
name has no colon, everything is recorded, the caller as developer. -/
theorem C51_recorded {H : Host} {T : Toolchain} {N : Str → Prop} {name code : Str} {owner v : PyVal} {top : Prog} {w w' : World}
    (hname : ':' ∉ name) (htop : top.All (UserAction N))
    (h : (submitContract H T name code owner top).run H w = (.ok v, w')) :
    ∃ text answer r w1, T.parse name code = .ok text ∧
      top.run H { w with driver := { w.driver with pendingReads := r } } = (.ok answer, w1) ∧
      Recorded T name text owner (recordedTime T answer (w.envGet (py! "now"))) (optStr w.current.caller) w'.driver := by
  obtain ⟨_, _, _, _, hfree, _⟩ := C51_rules h
  obtain ⟨text, answer, r, w1, h1, h2, h3 | ⟨⟨u, hu, hne⟩, _⟩⟩ := C51_record h
  · exact ⟨text, answer, r, w1, h1, h2, h3.2⟩
  · exfalso
    have hrec := record_run (H := H) (s := py! "__code__") hname (by decide) top htop
      { w with driver := { w.driver with pendingReads := r } }
    rw [h2] at hrec
    have h0 : ({ w.driver with pendingReads := r } : Driver).find (makeKey name (py! "__code__")) = .ok .none := hfree
    rw [show w1.driver.find (makeKey name (py! "__code__")) = .ok u from hu] at hrec
    simp only at hrec
    rw [h0] at hrec
    cases hrec
    exact hne rfl


/-! ### Concrete submissions -/

namespace Demo

/-- A compiler that accepts everything as it is. -/
def tools : Toolchain := { parse := fun _ src => .ok src, marshal := fun _ => .ok [], importTime := .int 7 }

/-- The submission contract is deployed, `bob` has 100. -/
def w1 : World := world (stored (py! "submission") ++ [(bobKey, .int 100)])

/-- `bob` submits `con_b`. -/
def submitB (code : Str) (top : Prog) : Tx := submitTx host tools bob (py! "con_b") code .none top

/-- A constructor that itself submits `con_b`. -/
def nested : Prog :=
  .call (py! "submission") (submitContract host tools (py! "con_b") (py! "inner") .none (.ret .none)) (andThen (.ret .none))

end Demo

open Demo in
/-- The accepted case: code, developer and time are there; a second submission of the name, a name without
`con_`, and one in capitals are refused. -/
example :
    let t := { submitB (py! "outer") (.ret .none) with environment := [(py! "now", .int 3)] }
    let r := execute host {} t w1
    r.1.map Output.status = .ok 0 ∧
    r.2.driver.find (codeKey (py! "con_b")) = .ok (.str (py! "outer")) ∧
    r.2.driver.find (developerKey (py! "con_b")) = .ok (.str bob) ∧
    r.2.driver.find (timeKey (py! "con_b")) = .ok (.int 3) ∧
    (execute host {} t r.2).1.map Output.status = .ok 1 ∧
    (execute host {} (submitTx host tools bob (py! "b") (py! "x") .none (.ret .none)) w1).1.map Output.status = .ok 1 ∧
    (execute host {} (submitTx host tools bob (py! "con_B") (py! "x") .none (.ret .none)) w1).1.map Output.status = .ok 1 := by
  decide +kernel

open Demo in
/-- **C51 fails for constructors that deploy.** The record of an accepted submission need not be what was
submitted: a constructor that submits the same name first wins, and the outer submission then reports
success although it stored nothing (`set_contract` checks again, and does nothing). -/
theorem C51_nested_refuted :
    let r := execute host {} (submitB (py! "outer") nested) w1
    r.1.map Output.status = .ok 0 ∧ r.2.driver.find (codeKey (py! "con_b")) = .ok (.str (py! "inner")) := by
  decide +kernel


/-! ## C52: deployed code does not change -/

/-- **C52.** While contract code runs (any of it, with any submissions and hand-overs, whether it succeeds or
raises), what is read as code, compiled form, owner and submission time of a deployed contract does not
change. -/
theorem C52_running {H : Host} {T : Toolchain} {N : Str → Prop} {n s : Str} (hn : ':' ∉ n) {p : Prog} (hp : UserProg H T N p)
    {w : World} (hc : HasCode n w.driver) (hs : s ∈ fixedRecords) :
    (p.run H w).2.driver.find (makeKey n s) = w.driver.find (makeKey n s) :=
  (hp.kept hn w).find hc hs

/-- **C52.** The same for whole transactions without auto-commit: successful, failed, and those from which
an exception escapes. -/
theorem C52_tx {H : Host} {T : Toolchain} {N : Str → Prop} {n s : Str} (hn : ':' ∉ n) {cfg : ExecCfg} (hN : N cfg.currency)
    (hb : VarName cfg.balances) {tx : Tx} (hcode : UserCode H T N tx.code) (hauto : tx.autoCommit = false) {w : World}
    (hc : HasCode n w.driver) (hs : s ∈ fixedRecords) :
    (execute H cfg tx w).2.driver.find (makeKey n s) = w.driver.find (makeKey n s) := by
  have h := execute_inv (P := fun d => Kept N n w.driver d) hn hN hb hcode (fun _ _ h h' => h'.trans h)
    (fun d tx ev h => ⟨h.disk, h.bypass, h.deltas, h.cache, h.fixed, h.keys⟩)
    (fun h => by rw [hauto] at h; cases h) (fun h => by rw [hauto] at h; cases h) w
    (fun d h => ⟨h.disk, h.bypass, h.deltas, h.cache, fun _ _ _ => rfl, fun _ h => Or.inl h⟩) (Kept.refl _ _ _)
  exact h.find hc hs

/-- One step of a node's history. -/
theorem Committed.step {H : Host} {T : Toolchain} {n : Str} (hd : '.' ∉ n) (hc : ':' ∉ n) {u : Str → PyVal} {w : World}
    (h : Committed n u w.driver) (st : NodeStep) (hok : st.OK H T) : Committed n u (st.run H w).driver := by
  cases st with
  | tx cfg t =>
    obtain ⟨h1, h2, h3⟩ := hok
    refine execute_inv (P := Committed n u) hc (N := NoColon) h2 h3 h1 (fun d d' hk h => h.kept hd hc hk)
      (fun d tx ev h => h.records tx ev) (fun _ d h => h.commit) (fun _ d h => ?_) w (fun d h' => ?_) h
    · exact h.discard _ _ _
    · exact ⟨h.pend, h'.deltas, h'.cache, h'.disk, h'.code⟩
  | commit => exact h.commit
  | hardApply nanos => exact h.hardApply hd hc nanos
  | rollback => exact h.discard _ _ _
  | rollbackTo nanos => exact h.rollbackTo hd hc nanos
  | flushCache => exact h.discard _ _ _
  | evict keep => exact h.evict keep

/-- **C52.** Once a contract is on disk and nothing is uncommitted, no history of transactions,
commits, block applications, roll-backs, cache flushes and evictions changes what is read as its code,
compiled form, owner or submission time (up to `==`, as for every value read back from disk).
Histories in which some contract has ":" in its name are excluded (`C52_refuted`: then it is false). -/
theorem C52_history {H : Host} {T : Toolchain} {n : Str} (hd : '.' ∉ n) (hc : ':' ∉ n) {w : World} {u : Str → PyVal}
    (hp : w.driver.pendingWrites = []) (hcache : w.driver.cache = []) (hdel : w.driver.pendingDeltas = [])
    (hu : ∀ s ∈ fixedRecords, w.driver.find (makeKey n s) = .ok (u s)) (hcode : u (py! "__code__") ≠ .none)
    (ss : List NodeStep) (hok : ∀ st ∈ ss, st.OK H T) {s : Str} (hs : s ∈ fixedRecords) :
    ∃ v, (nodeAfter H w ss).driver.find (makeKey n s) = .ok v ∧ PyEq (u s) v := by
  have hfind : ∀ s ∈ fixedRecords, w.driver.disk.get (n, [s]) = .ok (u s) := by
    intro s hs
    have h := hu s hs
    unfold Driver.find at h
    rw [hp, hcache] at h
    simp only [dget, Dict.get?, Option.getD, PyVal.isNone, if_true, ite_self] at h
    unfold Driver.fromDisk at h
    rwa [loc_record hd hc (fixed_records hs)] at h
  have h0 : Committed n u w.driver :=
    ⟨by rw [hp]; exact fun k hk => (by cases hk), by rw [hdel]; exact fun p hp => (by cases hp),
     by rw [hcache]; exact fun _ _ => Or.inl rfl, fun s hs => ⟨u s, hfind s hs, PyEq.refl _⟩, hcode⟩
  have h1 : Committed n u (nodeAfter H w ss).driver := by
    unfold nodeAfter
    clear hp hcache hdel hu hfind
    induction ss generalizing w with
    | nil => exact h0
    | cons st ss ih =>
      rw [List.foldl_cons]
      exact ih (fun st h => hok st (by simp [h])) (h0.step hd hc st (hok st (by simp)))
  exact h1.find hd hc hs


namespace Demo

/-- `bob` submits `name`. -/
def sub (name code : Str) : Tx := submitTx host tools bob name code .none (.ret .none)

/-- `bob` (or another sender) hands a contract over. -/
def hand (sender contract new : Str) : Tx :=
  { sender := sender, contract := py! "submission", function := py! "change_developer", stamps := 50, stampCost := 1,
    metering := some false,
    kwargs := [(py! "contract", .str contract), (py! "new_developer", .str new)],
    code := { top := .ret .none, fn := some (true, fun _ => changeDeveloper contract (.str new)) } }

end Demo

open Demo in
/-- A history as in `C52_history`: `con_b` is deployed and committed; then come another attempt to
submit it, a hand-over, a commit, a roll-back. The code is still the first. -/
example :
    let r := execute host {} (sub (py! "con_b") (py! "one")) w1
    let w := { r.2 with driver := r.2.driver.commit.2 }
    let steps : List NodeStep := [.tx {} (sub (py! "con_b") (py! "two")), .tx {} (hand bob (py! "con_b") (py! "eve")), .commit, .rollback]
    r.1.map Output.status = .ok 0 ∧ w.driver.pendingWrites = [] ∧ w.driver.cache = [] ∧ w.driver.pendingDeltas = [] ∧
    w.driver.find (codeKey (py! "con_b")) = .ok (.str (py! "one")) ∧
    (nodeAfter host w steps).driver.find (codeKey (py! "con_b")) = .ok (.str (py! "one")) ∧
    (nodeAfter host w steps).driver.find (developerKey (py! "con_b")) = .ok (.str (py! "eve")) := by
  decide +kernel

/-- Those transactions are contract code in the sense of `C52_history`. -/
example (name code : Str) (h : ':' ∉ name) : (NodeStep.tx {} (Demo.sub name code)).OK Demo.host Demo.tools := by
  refine ⟨⟨.ret _, fun fn hfn kwargs => ?_⟩, by decide, by decide⟩
  cases hfn
  exact .submit h (.ret _)

open Demo in
/-- **C52 fails for names with a colon.** In one block, `con_a` is submitted and then, by anybody, a
contract called `con_a:b`. Both are accepted. Their keys share a place on disk, and after the commit the
code of `con_a` is the code of the second. -/
theorem C52_refuted :
    let r1 := execute host {} (sub (py! "con_a") (py! "good")) w1
    let r2 := execute host {} (sub (py! "con_a:b") (py! "evil")) r1.2
    r1.1.map Output.status = .ok 0 ∧ r2.1.map Output.status = .ok 0 ∧
    r2.2.driver.find (codeKey (py! "con_a")) = .ok (.str (py! "good")) ∧
    r2.2.driver.commit.1.isOk = true ∧
    r2.2.driver.commit.2.find (codeKey (py! "con_a")) = .ok (.str (py! "evil")) := by
  decide +kernel

open Demo in
/-- **C52 fails for storage built in an expression.** `Variable(contract='con_b', name='__code__').set(…)` is accepted by
the compiler (`C45_refuted`); at run time it replaces the code of a deployed contract, here from a contract of anybody. -/
theorem C52_forged_refuted :
    let w := world (stored conA ++ stored (py! "con_b") ++ [(bobKey, .int 100)])
    let forged : Variable := .make (py! "con_b") (py! "__code__")
    let r := execute host {} (Demo.tx (Demo.step (.varSet forged (.str (py! "evil"))) (.ret .none))) w
    w.driver.find (codeKey (py! "con_b")) = .ok (.str (py! "src")) ∧ r.1.map Output.status = .ok 0 ∧
    r.2.driver.find (codeKey (py! "con_b")) = .ok (.str (py! "evil")) := by
  decide +kernel

/-! ## C53: handing a contract over -/

/-- **C53.** A hand-over that succeeds was called by the recorded developer. -/
theorem C53_only_developer {H : Host} {contract : Str} {new v : PyVal} {w w' : World}
    (h : (changeDeveloper contract new).run H w = (.ok v, w')) :
    w.driver.find (developerKey contract) = .ok (optStr w.current.caller) := by
  unfold changeDeveloper at h
  rw [run_perform, rawGet_run, get_result] at h
  cases hf : w.driver.find (developerKey contract) with
  | error e => rw [hf] at h; cases h
  | ok dev =>
    rw [hf] at h
    simp only at h
    rw [run_perform] at h
    simp only [Action.run] at h
    split at h
    · cases h
    · rename_i hq
      have hcur : World.current { w with driver := (w.driver.get (developerKey contract)).2 } = w.current := rfl
      rw [hcur] at hq
      simp only [Bool.not_eq_true', Bool.not_eq_false] at hq
      cases hcl : w.current.caller with
      | none => rw [hcl] at hq; cases dev <;> simp_all [strEq, optStr]
      | some c => rw [hcl] at hq; cases dev <;> simp_all [strEq, optStr]

/-- **C53.** A hand-over by anyone else raises, and writes nothing. -/
theorem C53_refused {H : Host} {contract : Str} {new : PyVal} {w : World}
    (h : w.driver.find (developerKey contract) ≠ .ok (optStr w.current.caller)) :
    ∃ e r, (changeDeveloper contract new).run H w = (.error e, { w with driver := { w.driver with pendingReads := r } }) := by
  rcases hr : (changeDeveloper contract new).run H w with ⟨r, w'⟩
  cases r with
  | ok v => exact absurd (C53_only_developer hr) h
  | error e =>
    unfold changeDeveloper at hr
    rw [run_perform, rawGet_run, get_result] at hr
    cases hf : w.driver.find (developerKey contract) with
    | error e =>
      rw [hf] at hr
      cases hr
      exact ⟨e, (w.driver.get (developerKey contract)).2.pendingReads, by rw [← get_reads]⟩
    | ok dev =>
      rw [hf] at hr
      simp only at hr
      rw [run_perform] at hr
      simp only [Action.run] at hr
      have hcur : World.current { w with driver := (w.driver.get (developerKey contract)).2 } = w.current := rfl
      rw [hcur] at hr
      split at hr
      · cases hr
        exact ⟨_, (w.driver.get (developerKey contract)).2.pendingReads, by rw [← get_reads]⟩
      · rename_i hq
        exfalso
        refine h ?_
        rw [hf]
        simp only [Bool.not_eq_true', Bool.not_eq_false] at hq
        cases hcl : w.current.caller with
        | none => rw [hcl] at hq; cases dev <;> simp_all [strEq, optStr]
        | some c => rw [hcl] at hq; cases dev <;> simp_all [strEq, optStr]

/-- **C53.** A hand-over changes the developer record and nothing else: afterwards the new developer is
pending, and every other key has the pending write it had; disk and cache are untouched. -/
theorem C53_only_record {H : Host} {contract : Str} {new v : PyVal} {w w' : World}
    (h : (changeDeveloper contract new).run H w = (.ok v, w')) :
    (∃ x, normValue new = .ok x ∧ Dict.get? w'.driver.pendingWrites (developerKey contract) = some x) ∧
    (∀ k, k ≠ developerKey contract → Dict.get? w'.driver.pendingWrites k = Dict.get? w.driver.pendingWrites k) ∧
    w'.driver.disk = w.driver.disk ∧ w'.driver.cache = w.driver.cache := by
  unfold changeDeveloper at h
  rw [run_perform, rawGet_run, get_result] at h
  cases hf : w.driver.find (developerKey contract) with
  | error e => rw [hf] at h; cases h
  | ok dev =>
    rw [hf] at h
    simp only at h
    rw [run_perform] at h
    simp only [Action.run] at h
    split at h
    · cases h
    · rw [run_perform] at h
      have hpr : (w.driver.get (developerKey contract)).2.pendingWrites = w.driver.pendingWrites ∧
          (w.driver.get (developerKey contract)).2.disk = w.driver.disk ∧
          (w.driver.get (developerKey contract)).2.cache = w.driver.cache := by
        rw [get_reads]; exact ⟨rfl, rfl, rfl⟩
      rcases hs : (Action.rawSet (developerKey contract) new).run H { w with driver := (w.driver.get (developerKey contract)).2 }
        with ⟨r, w1⟩
      rw [hs] at h
      cases r with
      | error e => cases h
      | ok u =>
        cases h
        obtain ⟨h1, h2⟩ := rawSet_ok hs
        have hfr := Driver.set_frame w.meter (w.driver.get (developerKey contract)).2 (developerKey contract) new false
        simp only [Action.run, World.md] at hs
        have hw : w'.driver = ((w.driver.get (developerKey contract)).2.set w.meter (developerKey contract) new false).2.2 := by
          revert hs
          rcases (w.driver.get (developerKey contract)).2.set w.meter (developerKey contract) new false with ⟨r, m, d⟩
          intro hs
          cases r <;> cases hs
          rfl
        refine ⟨h1, fun k hk => (h2 k hk).trans (by rw [hpr.1]), ?_, ?_⟩
        · rw [hw, hfr.1, hpr.2.1]
        · rw [hw, hfr.2.1, hpr.2.2]

open Demo in
/-- The developer hands over; then only the new developer can. -/
example :
    let r1 := execute host {} (sub (py! "con_b") (py! "one")) w1
    let r2 := execute host {} (hand bob (py! "con_b") (py! "eve")) r1.2
    let r3 := execute host {} (hand bob (py! "con_b") bob) r2.2
    let r4 := execute host {} (hand (py! "eve") (py! "con_b") (py! "kim")) r3.2
    r2.1.map Output.status = .ok 0 ∧ r3.1.map Output.status = .ok 1 ∧ r4.1.map Output.status = .ok 0 ∧
    r4.2.driver.find (developerKey (py! "con_b")) = .ok (.str (py! "kim")) := by
  decide +kernel

open Demo in
/-- **C53 fails for names with a colon.** `bob` hands the committed contract `con_b` to `eve`, and in the same
block calls `change_developer('con_b:x', …)`. No such contract was ever deployed; the check reads the
committed record of `con_b`, which still says `bob`. After the commit the developer of `con_b` is whoever
`bob` named: `eve` lost the contract without ever calling anything. -/
theorem C53_refuted :
    let r1 := execute host {} (sub (py! "con_b") (py! "one")) w1
    let w := { r1.2 with driver := r1.2.driver.commit.2 }
    let r2 := execute host {} (hand bob (py! "con_b") (py! "eve")) w
    let r3 := execute host {} (hand bob (py! "con_b:x") (py! "kim")) r2.2
    r2.1.map Output.status = .ok 0 ∧ r3.1.map Output.status = .ok 0 ∧
    r3.2.driver.find (developerKey (py! "con_b")) = .ok (.str (py! "eve")) ∧
    r3.2.driver.commit.2.find (developerKey (py! "con_b")) = .ok (.str (py! "kim")) := by
  decide +kernel

/-! ## C65: the recorded submission time -/

/-- **C65.** The submission time recorded by an accepted submission is the environment's `now`, if there is one, the
module and its constructor do not bind the name `now`, and they do not submit the contract themselves. -/
theorem C65_time {H : Host} {T : Toolchain} {name code : Str} {owner v t : PyVal} {top : Prog} {w w' : World}
    (hnow : w.envGet (py! "now") = t) (ht : t ≠ .none)
    (hplain : ∀ r x, (top.run H { w with driver := { w.driver with pendingReads := r } }).1 ≠ .ok (.list [x]))
    (hself : ∀ r, ¬ HasCode name (top.run H { w with driver := { w.driver with pendingReads := r } }).2.driver)
    (h : (submitContract H T name code owner top).run H w = (.ok v, w')) :
    ∃ t', normValue t = .ok t' ∧ Dict.get? w'.driver.pendingWrites (timeKey name) = some t' := by
  obtain ⟨text, answer, r, w1, _, hx, ⟨_, h3⟩ | ⟨h3, _⟩⟩ := C51_record h
  · have : recordedTime T answer (w.envGet (py! "now")) = t := by
      unfold recordedTime
      split
      · rename_i y; exact absurd (by rw [hx]) (hplain r y)
      · simp only; rw [hnow, if_neg ht]
    rw [this] at h3
    exact h3.time
  · exact absurd h3 (by have := hself r; rw [hx] at this; exact this)

/-- **C65, the rest.** A module that binds `now` is recorded with the time it says (unless it submits itself). -/
theorem C65_bound {H : Host} {T : Toolchain} {name code : Str} {owner v x : PyVal} {top : Prog} {w w' : World}
    (hx : ∀ r, (top.run H { w with driver := { w.driver with pendingReads := r } }).1 = .ok (.list [x])) (hne : x ≠ .none)
    (hself : ∀ r, ¬ HasCode name (top.run H { w with driver := { w.driver with pendingReads := r } }).2.driver)
    (h : (submitContract H T name code owner top).run H w = (.ok v, w')) :
    ∃ t', normValue x = .ok t' ∧ Dict.get? w'.driver.pendingWrites (timeKey name) = some t' := by
  obtain ⟨text, answer, r, w1, _, hr, ⟨_, h3⟩ | ⟨h3, _⟩⟩ := C51_record h
  · have h1 := hx r
    rw [hr] at h1
    cases h1
    have : recordedTime T (.list [x]) (w.envGet (py! "now")) = x := by
      unfold recordedTime
      simp only
      rw [if_neg hne]
    rw [this] at h3
    exact h3.time
  · exact absurd h3 (by have := hself r; rw [hr] at this; exact this)

open Demo in
/-- **C65 fails in general.** A contract whose top level says `now = 1999` is recorded with the submission
time 1999, whatever the block's time. -/
theorem C65_refuted :
    let t := { submitB (py! "src") (.ret (.list [.int 1999])) with environment := [(py! "now", .int 2026)] }
    let r := execute host {} t w1
    r.1.map Output.status = .ok 0 ∧ r.2.driver.find (timeKey (py! "con_b")) = .ok (.int 1999) := by
  decide +kernel

open Demo in
/-- Without `now` in the environment the time recorded is the clock at the start of the process. -/
example : (execute host {} (submitB (py! "src") (.ret .none)) w1).2.driver.find (timeKey (py! "con_b")) = .ok (.int 7) := by
  decide +kernel

end Verif
