import Verif.Proofs.Random
import Verif.Proofs.Transaction
import Verif.Props.Isolation
/-!
# Properties C48, C49: the random module
-/
namespace Verif

/-- Calls of the random module made in a transaction, each with its answer, in order. -/
def Spec.txTrace (H : Host) (cfg : ExecCfg) (tx : Tx) (w : World) : List (Action × Except PyErr PyVal) :=
  (Spec.txEvents H cfg tx w).filterMap fun e =>
    match e.2 with
    | .act a => if Spec.isRandom a then some (a, (a.run H e.1).1) else none
    | _ => none

theorem traceOf_append (H : Host) (a b : List (World × Spec.Ev)) : traceOf H (a ++ b) = traceOf H a ++ traceOf H b := by
  unfold traceOf; rw [List.filterMap_append]

theorem txTrace_follows (H : Host) (cfg : ExecCfg) (tx : Tx) (w : World) (hs : w.seeded = false) :
    ∃ g', Follows H (Dict.update w.env tx.environment) (traceOf H (Spec.txEvents H cfg tx w)) none g' := by
  unfold Spec.txEvents Spec.txRuns
  split
  · exact ⟨none, rfl⟩
  · rename_i w0 hw0
    split at hw0
    · cases hw0
    · obtain ⟨r, owner, h0⟩ := txPrepared_frame hw0
      have hr0 : RandRel w0 none := by rw [h0]; exact hs
      have he0 : w0.env = Dict.update w.env tx.environment := by rw [h0]
      rw [List.flatMap_append, traceOf_append]
      cases ht : Spec.topWorld H tx w0 with
      | none =>
        cases hf : Spec.fnWorld H cfg tx w0 with
        | none => exact ⟨none, rfl⟩
        | some y =>
          obtain ⟨w2, p⟩ := y
          obtain ⟨fn, kwargs, w1, sub, _, _, rfl, rfl, _, hw1⟩ := fnWorld_cases hf
          rcases hw1 with ⟨r, rfl, _⟩ | ⟨wt, v, wv, ht', _⟩
          · obtain ⟨g', f1, _⟩ := Prog.run_random H (Spec.entryProg tx fn kwargs)
              (setUp tx (tx.metered cfg) { w0 with
                driver := { w0.driver with pendingReads := r }, base := { w0.base with submission := sub } }) none hr0
            refine ⟨g', ?_⟩
            have : (setUp tx (tx.metered cfg) { w0 with
                driver := { w0.driver with pendingReads := r }, base := { w0.base with submission := sub } }).env = Dict.update w.env tx.environment := he0
            rw [this] at f1
            simpa [traceOf] using f1
          · rw [ht] at ht'; cases ht'
      | some wt =>
        obtain ⟨r, hwt⟩ := topWorld_frame ht
        have hrt : RandRel wt none := by rw [hwt]; exact hr0
        have het : wt.env = Dict.update w.env tx.environment := by rw [hwt]; exact he0
        obtain ⟨g1, f1, f2, f3⟩ := Prog.run_random H tx.code.top wt none hrt
        rw [het] at f1 f3
        cases hf : Spec.fnWorld H cfg tx w0 with
        | none =>
          refine ⟨g1, ?_⟩
          simpa [traceOf] using f1
        | some y =>
          obtain ⟨w2, p⟩ := y
          obtain ⟨fn, kwargs, w1, sub, _, _, rfl, rfl, _, hw1⟩ := fnWorld_cases hf
          rcases hw1 with ⟨r, _, hn⟩ | ⟨wt', v, wv, ht', hrun, rfl⟩
          · rw [ht] at hn; cases hn
          · rw [ht] at ht'
            cases ht'
            rw [hrun] at f2 f3
            obtain ⟨g', k1, _⟩ := Prog.run_random H (Spec.entryProg tx fn kwargs)
              (setUp tx (tx.metered cfg) { wv.addLoaded tx.contract with
                base := { (wv.addLoaded tx.contract).base with submission := sub } }) g1 f2
            refine ⟨g', ?_⟩
            have : (setUp tx (tx.metered cfg) { wv.addLoaded tx.contract with
                base := { (wv.addLoaded tx.contract).base with submission := sub } }).env = Dict.update w.env tx.environment := f3
            rw [this] at k1
            have := f1.append k1
            simpa [traceOf] using this

/-- **C48, one program.** From an unseeded generator, the answers of the random module are those of the reference
machine, which sees only the block environment and the requests made of it -- whatever else the program
does in between, in whatever contracts, and whatever Python's generator was before. -/
theorem C48_answers (H : Host) (p : Prog) (w : World) (hs : w.seeded = false) :
    (Spec.randomTrace H p w).map Prod.snd = (Spec.answers H w.env none ((Spec.randomTrace H p w).map Prod.fst)).1 := by
  obtain ⟨g', h, _⟩ := Prog.run_random H p w none hs
  unfold Follows at h
  exact (congrArg Prod.fst h).symm

/-- **C48, a transaction.** After any history of transactions that returned, all random answers of a transaction
-- at module load and in its function -- are those of the reference machine on the transaction's own
environment. (Histories in which `execute` raised are excluded: `C48_refuted`.) -/
theorem C48_transaction (H : Host) (cfg : ExecCfg) (tx : Tx) {w : World} (hw : Spec.Served H w) :
    (Spec.txTrace H cfg tx w).map Prod.snd =
      (Spec.answers H (Dict.update [] tx.environment) none ((Spec.txTrace H cfg tx w).map Prod.fst)).1 := by
  obtain ⟨_, hs, he, _⟩ := hw.shape
  obtain ⟨g', h⟩ := txTrace_follows H cfg tx w hs
  unfold Follows at h
  rw [he] at h
  exact (congrArg Prod.fst h).symm

/-- **C48, reproducibility.** Two transactions, possibly of different contracts with different states, histories and
callers, that make the same requests of the random module get the same answers as soon as their
environments agree on `block_num`, `block_hash`, `__input_hash`, `AUXILIARY_SALT` and the salts used. -/
theorem C48_reproducible (H : Host) (cfg cfg' : ExecCfg) (tx tx' : Tx) {w w' : World}
    (hw : Spec.Served H w) (hw' : Spec.Served H w')
    (hreq : (Spec.txTrace H cfg tx w).map Prod.fst = (Spec.txTrace H cfg' tx' w').map Prod.fst)
    (henv : ∀ k, Spec.looksAt ((Spec.txTrace H cfg tx w).map Prod.fst) k →
      dget (Dict.update [] tx.environment) k = dget (Dict.update [] tx'.environment) k) :
    Spec.txTrace H cfg tx w = Spec.txTrace H cfg' tx' w' := by
  have h1 := C48_transaction H cfg tx hw
  have h2 := C48_transaction H cfg' tx' hw'
  rw [← hreq, ← answers_congr H _ none henv, ← h1] at h2
  have hz : ∀ (a b : List (Action × Except PyErr PyVal)), a.map Prod.fst = b.map Prod.fst → b.map Prod.snd = a.map Prod.snd →
      a = b := by
    intro a
    induction a with
    | nil => intro b h _; cases b with | nil => rfl | cons => cases h
    | cons x a ih =>
      intro b h h'
      cases b with
      | nil => cases h
      | cons y b =>
        simp only [List.map_cons, List.cons.injEq] at h h'
        rw [ih b h.2 h'.2, Prod.ext h.1 h'.1.symm]
  exact hz _ _ hreq h2

theorem answers_unseeded (H : Host) (env : Dict Str PyVal) : ∀ (as : List Action) (a : Action) (rest : List Action),
    (∀ x ∈ as, Spec.isSeed x = false) → Spec.isSeed a = false →
    (Spec.answers H env none (as ++ a :: rest)).1[as.length]? = some (.error .assertion) := by
  have one : ∀ a, Spec.isSeed a = false → Spec.answer H env none a = (.error .assertion, none) := by
    intro a ha
    cases a with
    | seed s => simp [Spec.isSeed] at ha
    | _ => rfl
  intro as
  induction as with
  | nil => intro a rest _ ha; simp [Spec.answers, one a ha]
  | cons x as ih =>
    intro a rest h ha
    simp only [List.cons_append, Spec.answers, one x (h x (by simp)), List.length_cons, List.getElem?_cons_succ]
    exact ih a rest (fun y hy => h y (by simp [hy])) ha

/-- **C48, no unseeded numbers.** After any history of transactions that returned, a random function called in a
transaction before `seed()` was called in it raises. -/
theorem C48_unseeded (H : Host) (cfg : ExecCfg) (tx : Tx) {w : World} (hw : Spec.Served H w)
    {before after : List (World × Spec.Ev)} {v : World} {a : Action}
    (h : Spec.txEvents H cfg tx w = before ++ (v, .act a) :: after)
    (hno : ∀ x ∈ before, ∀ b, x.2 = .act b → Spec.isSeed b = false) (ha : Spec.isRandom a = true) (hns : Spec.isSeed a = false) :
    (a.run H v).1 = .error .assertion := by
  have ht : Spec.txTrace H cfg tx w = traceOf H before ++ (a, (a.run H v).1) :: traceOf H after := by
    have : Spec.txTrace H cfg tx w = traceOf H (Spec.txEvents H cfg tx w) := rfl
    rw [this, h, traceOf_append]
    simp [traceOf, ha]
  have h1 := C48_transaction H cfg tx hw
  rw [ht, List.map_append, List.map_append, List.map_cons, List.map_cons] at h1
  have h2 := answers_unseeded H (Dict.update [] tx.environment) ((traceOf H before).map Prod.fst) a
    ((traceOf H after).map Prod.fst) ?_ hns
  · rw [← h1] at h2
    have hl : ((traceOf H before).map Prod.snd).length = ((traceOf H before).map Prod.fst).length := by simp
    rw [← hl, List.getElem?_append_right (Nat.le_refl _), Nat.sub_self] at h2
    simpa using h2
  · intro x hx
    simp only [List.mem_map, traceOf, List.mem_filterMap] at hx
    obtain ⟨⟨y, r⟩, ⟨e, he, hy⟩, rfl⟩ := hx
    cases hev : e.2 with
    | act b =>
      rw [hev] at hy
      simp only at hy
      split at hy
      · cases hy; exact hno e he _ hev
      · cases hy
    | _ => rw [hev] at hy; cases hy

/-- A transaction of `bob` that seeds, draws eight bits and one number, and stores in between. -/
def Demo.rolls : Tx :=
  { Demo.tx (Demo.step (.seed none) (Demo.step (.getrandbits 8) (Demo.step (.varSet Demo.x (.int 1)) (Demo.step (.draw (.randint 1 6)) (.ret .none)))))
    with environment := [(py! "block_num", .int 12)] }

example : ((Spec.txTrace Demo.host {} Demo.rolls (freshWorld Demo.w0.driver)).map Prod.snd) =
    [.ok .none, .ok (.int 255), .ok (.int 0)] := by decide +kernel

/-- **C48 is false when `execute` raises**: the generator stays seeded after a transaction that seeded and ended in a
`ZeroDivisionError` out of `execute`; the next transaction draws numbers without any call of `seed()`. -/
theorem C48_refuted :
    let bad : Tx := { Demo.tx (Demo.step (.seed none) (.ret .none)) with stamps := 0, stampCost := 0, metering := some true }
    let next : Tx := Demo.tx (.act (.getrandbits 8) fun r => match r with | .ok v => .ret v | .error e => .raise e)
    let r := execute Demo.host {} bad Demo.w0
    r.1.map Output.status = .error .divisionByZero ∧
    (execute Demo.host {} next r.2).1.map Output.result = .ok (.ok (.int 255)) ∧
    (execute Demo.host {} next (freshWorld r.2.driver)).1.map Output.result = .ok (.error .assertion) := by
  decide +kernel

/-- **C49.** On a seeded generator in any state `getrandbits(k)` with `k ≥ 1` gives a number in `[0, 2^k)`, namely the
one whose binary digits are the next `k` draws of the generator, and changes nothing but the generator. -/
theorem C49_range (H : Host) (w : World) (k : Nat) (hk : 1 ≤ k) (hs : w.seeded = true) :
    ∃ n : Nat, n < 2 ^ k ∧ (Action.run H w (.getrandbits k)).1 = .ok (.int n) ∧
      n = Spec.number (drawBits H w.rng k).1 ∧ ∃ rng, (Action.run H w (.getrandbits k)).2 = { w with rng := rng } := by
  have hl := drawBits_length H k w.rng
  have hb : (drawBits H w.rng k).1 ≠ [] := by intro h0; rw [h0] at hl; simp at hl; omega
  refine ⟨Spec.number (drawBits H w.rng k).1, ?_, ?_, rfl, ?_⟩
  · have := number_lt (drawBits H w.rng k).1
    rw [hl] at this; exact this
  · simp only [Action.run, doGetrandbits, hs, Bool.not_true, Bool.false_eq_true, if_false]
    rw [if_neg hb, ofBits_number]
  · simp only [Action.run, doGetrandbits, hs, Bool.not_true, Bool.false_eq_true, if_false]
    rw [if_neg hb]; exact ⟨_, rfl⟩

/-- **C49.** Every number of the range can come up: for each `n < 2^k` some generator makes `getrandbits(k)` answer `n`. -/
theorem C49_full (H : Host) (w : World) (k n : Nat) (hk : 1 ≤ k) (hn : n < 2 ^ k) (hs : w.seeded = true) :
    ∃ bit : RngState → Bool, (Action.run { H with bit := bit } w (.getrandbits k)).1 = .ok (.int n) := by
  have digits : ∀ k n, n < 2 ^ k → ∃ bs : List Bool, bs.length = k ∧ Spec.number bs = n := by
    intro k
    induction k with
    | zero => intro n hn; exact ⟨[], rfl, by simp at hn; exact hn.symm⟩
    | succ k ih =>
      intro n hn
      rw [pow_succ] at hn
      by_cases h : n < 2 ^ k
      · obtain ⟨bs, h1, h2⟩ := ih n h
        exact ⟨false :: bs, by simp [h1], by simp [Spec.number, h2]⟩
      · obtain ⟨bs, h1, h2⟩ := ih (n - 2 ^ k) (by omega)
        exact ⟨true :: bs, by simp [h1], by simp [Spec.number, h1, h2]; omega⟩
  obtain ⟨bs, h1, h2⟩ := digits k n hn
  let bit : RngState → Bool := fun r => (bs[r.drawn.length - w.rng.drawn.length]?).getD false
  have hd : ∀ j (r : RngState) (t : List Bool), w.rng.drawn.length ≤ r.drawn.length → t.length = j →
      bs.drop (r.drawn.length - w.rng.drawn.length) = t → (drawBits { H with bit := bit } r j).1 = t := by
    intro j
    induction j with
    | zero => intro r t _ ht _; simp [drawBits]; exact List.length_eq_zero_iff.mp ht
    | succ j ih =>
      intro r t hle ht hdrop
      cases t with
      | nil => simp at ht
      | cons b t =>
        simp only [drawBits]
        have hb : bit r = b := by
          show (bs[r.drawn.length - w.rng.drawn.length]?).getD false = b
          have := congrArg (fun l => l[0]?) hdrop
          simp only [List.getElem?_drop, Nat.add_zero] at this
          rw [this]; rfl
        rw [hb, ih]
        · simp; omega
        · simp at ht; exact ht
        · have h3 : (r.drawn ++ [DrawReq.bit]).length - w.rng.drawn.length = (r.drawn.length - w.rng.drawn.length) + 1 := by
            rw [List.length_append, List.length_singleton]; omega
          simp only [h3]
          have := congrArg (List.drop 1) hdrop
          rw [List.drop_drop] at this
          simpa using this
  refine ⟨bit, ?_⟩
  have := hd k w.rng bs (Nat.le_refl _) h1 (by simp)
  have hb : (drawBits { H with bit := bit } w.rng k).1 ≠ [] := by
    rw [this]; intro h0; rw [h0] at h1; simp at h1; omega
  simp only [Action.run, doGetrandbits, hs, Bool.not_true, Bool.false_eq_true, if_false]
  rw [if_neg hb, ofBits_number, this, h2]

/-- **C49.** `getrandbits(0)` raises. -/
theorem C49_zero (H : Host) (w : World) (hs : w.seeded = true) :
    Action.run H w (.getrandbits 0) = (.error .valueError, w) := by
  obtain ⟨driver, meter, base, stack, seeded, rng, env, loaded, restricted, logs, calls⟩ := w
  simp only at hs
  subst hs
  rfl

example : (({ Demo.w0 with seeded := true } : World)).seeded = true ∧
    (Action.run Demo.host { Demo.w0 with seeded := true } (.getrandbits 3)).1 = .ok (.int 7) := by decide +kernel

end Verif
