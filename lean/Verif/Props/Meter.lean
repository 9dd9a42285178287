import Verif.Proofs.Meter
import Verif.Props.Executor
/-!
# Properties C30 and C31: metering

Vocabulary (`Verif/Spec/Runtime.lean`): `Spec.events` lists what a program does with the world in which it
does it, `Spec.bytes` adds up the bytes it writes, `Spec.lineCosts` the costs of its contract lines,
`Spec.Within` are the four limits.
-/
namespace Verif

/-! ### C30 -/

/-- **C30.** A metered program that returns normally was charged exactly 25 units per byte written plus its
lines, and never crossed a limit: at most the stamps supplied, at most 6,500,000 units, less than 128 KiB
written, at most 800,000 lines; or the line limit struck inside library code that swallowed the abort. -/
theorem C30_program {H : Host} {p : Prog} {w w' : World} {v : PyVal} (hn : p.NoCatch)
    (hs : w.meter.started = true) (hw : Spec.Within w.meter) (h : p.run H w = (.ok v, w')) :
    (w'.meter.cost = w.meter.cost + 25 * Spec.bytes H p w + Spec.lineCosts H p w ∧
      w'.meter.writes = w.meter.writes + Spec.bytes H p w ∧ Spec.Within w'.meter ∧ w'.meter.started = true) ∨
    ∃ x ∈ Spec.events H p w, Spec.Struck x.1 x.2 := by
  by_cases hg : ∃ x ∈ Spec.events H p w, Spec.Struck x.1 x.2
  · exact .inr hg
  · push Not at hg
    obtain ⟨h1, h2⟩ := p.charged hn hg hs hw h
    exact .inl ⟨h1.cost, h1.writes, h2, h1.started⟩

/-- **C30.** The first operation that crosses a limit raises: an API call whose bytes or line cost would
take the account over any limit does not return. -/
theorem C30_crossing_raises {H : Host} {a : Action} {w : World} (hs : w.meter.started = true)
    (hw : Spec.Within w.meter)
    (hover : (w.meter.supplied < w.meter.cost + 25 * Spec.bytesWritten w a + Spec.Ev.lineCost (.act a)) ∨
      6500000 < w.meter.cost + 25 * Spec.bytesWritten w a + Spec.Ev.lineCost (.act a) ∨
      131072 ≤ w.meter.writes + Spec.bytesWritten w a) : ∃ e w', a.run H w = (.error e, w') := by
  by_cases hgu : ∃ n, a = .guarded n
  · obtain ⟨n, rfl⟩ := hgu
    obtain ⟨a1, a2, a3, _⟩ := hw
    simp only [Spec.bytesWritten, Spec.Ev.lineCost] at hover
    omega
  have hg : a.NotGuarded := by cases a <;> first | trivial | exact absurd ⟨_, rfl⟩ hgu
  cases h : a.run H w with
  | mk r w' =>
    cases r with
    | error e => exact ⟨e, w', rfl⟩
    | ok v =>
      obtain ⟨h1, h2⟩ := Action.charged hg hs hw h
      obtain ⟨a1, a2, a3, _⟩ := h2
      rw [h1.cost] at a1 a2
      rw [h1.writes] at a3
      rw [h1.supplied] at a1
      push_cast at a1
      omega

/-- Outside a metered execution nothing is counted. -/
theorem Meter.off {m : Meter} (h : m.started = false) (n : Nat) (c : Bool) (op mem : Nat) :
    m.deductWrite n = (.ok (), m) ∧ m.line c op mem = (.ok (), m) := by
  unfold Meter.deductWrite Meter.line
  rw [if_neg (by simp [h]), if_neg (by simp [h])]
  exact ⟨rfl, rfl⟩

theorem libLines_off {m : Meter} (h : m.started = false) : ∀ n, libLines m n = (.ok (), m)
  | 0 => rfl
  | n + 1 => by unfold libLines; rw [(Meter.off h 0 false 0 0).2]; exact libLines_off h n

/-- Programs run outside a metered execution leave the meter alone. -/
theorem Prog.run_off {H : Host} (p : Prog) (w : World) (h : w.meter.started = false) : (p.run H w).2.meter = w.meter := by
  have := Prog.run_rel (H := H) (P := fun _ => True) (R := fun w w' => w.meter.started = false → w'.meter = w.meter)
    (fun _ _ => rfl) (fun a b c h h' hs => (h' (by rw [h hs]; exact hs)).trans (h hs)) ?_
    (fun c w _ => enter_meter c w) (fun w _ => popState_meter w) (fun w name dyn _ => importStart_meter H w name dyn)
    (fun w name _ => rfl) p p.all_true w
  · exact this h
  · intro a w _ hs
    by_cases hg : ∃ n, a = .guarded n
    · obtain ⟨n, rfl⟩ := hg
      simp only [Action.run]
      rw [libLines_off hs]
    · have hst := Action.run_steps H w a (fun n h => hg ⟨n, h⟩)
      refine Steps.rel (R := fun s s' => s.1.started = false → s'.1 = s.1) (fun _ _ => rfl)
        (fun a b c h h' hs => (h' (by rw [h hs]; exact hs)).trans (h hs)) ?_ hst hs
      intro s p _ hs
      cases p with
      | write k v txn =>
        simp only [Prim.run]
        cases hset : s.2.set s.1 k v txn with
        | mk r md =>
          obtain ⟨m', d'⟩ := md
          cases r with
          | error e =>
            unfold Driver.set at hset
            cases he : encode v with
            | error e => rw [he] at hset; cases hset; rfl
            | ok t =>
              rw [he] at hset
              simp only [(Meter.off hs _ false 0 0).1] at hset
              split at hset
              · cases hset; rfl
              · split at hset
                · cases hset; rfl
                · cases hset
          | ok u =>
            obtain ⟨_, _, ⟨t, _, hd⟩, _⟩ := Driver.set_ok hset
            rw [(Meter.off hs _ false 0 0).1] at hd
            cases hd; rfl
      | line c op mem => simp only [Prim.run]; rw [(Meter.off hs 0 c op mem).2]
      | charge n => simp only [Prim.run]; rw [(Meter.off hs n false 0 0).1]
      | _ => rfl

/-- **C30.** For whole transactions: metered, offering at least zero stamps, starting (like every
transaction, C32) with the meter stopped and the write counter at zero. If it succeeds, the account stayed
within `1000 * stamps` and within all limits, or the line limit struck inside library code that swallowed
the abort. The module's top level may do anything. -/
theorem C30_transaction {H : Host} {cfg : ExecCfg} {tx : Tx} {w w' : World} {o : Output} (hc : tx.autoCommit = false)
    (hm : tx.metered cfg = true) (hst : 0 ≤ tx.stamps) (hoff : w.meter.started = false) (hzero : w.meter.writes = 0)
    (hcode : ∀ fn, tx.code.fn = some fn → ∀ kwargs, (fn.2 kwargs).NoCatch)
    (h : execute H cfg tx w = (.ok o, w')) (hs : o.status = 0) :
    let m := (ranWorld H cfg tx w).meter
    ((m.cost : Int) ≤ 1000 * tx.stamps ∧ m.cost ≤ 6500000 ∧ m.writes < 131072 ∧ m.calls ≤ 800000 ∧ 25 * m.writes ≤ m.cost) ∨
    ∃ fn kwargs w1, tx.code.fn = some fn ∧ ∃ x ∈ Spec.events H (fn.2 kwargs) w1, Spec.Struck x.1 x.2 := by
  obtain ⟨_, writes, w2, _, rfl, _⟩ := execute_ok h
  obtain ⟨v, hv⟩ := Output.status_zero.1 hs
  obtain ⟨ha, htb⟩ := tryBlock_ok hc (h := hv)
  have hr : (ranWorld H cfg tx w).meter = (attempt H cfg tx true (startWorld w)).2.meter.stop := by
    unfold ranWorld; rw [htb, hm]; rfl
  rw [hm] at ha
  obtain ⟨w1, h1, hcase⟩ := attempt_cases (H := H) (cfg := cfg) (tx := tx)
    (R := fun w w' => w.meter.started = false → w'.meter = w.meter) (fun _ _ => rfl)
    (fun a b c h h' hs => (h' (by rw [h hs]; exact hs)).trans (h hs)) (fun _ _ _ => rfl) (fun _ _ => rfl) (fun _ _ _ => rfl)
    (fun _ _ _ => rfl) (fun _ _ _ => rfl) (fun w hs => Prog.run_off _ w hs) true (startWorld w)
  have hm1 : w1.meter = w.meter := h1 hoff
  have hset : Spec.Within (setUp tx true w1).meter ∧ (setUp tx true w1).meter.started = true ∧
      (setUp tx true w1).meter.cost = 0 ∧ (setUp tx true w1).meter.writes = 0 ∧ (setUp tx true w1).meter.supplied = tx.stamps * 1000 := by
    simp only [setUp, Meter.start, if_true, Spec.Within, hm1, hzero]
    refine ⟨⟨by push_cast; omega, by omega, by omega, by omega⟩, ?_⟩
    exact ⟨trivial, trivial, trivial, trivial⟩
  intro m
  have hfin : ∀ m', Charged (setUp tx true w1).meter m' m'.writes (m'.cost - 25 * m'.writes) → Spec.Within m' →
      (attempt H cfg tx true (startWorld w)).2.meter = m' →
      (m.cost : Int) ≤ 1000 * tx.stamps ∧ m.cost ≤ 6500000 ∧ m.writes < 131072 ∧ m.calls ≤ 800000 ∧ 25 * m.writes ≤ m.cost := by
    intro m' hch hwi heq
    have hmm : m = m'.stop := by simp only [m]; rw [hr, heq]
    obtain ⟨b1, b2, b3, b4⟩ := hwi
    have hsup := hch.supplied
    have hcost := hch.cost
    rw [hset.2.2.2.2] at hsup
    rw [hset.2.2.1] at hcost
    rw [hmm]
    simp only [Meter.stop]
    refine ⟨by rw [hsup] at b1; omega, b2, b3, b4, by omega⟩
  rcases hcase with ⟨e, he⟩ | hhost | ⟨fn, kwargs, hf, _, hcall⟩
  · rw [he] at ha; cases ha
  · refine .inl (hfin (setUp tx true w1).meter ?_ hset.1 (by rw [hhost]))
    rw [hset.2.2.1, hset.2.2.2.1]
    exact Charged.zero hset.2.1
  · have hn := hcode fn hf kwargs
    cases hres : callEntry H tx kwargs fn (setUp tx true w1) with
    | mk r w3 =>
      rw [hcall, hres] at ha
      simp only at ha
      subst ha
      have hch : (∃ b l, Charged (setUp tx true w1).meter w3.meter b l ∧ Spec.Within w3.meter) ∨
          ∃ w1, ∃ x ∈ Spec.events H (fn.2 kwargs) w1, Spec.Struck x.1 x.2 := by
        unfold callEntry at hres
        split at hres
        · have hn' : (Prog.call tx.contract (fn.2 kwargs) fun r => match r with | .ok v => .ret v | .error e => .raise e).NoCatch :=
            ⟨hn, fun e => rfl, fun v => trivial⟩
          by_cases hg : ∃ w1, ∃ x ∈ Spec.events H (fn.2 kwargs) w1, Spec.Struck x.1 x.2
          · exact .inr hg
          · push Not at hg
            refine .inl ⟨_, _, Prog.charged _ hn' (fun x hx => ?_) hset.2.1 hset.1 hres⟩
            simp only [Spec.events] at hx
            rcases List.mem_cons.1 hx with rfl | hx
            · rintro ⟨n, h, _⟩; cases h
            · split at hx
              · simp [Spec.events] at hx
              · rename_i w2 _
                rcases List.mem_append.1 hx with hx | hx
                · exact hg _ x hx
                · rcases List.mem_cons.1 hx with rfl | hx
                  · rintro ⟨n, h, _⟩; cases h
                  · split at hx <;> simp [Spec.events] at hx
        · by_cases hg : ∃ w1, ∃ x ∈ Spec.events H (fn.2 kwargs) w1, Spec.Struck x.1 x.2
          · exact .inr hg
          · push Not at hg
            exact .inl ⟨_, _, Prog.charged _ hn (hg _) hset.2.1 hset.1 hres⟩
      rcases hch with ⟨b, l, hc1, hc2⟩ | ⟨w1, x, hx, hx'⟩
      · left
        have e1 := hc1.writes
        have e2 := hc1.cost
        rw [hset.2.2.2.1] at e1
        rw [hset.2.2.1] at e2
        refine hfin w3.meter ?_ hc2 (by rw [hcall, hres])
        have : w3.meter.writes = b := by omega
        have hl : w3.meter.cost - 25 * w3.meter.writes = l := by omega
        rw [this] at hl ⊢
        rw [hl]
        exact hc1
      · exact .inr ⟨fn, kwargs, w1, hf, x, hx, hx'⟩

/-- The hypotheses are met by a contract that writes and executes lines; 8 bytes and 3000 units of lines
make 3200 units, that is 8 stamps. -/
example : let p := Demo.step (.line true 3000 10) (Demo.step (.varSet Demo.x (.int 1)) (.ret .none))
    Spec.bytes Demo.host p Demo.w0 = 8 ∧
    (execute Demo.host {} (Demo.tx p) Demo.w0).1.map (fun o => (o.status, o.stampsUsed)) = .ok (0, 8) ∧
    p.NoCatch := by
  refine ⟨by decide +kernel, by decide +kernel, ?_⟩
  exact ⟨fun _ => rfl, fun _ => ⟨fun _ => rfl, fun _ => trivial⟩⟩

/-- The write limit is reached exactly at 128 KiB, and crossing the stamps raises. -/
example : ({ started := true, supplied := 10 ^ 9, writes := 131070 } : Meter).deductWrite 1 =
      (.ok (), { started := true, supplied := 10 ^ 9, writes := 131071, cost := 25 }) ∧
    (({ started := true, supplied := 10 ^ 9, writes := 131071 } : Meter).deductWrite 1).1 = .error .assertion ∧
    (({ started := true, supplied := 24 } : Meter).deductWrite 1).1 = .error .assertion := by
  decide +kernel

/-- Library lines beyond the line limit, inside a `try`: the abort is swallowed and the tracer is off. -/
theorem libLines_overflow : ∀ (n : Nat) (m : Meter), m.started = true → m.calls ≤ 800000 → 800000 < m.calls + n →
    (libLines m n).2 = { m with calls := 800001, started := false }
  | 0, m, _, h1, h2 => absurd h2 (by omega)
  | n + 1, m, hs, h1, h2 => by
    unfold libLines Meter.line
    rw [if_pos hs]
    simp only [maxCallCount]
    by_cases hc : m.calls + 1 > 800000
    · rw [if_pos hc]
      have : m.calls = 800000 := by omega
      simp [Meter.stop, this]
    · rw [if_neg hc]
      simp only [Bool.false_eq_true, if_false]
      have ih := libLines_overflow n { m with calls := m.calls + 1 } hs (show m.calls + 1 ≤ 800000 by omega)
        (show 800000 < m.calls + 1 + n by omega)
      rw [ih]

/-- **C30 does not hold for library code that swallows exceptions** (`crypto.verify`, `Hash.all`,
`Hash.clear`): if the line limit strikes inside it, the contract continues *unmetered*. The program below
catches nothing, starts in a fresh metered state, returns normally and writes 8 bytes that are not paid
for; anything may follow. -/
theorem C30_refuted (H : Host) : ∃ p w w' v, Prog.NoCatch p ∧ w.meter.started = true ∧ Spec.Within w.meter ∧
    w.meter.cost = 0 ∧ p.run H w = (.ok v, w') ∧ w'.meter.started = false ∧ w'.meter.cost = 0 ∧
    Dict.get? w'.driver.pendingWrites Demo.x.key = some (.int 1) := by
  let m : Meter := { started := true, supplied := 1000 }
  let w : World := { Demo.w0 with meter := m }
  let w1 : World := { Demo.w0 with meter := { m with calls := 800001, started := false } }
  have hl := libLines_overflow 800001 m rfl (by decide) (by decide)
  refine ⟨Demo.step (.guarded 800001) (Demo.step (.varSet Demo.x (.int 1)) (.ret .none)), w,
    { w1 with driver := (Demo.x.set w1.meter w1.driver (.int 1)).2.2 }, .none, ?_, rfl, ?_, rfl, ?_, rfl, rfl, by decide +kernel⟩
  · exact ⟨fun e => rfl, fun _ => ⟨fun e => rfl, fun v => trivial⟩⟩
  · exact ⟨by decide, by decide, by decide, by decide⟩
  · have hg : (Action.guarded 800001).run H w = (.ok (.bool ((libLines m 800001).1.isOk)), w1) := by
      simp only [Action.run]
      rw [show w.meter = m from rfl, hl]
    simp only [Demo.step, Prog.run, hg, Demo.andThen]
    rfl

/-! ### C31 -/

/-- **C31.** Whatever a metered execution does, and however long: the events that happen without an exception
contain at most 800,000 traced lines in all, and the contract lines cost at most 6,500,000 units and at most
the stamps supplied; or the line limit struck inside library code that swallowed the abort. `es` is any
sequence of events, so also any prefix of a non-terminating run. -/
theorem C31_bounded {H : Host} : ∀ (es : List Spec.Ev) {w w' : World},
    w.meter.started = true → Spec.Within w.meter → Spec.runEvs H w es = some w' →
    (w.meter.calls + (es.map fun e => e.lines).sum ≤ 800000 ∧
      w.meter.cost + (es.map fun e => e.lineCost).sum ≤ 6500000 ∧
      ((w.meter.cost + (es.map fun e => e.lineCost).sum : Nat) : Int) ≤ w.meter.supplied) ∨
    ∃ es1 e es2 w1, es = es1 ++ e :: es2 ∧ Spec.runEvs H w es1 = some w1 ∧ Spec.Struck w1 e
  | [], w, w', _, hw, _ => .inl (by simpa using ⟨hw.2.2.2, hw.2.1, hw.1⟩)
  | e :: es, w, w', hs, hw, h => by
    by_cases hst : Spec.Struck w e
    · exact .inr ⟨[], e, es, w, rfl, rfl, hst⟩
    · unfold Spec.runEvs at h
      cases he : e.run H w with
      | mk r w1 =>
        rw [he] at h
        cases r with
        | some x => cases h
        | none =>
          obtain ⟨h1, h2, h3⟩ := Ev.charged hst hs hw he
          rcases C31_bounded es h1.started h2 h with ih | ⟨es1, e', es2, w2, e1, e2, e3⟩
          · left
            rw [h3, h1.cost, h1.supplied] at ih
            rw [List.map_cons, List.sum_cons, List.map_cons, List.sum_cons]
            push_cast at ih ⊢
            omega
          · right
            refine ⟨e :: es1, e', es2, w2, by rw [e1]; rfl, ?_, e3⟩
            unfold Spec.runEvs
            rw [he]
            exact e2

/-- **C31.** A run that would execute lines for ever is stopped by an exception: every infinite sequence of
events with infinitely many of them running lines has a finite prefix that raises, or one in which the line
limit strikes inside library code that swallows the abort. -/
theorem C31_stops {H : Host} {w : World} (hs : w.meter.started = true) (hw : Spec.Within w.meter)
    (f : ℕ → Spec.Ev) (hinf : ∀ n, ∃ m ≥ n, 0 < (f m).lines) :
    ∃ n, Spec.runEvs H w ((List.range n).map f) = none ∨
      ∃ w1, Spec.runEvs H w ((List.range n).map f) = some w1 ∧ Spec.Struck w1 (f n) := by
  have grow : ∀ k : ℕ, ∃ n, k ≤ (((List.range n).map f).map fun e => e.lines).sum := by
    intro k
    induction k with
    | zero => exact ⟨0, Nat.zero_le _⟩
    | succ k ih =>
      obtain ⟨n, hn⟩ := ih
      obtain ⟨m, hm, hl⟩ := hinf n
      refine ⟨m + 1, ?_⟩
      rw [List.range_succ, List.map_append, List.map_append, List.sum_append]
      have : (((List.range n).map f).map fun e => e.lines).sum ≤ (((List.range m).map f).map fun e => e.lines).sum := by
        apply List.Sublist.sum_le_sum
        · apply List.Sublist.map
          apply List.Sublist.map
          exact List.range_sublist.2 hm
        · simp
      simp only [List.map_cons, List.map_nil, List.sum_cons, List.sum_nil]
      omega
  obtain ⟨n, hn⟩ := grow 800001
  cases hr : Spec.runEvs H w ((List.range n).map f) with
  | none => exact ⟨n, .inl hr⟩
  | some w' =>
    rcases C31_bounded ((List.range n).map f) hs hw hr with h | ⟨es1, e, es2, w1, e1, e2, e3⟩
    · omega
    · refine ⟨es1.length, .inr ⟨w1, ?_, ?_⟩⟩
      · have hlen : es1.length ≤ n := by
          have := congrArg List.length e1; simp at this; omega
        have : (List.range es1.length).map f = es1 := by
          have h1 : es1 = ((List.range n).map f).take es1.length := by rw [e1]; simp
          rw [h1, ← List.map_take, List.take_range]
          congr 2
          simp [hlen]
        rw [this]; exact e2
      · have hget : ((List.range n).map f)[es1.length]? = some e := by rw [e1]; simp
        rw [List.getElem?_map] at hget
        cases hx : (List.range n)[es1.length]? with
        | none => rw [hx] at hget; cases hget
        | some i =>
          rw [hx] at hget
          rw [List.getElem?_eq_some_iff] at hx
          obtain ⟨hi, hx⟩ := hx
          rw [List.getElem_range] at hx
          subst hx
          cases hget
          exact e3

/-- The state in which every metered entry function starts meets the hypotheses. -/
example : Spec.Within (setUp (Demo.tx (.ret .none)) true Demo.w0).meter ∧ (setUp (Demo.tx (.ret .none)) true Demo.w0).meter.started = true :=
  ⟨⟨by decide, by decide, by decide, by decide⟩, rfl⟩

/-- **C31 does not hold at load time**: before `set_up` nothing is counted, so the top level of a module
(run by the first transaction that calls it) may execute any number of lines, whatever the stamps. -/
theorem C31_refuted (H : Host) (n : Nat) : ∃ es : List Spec.Ev, (es.map fun e => e.lines).sum = n ∧
    Spec.runEvs H Demo.w0 es = some Demo.w0 := by
  refine ⟨List.replicate n (.act (.line true 1000 0)), ?_, ?_⟩
  · simp [Spec.Ev.lines]
  · induction n with
    | zero => rfl
    | succ n ih => exact ih

/-- **The second exception of C31 is real**: once the line limit has struck inside swallowing library code, any
number of lines follows, in a metered execution, at no cost. -/
theorem C31_swallowed_refuted (H : Host) (n : Nat) : ∃ (es : List Spec.Ev) (w w' : World), w.meter.started = true ∧
    Spec.Within w.meter ∧ n ≤ (es.map fun e => e.lineCost).sum ∧ Spec.runEvs H w es = some w' ∧ w'.meter.cost = 0 := by
  let m : Meter := { started := true, supplied := 1000 }
  let w : World := { Demo.w0 with meter := m }
  let w1 : World := { Demo.w0 with meter := { m with calls := 800001, started := false } }
  have hl := libLines_overflow 800001 m rfl (by decide) (by decide)
  refine ⟨.act (.guarded 800001) :: List.replicate n (.act (.line true 1000 0)), w, w1, rfl,
    ⟨by decide, by decide, by decide, by decide⟩, ?_, ?_, rfl⟩
  · simp [Spec.Ev.lineCost]; omega
  · have hg : (Spec.Ev.act (.guarded 800001)).run H w = (none, w1) := by
      simp only [Spec.Ev.run, Action.run]
      rw [show w.meter = m from rfl, hl]
    rw [Spec.runEvs, hg]
    show Spec.runEvs H w1 _ = _
    clear hg hl
    induction n with
    | zero => rfl
    | succ n ih => exact ih

/-- `n` lines of contract code. -/
def manyLines : Nat → Prog
  | 0 => .ret .none
  | n + 1 => Demo.step (.line true 1000 0) (manyLines n)

theorem manyLines_off {H : Host} : ∀ (n : Nat) (w : World), w.meter.started = false → (manyLines n).run H w = (.ok .none, w)
  | 0, w, _ => rfl
  | n + 1, w, h => by
    simp only [manyLines, Demo.step, Prog.run, Action.run, (Meter.off h 0 true 1000 0).2]
    exact manyLines_off n w h

/-- **C31 fails for whole transactions**: a module whose top level executes any number of lines costs the
same and ends the same as one with an empty top level. -/
theorem C31_load_refuted (H : Host) (cfg : ExecCfg) (tx : Tx) (w : World) (hoff : w.meter.started = false)
    (fn : Option (Bool × (Dict Str PyVal → Prog))) (n : Nat) :
    execute H cfg { tx with code := ⟨manyLines n, fn⟩ } w = execute H cfg { tx with code := ⟨.ret .none, fn⟩ } w := by
  have hload : ∀ w : World, w.meter.started = false →
      loadEntry H { tx with code := ⟨manyLines n, fn⟩ } w = loadEntry H { tx with code := ⟨.ret .none, fn⟩ } w := by
    intro w hw
    unfold loadEntry
    obtain ⟨r, hl⟩ := lookup_frame H w tx.contract
    cases hlk : lookup H w tx.contract with
    | mk f w1 =>
      rw [hlk] at hl
      simp only at hl
      cases f with
      | error e => rfl
      | ok f =>
        cases f with
        | contract =>
          simp only
          obtain ⟨r, hf⟩ := fetchCompiled_frame w1 tx.contract
          cases hfc : fetchCompiled w1 tx.contract with
          | mk u w2 =>
            rw [hfc] at hf
            simp only at hf
            cases u with
            | error e => rfl
            | ok u =>
              simp only
              rw [manyLines_off n w2 (by rw [hf, hl]; exact hw)]
              rfl
        | _ => rfl
  have hatt : ∀ (m : Bool) (w : World), w.meter.started = false →
      attempt H cfg { tx with code := ⟨manyLines n, fn⟩ } m w = attempt H cfg { tx with code := ⟨.ret .none, fn⟩ } m w := by
    intro m w hw
    have key : ∀ (u : Except PyErr Unit × World), u.2.meter.started = false →
        (match u with
          | (.error e, w) => ((.error e, w) : Except PyErr PyVal × World)
          | (.ok _, w) =>
            match setBase { tx with code := ⟨manyLines n, fn⟩ } { w with env := Dict.update w.env tx.environment } with
            | (.error e, w) => (.error e, w)
            | (.ok _, w) =>
              match loadEntry H { tx with code := ⟨manyLines n, fn⟩ } w with
              | (.error e, w) => (.error e, w)
              | (.ok host, w) => invoke H { tx with code := ⟨manyLines n, fn⟩ } m host w) =
        (match u with
          | (.error e, w) => (.error e, w)
          | (.ok _, w) =>
            match setBase { tx with code := ⟨.ret .none, fn⟩ } { w with env := Dict.update w.env tx.environment } with
            | (.error e, w) => (.error e, w)
            | (.ok _, w) =>
              match loadEntry H { tx with code := ⟨.ret .none, fn⟩ } w with
              | (.error e, w) => (.error e, w)
              | (.ok host, w) => invoke H { tx with code := ⟨.ret .none, fn⟩ } m host w) := by
      rintro ⟨r, w1⟩ hw1
      cases r with
      | error e => rfl
      | ok u =>
        simp only
        obtain ⟨r, b, hb⟩ := setBase_frame { tx with code := ⟨.ret .none, fn⟩ } { w1 with env := Dict.update w1.env tx.environment }
        change (match setBase { tx with code := ⟨.ret .none, fn⟩ } { w1 with env := Dict.update w1.env tx.environment } with
            | (.error e, w) => ((.error e, w) : Except PyErr PyVal × World)
            | (.ok _, w) =>
              match loadEntry H { tx with code := ⟨manyLines n, fn⟩ } w with
              | (.error e, w) => ((.error e, w) : Except PyErr PyVal × World)
              | (.ok host, w) => invoke H { tx with code := ⟨.ret .none, fn⟩ } m host w) = _
        cases hsb : setBase { tx with code := ⟨.ret .none, fn⟩ } { w1 with env := Dict.update w1.env tx.environment } with
        | mk r w2 =>
          rw [hsb] at hb
          simp only at hb
          cases r with
          | error e => rfl
          | ok u =>
            simp only
            rw [hload w2 (by rw [hb]; exact hw1)]
    unfold attempt
    cases m with
    | false => exact key (.ok (), w) hw
    | true =>
      refine key (checkFunds cfg tx w) ?_
      obtain ⟨r, h⟩ := checkFunds_frame cfg tx w
      rw [h]; exact hw
  have htry : tryBlock H cfg { tx with code := ⟨manyLines n, fn⟩ } (tx.metering.getD cfg.metering) w.driver.pendingWrites
        { w with driver := w.driver.clearTxWrites.clearEvents } =
      tryBlock H cfg { tx with code := ⟨.ret .none, fn⟩ } (tx.metering.getD cfg.metering) w.driver.pendingWrites
        { w with driver := w.driver.clearTxWrites.clearEvents } := by
    unfold tryBlock
    rw [hatt _ _ (by exact hoff)]
    rfl
  unfold execute
  simp only
  rw [htry]
  rfl

end Verif
