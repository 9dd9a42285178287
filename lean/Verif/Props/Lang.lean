import Verif.Proofs.Lang3
import Verif.Props.Token
/-!
# C93: contracts written in the contract language

C91 is about arbitrary code that has no storage object of `c`. Here that is a consequence of the rules of the language:
contracts that the linter accepts and that construct storage only in declarations have none.
-/
namespace Verif.Lang
open Verif Verif.Spec

/-! ### Programs of the interpreter never catch exceptions and change nothing in place -/

theorem any_closed (k : Str) : Closed (fun p => p.NoCatch ∧ p.All (Action.NoMutate k)) (fun a => Action.NoMutate k a) where
  ret := fun _ => ⟨trivial, trivial⟩
  raise := fun _ => ⟨trivial, trivial⟩
  act := fun {a f} h hk => ⟨⟨fun _ => rfl, fun v => (hk v).1⟩, h, fun r => by
    cases r with
    | ok v => exact (hk v).2
    | error e => exact trivial⟩
  load := fun {n d body f} h hk => ⟨⟨h.1, fun _ => rfl, fun v => (hk v).1⟩, h.2, fun r => by
    cases r with
    | ok v => exact (hk v).2
    | error e => exact trivial⟩

theorem any_allows (k : Str) : Allows (fun _ => True) (fun _ => True) (fun _ => True) (fun a => Action.NoMutate k a) := by
  constructor <;> intros <;> try trivial
  · rename_i a x h
    unfold ctxAction at h
    repeat' split at h
    all_goals first | cases h | skip
    all_goals exact trivial
  · rename_i h
    obtain ⟨_, rfl⟩ | ⟨_, rfl⟩ | ⟨_, rfl⟩ := randomCall_kind h <;> exact trivial

theorem any_ready (k : Str) (C : Chain) :
    Ready (fun p => p.NoCatch ∧ p.All (Action.NoMutate k)) (fun _ => True) (fun _ => True) (fun _ => True) C (fun _ => True) where
  attrs := fun _ _ => trivial
  events := fun _ _ _ _ _ _ _ _ _ _ => trivial
  global := fun _ _ _ _ _ _ => trivial
  member := fun _ _ _ _ _ => trivial
  code := fun _ _ f _ _ _ => by
    have he : ∀ es : List Expr, exprsAll (fun _ => True) (fun _ => True) es := fun es => exprs_all es ⟨fun _ _ => trivial, fun _ _ _ => trivial⟩
    have hs : ∀ es : List Stmt, stmtsAll (fun _ => True) (fun _ => True) es := fun es => stmts_all es ⟨fun _ _ => trivial, fun _ _ _ => trivial⟩
    exact ⟨he _, hs _⟩
  plain := fun _ _ _ _ h => (h trivial).elim
  call := fun _ _ _ _ _ _ _ hb hk => ⟨⟨(hb trivial).1, fun _ => rfl, fun v => (hk v).1⟩, (hb trivial).2, fun r => by
    cases r with
    | ok v => exact (hk v).2
    | error e => exact trivial⟩

/-! ### Code outside of a contract -/

theorem outside_closed (D : Data) (c : Str) (m : Module) : Closed (Outside c (Exported D c m)) (fun a => Spares c a) where
  ret := fun _ => trivial
  raise := fun _ => trivial
  act := fun {a f} h hk => ⟨h, fun r => by
    cases r with
    | ok v => exact hk v
    | error e => exact trivial⟩
  load := fun {n d body f} h hk => ⟨h, fun r => by
    cases r with
    | ok v => exact hk v
    | error e => exact trivial⟩

theorem outside_allows (c : Str) (m : Module) : Allows Clean CleanAttr (Harmless c m) (fun a => Spares c a) where
  data := fun _ => trivial
  sys := fun _ => trivial
  mod := fun _ => trivial
  meth := fun _ h => h
  unmeth := fun h => h
  cls := fun h1 h2 => (h1.1 h2).elim
  build := fun h _ => h.elim
  driver := fun h => (h.2 rfl).elim
  rawSet := fun h => h.elim
  rawGet := fun h => h.elim
  varSet := fun _ h => h
  hashSet := fun _ _ h => h
  hashClear := fun _ h => h
  varGet := fun _ => trivial
  hashGet := fun _ _ => trivial
  hashAll := fun _ _ => trivial
  foreignHashAll := fun _ _ => trivial
  foreignVarSet := fun _ _ => trivial
  foreignHashSet := fun _ _ _ => trivial
  foreignHashClear := fun _ _ => trivial
  envGet := fun _ => trivial
  ctx := by
    intro a x h
    unfold ctxAction at h
    repeat' split at h
    all_goals first | cases h | skip
    all_goals exact trivial
  ownerOf := fun _ => trivial
  line := fun _ _ _ => trivial
  params := fun _ => trivial
  newLog := fun _ => trivial
  emit := fun _ _ => trivial
  random := fun h => by obtain ⟨_, rfl⟩ | ⟨_, rfl⟩ | ⟨_, rfl⟩ := randomCall_kind h <;> exact trivial

theorem not_under {c c' : Str} (h1 : '.' ∉ c') (h2 : '.' ∉ c) : ¬ Under c c' ∧ ¬ Under c' c := by
  constructor
  · rintro ⟨s, rfl⟩
    exact h1 (by simp)
  · rintro ⟨s, rfl⟩
    exact h2 (by simp)

theorem outside_ready {I : PyInfo} {src : Str → Option Module} {C : Chain} {D : Data} (hCD : C.D = D) (hD : Deployed I src C)
    (hd : ∀ c m, src c = some m → Disciplined m) {c : Str} {mc : Module} (hc : src c = some mc) :
    Ready (Outside c (Exported D c (compileModule c mc))) Clean CleanAttr (Harmless c (compileModule c mc)) C (fun c' => c' ≠ c) := by
  have hsrc : ∀ {c' m}, C.code c' = some m → ∃ m0, src c' = some m0 ∧ m = compileModule c' m0 := by
    intro c' m h
    rw [hD.compiled] at h
    obtain ⟨m0, h1, h2⟩ := Option.map_eq_some_iff.1 h
    exact ⟨m0, h1, h2.symm⟩
  have hglob : ∀ {c' id v}, C.global c' id = some (.ok v) → ∃ m0, src c' = some m0 ∧
      BindingOf C.D ((compileModule c' m0).map Top.bound) c' id (.ok v) (compileModule c' m0) 0 := by
    intro c' id v h
    obtain ⟨m, h1, h2⟩ := Option.bind_eq_some_iff.1 h
    obtain ⟨m0, h3, rfl⟩ := hsrc h1
    exact ⟨m0, h3, bindings_mem (globalOf_mem h2)⟩
  have hassign : ∀ {c' m0 x e v own}, src c' = some m0 → Top.assign x e ∈ compileModule c' m0 → pureVal C.D own e = .ok v →
      Harmless c (compileModule c mc) v := by
    intro c' m0 x e v own h1 h2 h3
    obtain ⟨t, ht, e'⟩ := compile_mem h2
    have := compiled_all (hD.accepted _ _ h1) (hd _ _ h1) ht
    rw [← e'] at this
    exact pureVal_S (outside_allows c (compileModule c mc)) this h3
  refine
    { events := fun _ _ _ _ _ _ _ _ _ _ => trivial
      attrs := fun a h => h.1
      global := ?_
      member := ?_
      code := ?_
      plain := ?_
      call := ?_ }
  · intro c' id v hne _ hg
    obtain ⟨m0, hs, hb⟩ := hglob hg
    rcases hb with ⟨n, a, _, _, e⟩ | ⟨cls, kws, h1, h2⟩ | ⟨e, h1, h2⟩ | ⟨f, j, _, _, e⟩
    · cases e
      exact trivial
    · obtain ⟨_, y, _, ⟨t, dv, rfl⟩ | ⟨dv, rfl⟩ | ⟨u, rfl⟩ | ⟨u, rfl⟩ | ⟨_, _, rfl⟩⟩ := compiled_decl (hD.accepted _ _ hs) h1 h2.symm
      · obtain ⟨k1, k2⟩ := not_under (hD.plain _ _ hs) (hD.plain _ _ hc)
        exact (C91_own_storage (Ne.symm hne) k1 k2 y t dv .none (.one (.int 0)) []).1
      · obtain ⟨k1, k2⟩ := not_under (hD.plain _ _ hs) (hD.plain _ _ hc)
        exact (C91_own_storage (Ne.symm hne) k1 k2 y none dv .none (.one (.int 0)) []).2.1
      · exact trivial
      · exact trivial
      · exact trivial
    · exact hassign hs h1 h2.symm
    · cases e
      exact fun e => (hne e).elim
  · intro c' a v ha hg
    obtain ⟨m0, hs, hb⟩ := hglob hg
    rcases hb with ⟨n, a, _, _, e⟩ | ⟨cls, kws, h1, h2⟩ | ⟨e, h1, h2⟩ | ⟨f, j, h1, h2, e⟩
    · cases e
      exact trivial
    · exact (ha.2 (compiled_decl (hD.accepted _ _ hs) h1 h2.symm).1).elim
    · exact hassign hs h1 h2.symm
    · cases e
      intro e
      subst e
      rw [hc] at hs
      cases hs
      have hn : startsWith f.name (py! "__") = false := by
        rw [← h2]
        cases a with
        | nil => rfl
        | cons x a =>
          have : x ≠ '_' := fun e => ha.2 (by rw [e]; rfl)
          cases hb : startsWith (x :: a) (py! "__") with
          | false => rfl
          | true =>
            simp only [startsWith, List.isPrefixOf, Bool.and_eq_true, beq_iff_eq] at hb
            exact (this hb.1.symm).elim
      obtain ⟨w, hw⟩ := compiled_public (hD.accepted _ _ hc) (List.mem_of_getElem? h1) hn
      exact ⟨f, w, by simpa using h1, hw⟩
  · intro c' m f hne hm hf
    obtain ⟨m0, hs, rfl⟩ := hsrc hm
    obtain ⟨f0, h0, rfl⟩ := compiled_fun hf
    exact compiled_all (hD.accepted _ _ hs) (hd _ _ hs) h0
  · intro c' m i f hne hm hf hs
    have e : c' = c := Classical.not_not.1 hne
    subst e
    obtain ⟨m0, h0, rfl⟩ := hsrc hm
    rw [hc] at h0
    cases h0
    obtain ⟨f', w, h1, h2⟩ := hs rfl
    rw [hf] at h1
    cases h1
    exact ⟨w, c', h2⟩
  · intro c' m i f w d n vs ks k hm hf hw hsys hs hv hk hb hcont
    obtain ⟨m0, h0, rfl⟩ := hsrc hm
    have e := compiled_deco (hD.accepted _ _ h0) (List.mem_of_getElem? hf) hw
    subst e
    refine ⟨fun e => ?_, fun e => .inr (hb e), fun r => ?_⟩
    · subst e
      rw [hc] at h0
      cases h0
      exact ⟨C, n, f, w, vs, ks, hCD, hm, List.mem_of_getElem? hf, hw, hsys, hv, hk, rfl⟩
    · cases r with
      | ok v => exact hcont v
      | error e => exact trivial

/-- What a transaction on a public name can reach: an exported function, wrapped by the system's decorator. -/
theorem entry_wrapped {I : PyInfo} {src : Str → Option Module} {C : Chain} (hD : Deployed I src C) {n : Nat} {c fname : Str}
    (hpub : startsWith fname (py! "__") = false) {fn : Bool × (Dict Str PyVal → Prog)} (hf : C.entry n c fname = some fn) :
    ∃ m, C.code c = some m ∧
      ((∃ (i : Nat) (f : Fun) (w d : Str), (funs m)[i]? = some f ∧ f.deco = .wrapped w d ∧ C.systemWrapper c w = true ∧
          fn = (true, fun kwargs => C.body n c m f [] (kwargs.map fun p => (p.1, .data p.2)))) ∨
        fn = (false, fun _ => .raise .unmodelled)) := by
  unfold Chain.entry at hf
  split at hf
  · cases hf
  rename_i m hm
  refine ⟨m, hm, ?_⟩
  split at hf
  swap
  · cases hf
  rename_i c0 i hg
  split at hf
  · cases hf
  rename_i f hfi
  obtain ⟨m0, hs, rfl⟩ : ∃ m0, src c = some m0 ∧ m = compileModule c m0 := by
    have h := hm
    rw [hD.compiled] at h
    obtain ⟨m0, h1, h2⟩ := Option.map_eq_some_iff.1 h
    exact ⟨m0, h1, h2.symm⟩
  have hname : f.name = fname := by
    rcases bindings_mem (globalOf_mem hg) with ⟨_, _, _, _, e⟩ | ⟨cls, kws, h1, h2⟩ | ⟨e, h1, h2⟩ | ⟨g, j, h1, h2, e⟩
    · cases e
    · obtain ⟨_, y, _, ⟨_, _, e⟩ | ⟨_, e⟩ | ⟨_, e⟩ | ⟨_, e⟩ | ⟨_, _, e⟩⟩ := compiled_decl (hD.accepted _ _ hs) h1 h2.symm <;> cases e
    · unfold pureVal at h2
      split at h2
      · obtain ⟨_, _, e⟩ := map_ok h2.symm
        cases e
      · split at h2
        · obtain ⟨_, _, h2⟩ := map_ok h2.symm
          cases h2
        · cases h2
      · repeat' split at h2
        all_goals cases h2
      · split at h2 <;> cases h2
      · obtain ⟨_, _, h2⟩ := map_ok h2.symm
        cases h2
      · cases h2
    · cases e
      rw [Nat.zero_add, h1] at hfi
      cases hfi
      exact h2.symm
  obtain ⟨w, hw⟩ := compiled_public (hD.accepted _ _ hs) (List.mem_of_getElem? hfi) (by rw [hname]; exact hpub)
  rw [hw] at hf
  simp only at hf
  split at hf
  · rename_i hsys
    cases hf
    exact .inl ⟨i, f, w, _, hfi, hw, hsys, rfl⟩
  · cases hf
    exact .inr rfl

/-! ### C93 -/

/-- **C93, transactions.** A transaction that calls a public function of a deployed contract is made of code outside
of each contract `c`, whose state it can change only through the exported functions of `c` -- when all deployed
contracts are accepted by the compiler and construct storage in declarations only. -/
theorem C93_transaction {D : Data} {c : Str} {mc : Module} {tx : Tx} (h : LangTx D c mc tx) : TxOutside c (Exported D c (compileModule c mc)) tx := by
  obtain ⟨I, src, C, n, hCD, hD, hd, hc, hpub, hcode⟩ := h
  have hr := outside_ready hCD hD hd hc
  have entry := fun fn (hf : tx.code.fn = some fn) =>
    entry_wrapped hD (n := n) hpub (c := tx.contract) (show C.entry n tx.contract tx.function = some fn by rw [hcode] at hf; exact hf)
  have hany : ∀ (k : Str) fn, tx.code.fn = some fn → ∀ kwargs, (fn.2 kwargs).NoCatch ∧ (fn.2 kwargs).All (Action.NoMutate k) := by
    intro k fn hf kwargs
    obtain ⟨m, hm, ⟨i, f, w, d, h1, h2, h3, rfl⟩ | rfl⟩ := entry fn hf
    · exact Chain.body_P (any_closed k) (any_allows k) (any_ready k C) n tx.contract m f _ _ trivial hm (List.mem_of_getElem? h1)
        (fun _ _ => trivial) (fun _ _ => trivial)
    · exact ⟨trivial, trivial⟩
  have htop : tx.code.top = C.top n tx.contract := by rw [hcode]; rfl
  refine
    { top := ?_
      fn := ?_
      topNoCatch := ?_
      fnNoCatch := fun fn hf kwargs => (hany [] fn hf kwargs).1
      noMutate := fun k => ⟨?_, fun fn hf kwargs => (hany _ fn hf kwargs).2⟩ }
  · rw [htop]
    exact Chain.top_P (outside_closed D c _) (outside_allows c (compileModule c mc)) (fun _ _ _ _ _ _ _ _ _ _ => trivial) n tx.contract
  · intro fn kwargs hf hk
    obtain ⟨m, hm, ⟨i, f, w, d, h1, h2, h3, rfl⟩ | rfl⟩ := entry fn hf
    · have hdata : ∀ q ∈ kwargs.map fun p : Str × PyVal => (p.1, Val.data p.2), Harmless c (compileModule c mc) q.2 := by
        intro q hq
        obtain ⟨p, _, rfl⟩ := List.mem_map.1 hq
        exact trivial
      refine ⟨fun e => ?_, fun e => ?_, fun r => ?_⟩
      · have hm' : m = compileModule c mc := by
          rw [e, hD.compiled, hc] at hm
          cases hm
          rfl
        subst hm'
        have hd' : d = c := compiled_deco (hD.accepted _ _ hc) (List.mem_of_getElem? h1) h2
        rw [e] at h3 hm ⊢
        exact ⟨C, n, f, w, [], _, hCD, hm, List.mem_of_getElem? h1, hd' ▸ h2, h3, by simp, hdata, rfl⟩
      · exact .inr <| Chain.body_P (outside_closed D c _) (outside_allows c _) hr n tx.contract m f _ _ e hm (List.mem_of_getElem? h1)
          (by simp) hdata
      · cases r <;> exact trivial
    · exact trivial
  · rw [htop]
    exact (Chain.top_P (any_closed []) (any_allows []) (fun _ _ _ _ _ _ _ _ _ _ => trivial) n tx.contract).1
  · rw [htop]
    exact (Chain.top_P (any_closed _) (any_allows _) (fun _ _ _ _ _ _ _ _ _ _ => trivial) n tx.contract).2

theorem LangAround.around {H : Host} {D : Data} {c : Str} {mc : Module} {w0 w : World} (h : LangAround H D c mc w0 w) :
    Around H c (Exported D c (compileModule c mc)) w0 w := by
  induction h with
  | start => exact .start _
  | tx _ h1 h2 h3 h4 ih => exact .tx ih h1 (C93_transaction h2) h3 h4
  | apply nanos _ h ih => exact .apply nanos ih h
  | commit _ h ih => exact .commit ih h
  | rollback _ ih => exact .rollback ih
  | evict keep _ ih => exact .evict keep ih
  | restart _ h ih => exact .restart ih h

/-- **C93, histories.** Whatever the bodies of the exported functions of `c` keep of its state, every history of
transactions that run contracts of the language keeps. -/
theorem C93_history {H : Host} {D : Data} {c : Str} {mc : Module}
    {R : (Str → Except PyErr PyVal) → (Str → Except PyErr PyVal) → Prop}
    (hrefl : ∀ s, R s s) (htrans : ∀ s t u, R s t → R t u → R s u)
    (hF : ∀ body, Exported D c (compileModule c mc) body → KeepsState H c R body)
    (hplain : ∀ s t t', (∀ n, PlainKey (c ++ '.' :: n) → t n = t' n) → R s t → R s t')
    {disk : Disk} {w : World} (h : LangAround H D c mc { driver := .open disk } w) :
    R (stateOf c (.open disk)) (stateOf c w.driver) :=
  C91_history hrefl htrans hF hplain h.around

/-! ### Examples -/

namespace Demo

/-- Python without arithmetic: only the identity comparison with `None`. -/
def data : Data where
  op o vs := match o, vs with
    | .cmp op, [a, b] => if op = py! "Is" then .ok (.bool (a.isNone && b.isNone)) else .error .typeError
    | _, _ => .error .typeError
  sub := fun _ _ => .error .typeError
  attr := fun _ _ => none
  method := fun _ _ _ _ => .error .attributeError
  call := fun _ _ _ => .error .typeError
  iter := fun _ => .error .typeError
  str := fun _ => py! "?"
  const := fun _ => .none
  builtin := fun id => decide (id = py! "decimal")

/-- `x = Variable()`, and `put(v)`: `assert x.get() is None`, `x.set(v)`. -/
def srcA : Module := [
  .decl (py! "x") (py! "Variable") [],
  .def { name := py! "put", args := [(py! "v", some (py! "int"))], deco := .export, body := [
    .assert (.op (.cmp (py! "Is")) [.call (.attr (.name (py! "x")) (py! "get")) [] [], .const .none]) [],
    .expr (.call (.attr (.name (py! "x")) (py! "set")) [.name (py! "v")] [])] }]

/-- `import con_a`, and `poke(v)`: `con_a.put(v)`. -/
def srcB : Module := [
  .import (py! "con_a") none,
  .def { name := py! "poke", args := [(py! "v", some (py! "int"))], deco := .export, body := [
    .expr (.call (.attr (.name (py! "con_a")) (py! "put")) [.name (py! "v")] [])] }]

/-- `poke(v)`: `Variable(contract='con_a', name='x').set(v)`. -/
def srcBad : Module := [
  .def { name := py! "poke", args := [(py! "v", some (py! "int"))], deco := .export, body := [
    .expr (.call (.attr (.call (.name (py! "Variable")) []
      [(py! "contract", .const (.str (py! "con_a"))), (py! "name", .const (.str (py! "x")))]) (py! "set")) [.name (py! "v")] [])] }]

/-- `con_a` and `con_b` are deployed. -/
def sources (b : Module) (c : Str) : Option Module :=
  if c = Verif.Demo.conA then some srcA else if c = Verif.Demo.conB then some b else none

def chain (b : Module) : Chain where
  D := data
  cost := fun _ _ => (1, 0)
  topCost := fun _ _ => (1, 0)
  code := fun c => (sources b c).map (compileModule c)

/-- `bob` calls `con_b.poke(v=7)`. -/
def tx (b : Module) : Tx :=
  { sender := Verif.Demo.bob, contract := Verif.Demo.conB, function := py! "poke", kwargs := [(py! "v", .int 7)], stamps := 50,
    stampCost := 1, code := (chain b).codeFor 3 Verif.Demo.conB (py! "poke") }

def world : World := Verif.Demo.world (Verif.Demo.stored Verif.Demo.conA ++ Verif.Demo.stored Verif.Demo.conB ++ [(Verif.Demo.bobKey, .int 100)])

/-- The compiled `con_a`. -/
def putFun : Fun :=
  { name := py! "put", args := [(py! "v", some (py! "int"))], deco := .wrapped (py! "__export") Verif.Demo.conA, body := [
    .assert (.op (.cmp (py! "Is")) [.call (.attr (.name (py! "__x")) (py! "get")) [] [], .const .none]) [],
    .expr (.call (.attr (.name (py! "__x")) (py! "set")) [.name (py! "v")] [])] }

theorem compiled_srcA : compileModule Verif.Demo.conA srcA =
    [.decl (py! "__x") (py! "Variable") (ownKws Verif.Demo.conA (py! "x")), .def putFun] := rfl

/-- Once set, `x` stays: that is what the exported function of `con_a` keeps. -/
theorem put_keeps : ∀ body, Exported data Verif.Demo.conA (compileModule Verif.Demo.conA srcA) body →
    KeepsState Verif.Demo.host Verif.Demo.conA SetOnce body := by
  rintro body ⟨C, n, f, w, vs, ks, hCD, hcode, hf, _, _, _, _, rfl⟩
  have hf' : f = putFun := by
    rw [compiled_srcA] at hf
    simpa [funs] using hf
  subst hf'
  have hx : C.global Verif.Demo.conA (py! "__x") = some (.ok (.var Verif.Demo.x)) := by
    unfold Chain.global
    rw [hcode]
    rfl
  intro w0 r w1 h u hu hs
  unfold Chain.body at h
  cases hst : putFun.start C.D (List.map Top.bound (compileModule Verif.Demo.conA srcA)) vs ks with
  | error e => rw [hst] at h; cases h
  | ok l =>
    rw [hst] at h
    have hn : l.names = [py! "v"] := Fun.start_names hst
    have hM : (C.machine n).global = C.global := rfl
    have hMD : (C.machine n).D = data := hCD
    have hb : l.names.contains (py! "__x") = false := by rw [hn]; rfl
    simp only [orRaise, putFun, execAll, exec, evalAll, eval, evalKws, nameVal, hb, hM, hx, attrVal, callVal, callMethod, tick,
      Bool.false_eq_true, if_false] at h
    obtain ⟨_, w2, h1, h⟩ := act_ok (fun _ => rfl) h
    have q1 := quiet_act (c := Verif.Demo.conA) (a := .line true _ _) trivial h1
    simp only [orRaise, if_true, bindArgs] at h
    obtain ⟨d, w3, h1, h⟩ := act_ok (fun _ => rfl) h
    have q2 := q1.trans (quiet_act (c := Verif.Demo.conA) (a := .varGet _) trivial h1)
    have hd : d = u := by
      simp only [Action.run, Variable.get] at h1
      have hs' : (w2.driver.get Verif.Demo.x.key).1 = .ok u := by
        have := congrFun q1.1 (py! "x")
        exact this.trans hs
      rw [pair_of_fst hs'] at h1
      have hne : ¬ u.isNone = true := by cases u <;> first | exact absurd rfl hu | (intro h; cases h)
      simp only [hne, if_false, World.rd] at h1
      cases h1
      rfl
    subst hd
    rw [hMD] at h
    have hne : d.isNone = false := by cases d <;> first | exact absurd rfl hu | rfl
    simp [orRaise, constVal, asDatas, asData, data, hne, truthy, Prog.run] at h

/-- In every history of contracts of the language, `x` of `con_a` stays what it was first set to. -/
example {disk : Disk} {w : World} (h : LangAround Verif.Demo.host data Verif.Demo.conA srcA { driver := .open disk } w)
    {v : PyVal} (hv : v ≠ .none) (hs : stateOf Verif.Demo.conA (.open disk) (py! "x") = .ok v) :
    stateOf Verif.Demo.conA w.driver (py! "x") = .ok v :=
  C93_history (R := SetOnce) (fun _ _ _ h => h) (fun _ _ _ h h' v hv hs => h' v hv (h v hv hs)) put_keeps
    (fun _ _ _ h h' v hv hs => (h _ ⟨Verif.Demo.conA, py! "x", [], by decide, by decide, by decide, rfl⟩) ▸ h' v hv hs) h v hv hs

theorem deployed : Deployed AstDemo.info (sources srcB) (chain srcB) where
  compiled := fun _ => rfl
  accepted := by
    intro c m h
    unfold sources at h
    split at h
    · rename_i e
      cases h
      rw [e]
      exact ⟨_, rfl⟩
    split at h
    · rename_i e
      cases h
      rw [e]
      exact ⟨_, rfl⟩
    · cases h
  plain := by
    intro c m h
    unfold sources at h
    split at h
    · rename_i e
      rw [e]; decide
    split at h
    · rename_i e
      rw [e]; decide
    · cases h

theorem disciplined : ∀ c m, sources srcB c = some m → Disciplined m := by
  intro c m h
  unfold sources at h
  split at h
  · cases h
    refine ⟨?_, ?_⟩
    · simp [srcA, Top.All, stmtsAll, Stmt.All, Expr.All, exprsAll, kwsAll, storageClasses]
    · rw [OwnName, ← names_iff]; decide
  split at h
  · cases h
    refine ⟨?_, ?_⟩
    · simp [srcB, Top.All, stmtsAll, Stmt.All, Expr.All, exprsAll, kwsAll, storageClasses]
    · rw [OwnName, ← names_iff]; decide
  · cases h

/-- `con_b`'s transaction is one of contracts of the language, with respect to `con_a`. -/
theorem langTx : LangTx data Verif.Demo.conA srcA (tx srcB) :=
  ⟨AstDemo.info, sources srcB, chain srcB, 3, rfl, deployed, disciplined, rfl, by decide, rfl⟩

theorem runs : (execute Verif.Demo.host {} (tx srcB) world).1.map Output.status = .ok 0 ∧
    stateOf Verif.Demo.conA (execute Verif.Demo.host {} (tx srcB) world).2.driver (py! "x") = .ok (.int 7) := by
  decide +kernel

/-- `h = Hash()`, and `poke(v)`: `h['a', 'b'] = v`, `h['c'] = v`, `assert h['a', 'b'] is None`. -/
def srcH (check : Bool) : Module := [
  .decl (py! "h") (py! "Hash") [],
  .def { name := py! "poke", args := [(py! "v", some (py! "int"))], deco := .export, body := [
    .assignSub (.name (py! "h")) (.op .tuple [.const (.str (py! "a")), .const (.str (py! "b"))]) (.name (py! "v")),
    .assignSub (.name (py! "h")) (.const (.str (py! "c"))) (.name (py! "v"))] ++
    if check then [.assert (.op (.cmp (py! "Is")) [.sub (.name (py! "h")) (.op .tuple [.const (.str (py! "a")), .const (.str (py! "b"))]),
      .const .none]) []] else [] }]

/-- With tuples. -/
def chainH (check : Bool) : Chain :=
  { chain (srcH check) with D := { data with op := fun o vs => match o with
      | .tuple => .ok (.tuple vs)
      | _ => data.op o vs } }

/-- Entries of a hash written by interpreted code are under the parts of the key, in their order; and are read back. -/
theorem entries_written :
    (let r := execute Verif.Demo.host {} { tx (srcH false) with code := (chainH false).codeFor 3 Verif.Demo.conB (py! "poke") } world
     r.1.map Output.status = .ok 0 ∧ stateOf Verif.Demo.conB r.2.driver (py! "h:a:b") = .ok (.int 7) ∧
       stateOf Verif.Demo.conB r.2.driver (py! "h:b:a") = .ok .none ∧ stateOf Verif.Demo.conB r.2.driver (py! "h:c") = .ok (.int 7)) ∧
    (execute Verif.Demo.host {} { tx (srcH true) with code := (chainH true).codeFor 3 Verif.Demo.conB (py! "poke") } world).1.map Output.status = .ok 1 := by
  decide +kernel

end Demo

/-- **C93 is false if contracts construct storage elsewhere**: `Variable(contract='con_a', name='x').set(v)` in a
function is accepted, and overwrites the `x` of `con_a`, which `con_a` itself never changes once it is set
(`Demo.put_keeps`). -/
theorem C93_refuted :
    Accepted AstDemo.info Verif.Demo.conB (moduleAst Demo.srcBad) ∧
    ¬ Disciplined Demo.srcBad ∧
    let w := Verif.Demo.world (Verif.Demo.stored Verif.Demo.conB ++ [(Verif.Demo.x.key, .int 1), (Verif.Demo.bobKey, .int 100)])
    stateOf Verif.Demo.conA w.driver (py! "x") = .ok (.int 1) ∧
    (execute Verif.Demo.host {} (Demo.tx Demo.srcBad) w).1.map Output.status = .ok 0 ∧
    stateOf Verif.Demo.conA (execute Verif.Demo.host {} (Demo.tx Demo.srcBad) w).2.driver (py! "x") = .ok (.int 7) := by
  refine ⟨⟨_, rfl⟩, fun h => ?_, by decide +kernel⟩
  have := h.mentions _ (by simp [Demo.srcBad]; rfl)
  simp [Top.All, stmtsAll, Stmt.All, Expr.All, exprsAll, kwsAll, storageClasses] at this

end Verif.Lang
