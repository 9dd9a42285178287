import Verif.Spec.TokenSource
import Verif.Props.Source
import Verif.Props.Token
/-!
# C95: the token contract, from its source to the conservation of money

The source text of the token contract, compiled and interpreted, does what `Model/Token.lean` says; so what C92 says of
the money holds of the contract as it is written.
-/
namespace Verif.Lang
open Verif Verif.Spec

namespace Currency

/-- `__balances[i]`. -/
def entry' (i : Expr) : Expr := .sub (.name (py! "__balances")) i

def seed' : Fun :=
  { name := py! "____", args := [], deco := .none, body := [
    .assignSub (.name (py! "__balances")) (.const (.str (py! "stu"))) (.const (.int 1000000)),
    .assignSub (.name (py! "__balances")) (.const (.str (py! "colin"))) (.const (.int 100))] }

def transfer' (c : Str) : Fun :=
  { name := py! "transfer", args := [(py! "amount", some (py! "int")), (py! "to", some (py! "str"))], deco := .wrapped (py! "__export") c, body := [
    .assign (py! "sender") (.attr (.name (py! "ctx")) (py! "signer")),
    .assert (.op (.cmp (py! "GtE")) [entry' (.name (py! "sender")), .name (py! "amount")]) [.const (.str (py! "Not enough coins to send!"))],
    .augSub (py! "Sub") (.name (py! "__balances")) (.name (py! "sender")) (.name (py! "amount")),
    .ite (.op (.cmp (py! "Is")) [entry' (.name (py! "to")), .const .none])
      [.assignSub (.name (py! "__balances")) (.name (py! "to")) (.name (py! "amount"))]
      [.augSub (py! "Add") (.name (py! "__balances")) (.name (py! "to")) (.name (py! "amount"))]] }

def balance' (c : Str) : Fun :=
  { name := py! "balance", args := [(py! "account", some (py! "str"))], deco := .wrapped (py! "__export") c, body := [
    .ret [entry' (.name (py! "account"))]] }

theorem compiled (c : Str) : compileModule c source =
    [.decl (py! "__balances") (py! "Hash") (ownKws c (py! "balances")), .def seed', .def (transfer' c), .def (balance' c)] := rfl

theorem api_getB (c : Str) (a : Comp) (k : PyVal → Prog) : api (.hashGet (Token.balances c) (.one a)) k = Token.getB c a k := by
  unfold api Token.getB
  congr 1
  funext r
  cases r <;> rfl

theorem api_setB (c : Str) (a : Comp) (v : PyVal) (k : Prog) : api (.hashSet (Token.balances c) (.one a) v) (fun _ => k) = Token.setB c a v k := by
  unfold api Token.setB
  congr 1
  funext r
  cases r <;> rfl

theorem orRaise_useR {α : Type} (r : Except PyErr α) (k : α → Prog) : orRaise r k = Token.useR r k := by
  cases r <;> rfl

theorem tick_eq (M : Machine) (c : Str) (s : Stmt) (cost : Nat → Nat × Nat) (i : Nat) (k : Prog) (h : M.cost c s = cost i) :
    tick M c s k = Token.tick cost i k := by
  unfold tick api Token.tick
  rw [h]
  congr 1
  funext r
  cases r <;> rfl

/-- The lines of the file. -/
def line (c : Str) (i : Nat) : Stmt :=
  if i = 5 then seed'.body.headD .pass
  else if i = 6 then (seed'.body.drop 1).headD .pass
  else if i = 10 then (transfer' c).body.headD .pass
  else if i = 11 then ((transfer' c).body.drop 1).headD .pass
  else if i = 13 then ((transfer' c).body.drop 2).headD .pass
  else if i = 15 then ((transfer' c).body.drop 3).headD .pass
  else if i = 16 then .assignSub (.name (py! "__balances")) (.name (py! "to")) (.name (py! "amount"))
  else if i = 18 then .augSub (py! "Add") (.name (py! "__balances")) (.name (py! "to")) (.name (py! "amount"))
  else (balance' c).body.headD .pass

theorem global_balances {C : Chain} {c : Str} (h : C.code c = some (compileModule c source)) :
    C.global c (py! "__balances") = some (.ok (.hash (Token.balances c))) := by
  unfold Chain.global
  rw [h]
  rfl

theorem global_ctx {C : Chain} {c : Str} (h : C.code c = some (compileModule c source)) : C.global c (py! "ctx") = none := by
  unfold Chain.global
  rw [h]
  rfl

/-- After line 10. -/
theorem rest_eq {C : Chain} {c : Str} (hcode : C.code c = some (compileModule c source)) (hD : Arith C.D) (n : Nat) (amount dst v : PyVal)
    (hdst : ∀ vs, dst ≠ .tuple vs) (hv : ∀ vs, v ≠ .tuple vs) {vars : Dict Str Val}
    (ha : Dict.get? vars (py! "amount") = some (.data amount)) (ht : Dict.get? vars (py! "to") = some (.data dst)) :
    execAll (C.machine n) c ((transfer' c).body.drop 1)
      { names := [py! "amount", py! "to", py! "sender"], vars := Dict.set vars (py! "sender") (.data v) } finish =
    Token.transferFrom C.D.nums c (fun i => C.cost c (line c i)) amount (compOf C.D dst) (compOf C.D v) := by
  have hg := global_balances hcode
  have hM : (C.machine n).global = C.global := rfl
  have hMD : (C.machine n).D = C.D := rfl
  have ix : ∀ {x : PyVal}, (∀ vs, x ≠ .tuple vs) → indexOf C.D x = .one (compOf C.D x) := by
    intro x hx
    cases x <;> first | rfl | exact absurd rfl (hx _)
  have g1 : Dict.get? (Dict.set vars (py! "sender") (Val.data v)) (py! "amount") = some (.data amount) := by
    rw [Dict.get?_set, if_neg (by decide)]; exact ha
  have g2 : Dict.get? (Dict.set vars (py! "sender") (Val.data v)) (py! "to") = some (.data dst) := by
    rw [Dict.get?_set, if_neg (by decide)]; exact ht
  have g3 : Dict.get? (Dict.set vars (py! "sender") (Val.data v)) (py! "sender") = some (.data v) := by
    rw [Dict.get?_set, if_pos rfl]
  have n0 : [py! "amount", py! "to", py! "sender"].contains (py! "__balances") = false := by decide
  have n1 : [py! "amount", py! "to", py! "sender"].contains (py! "amount") = true := by decide
  have n2 : [py! "amount", py! "to", py! "sender"].contains (py! "to") = true := by decide
  have n3 : [py! "amount", py! "to", py! "sender"].contains (py! "sender") = true := by decide
  have hb : ∀ b, truthy (.bool b) = b := fun _ => rfl
  simp only [transfer', List.drop, execAll, exec, eval, evalAll, entry', nameVal, n0, n1, n2, n3, g1, g2, g3, hM, hg, hMD, subVal, storeVal, asData, asDatas, ix hdst, ix hv,
    Bool.false_eq_true, if_false, if_true, orRaise, constVal, hD.isNone, hb, finish, Flow.value]
  refine (tick_eq _ _ _ (fun i => C.cost c (line c i)) 11 _ rfl).trans ?_
  rw [api_getB]
  unfold Token.transferFrom
  congr 2
  funext b
  simp only [Data.nums]
  cases C.D.op (.cmp (py! "GtE")) [b, amount] with
  | error e => rfl
  | ok t =>
    simp only [Except.map, Token.useR]
    split
    · refine (tick_eq _ _ _ (fun i => C.cost c (line c i)) 13 _ rfl).trans ?_
      rw [api_getB]
      congr 2
      funext b
      cases C.D.op (.bin (py! "Sub")) [b, amount] with
      | error e => rfl
      | ok x =>
        simp only
        rw [api_setB]
        congr 1
        refine (tick_eq _ _ _ (fun i => C.cost c (line c i)) 15 _ rfl).trans ?_
        rw [api_getB]
        congr 2
        funext y
        split
        · refine (tick_eq _ _ _ (fun i => C.cost c (line c i)) 16 _ rfl).trans ?_
          rw [api_setB]
        · refine (tick_eq _ _ _ (fun i => C.cost c (line c i)) 18 _ rfl).trans ?_
          rw [api_getB]
          congr 2
          funext b
          cases C.D.op (.bin (py! "Add")) [b, amount] with
          | error e => rfl
          | ok z =>
            simp only
            rw [api_setB]
    · rfl

theorem exact {D : Data} (hD : Arith D) : Exact D.nums := by
  intro a b p q ha hb
  refine ⟨?_, hD.sub a b p q ha hb, hD.add a b p q ha hb⟩
  show (D.op (.cmp (py! "GtE")) [a, b]).map truthy = _
  rw [hD.ge a b p q ha hb]
  cases Token.numGe a b <;> rfl

theorem all_given {kwargs : Dict Str PyVal} {ps : List Str} (h : ∀ k ∈ kwargs, k.1 ∈ ps) :
    ((kwargs.map fun p => (p.1, Val.data p.2)).all fun k => ps.contains k.1) = true := by
  simp only [List.all_eq_true, List.mem_map, List.contains_iff_mem]
  rintro q ⟨p, hp, rfl⟩
  exact h p hp

theorem get_data (kwargs : Dict Str PyVal) (p : Str) :
    Dict.get? (kwargs.map fun p => (p.1, Val.data p.2)) p = (Dict.get? kwargs p).map Val.data := by
  induction kwargs with
  | nil => rfl
  | cons q d ih =>
    obtain ⟨k, v⟩ := q
    simp only [List.map_cons, Dict.get?]
    split
    · rfl
    · exact ih

/-- The token contract, compiled from its source, offers `transfer` and `balance` to
transactions (both exported), and the constructor to its submission. -/
theorem entries {C : Chain} {c : Str} (hcode : C.code c = some (compileModule c source)) (n : Nat) :
    C.entry n c (py! "transfer") = some (true, fun kwargs => C.body n c (compileModule c source) (transfer' c) [] (kwargs.map fun p => (p.1, .data p.2))) ∧
    C.entry n c (py! "balance") = some (true, fun kwargs => C.body n c (compileModule c source) (balance' c) [] (kwargs.map fun p => (p.1, .data p.2))) ∧
    C.entry n c (py! "____") = some (false, fun kwargs => C.body n c (compileModule c source) seed' [] (kwargs.map fun p => (p.1, .data p.2))) := by
  have hw : C.systemWrapper c (py! "__export") = true := by
    unfold Chain.systemWrapper Chain.global
    rw [hcode]
    rfl
  refine ⟨?_, ?_, ?_⟩
  · unfold Chain.entry
    rw [hcode]
    show (if C.systemWrapper c (py! "__export") = true then _ else _) = _
    rw [hw]
    rfl
  · unfold Chain.entry
    rw [hcode]
    show (if C.systemWrapper c (py! "__export") = true then _ else _) = _
    rw [hw]
    rfl
  · unfold Chain.entry
    rw [hcode]
    rfl

theorem transfer_start {D : Data} {c : Str} {own : List Str} {kwargs : Dict Str PyVal} {amount dst : PyVal}
    (hg : ∀ k ∈ kwargs, k.1 ∈ [py! "amount", py! "to"]) (ha : Dict.get? kwargs (py! "amount") = some amount)
    (ht : Dict.get? kwargs (py! "to") = some dst) :
    (transfer' c).start D own [] (kwargs.map fun p => (p.1, .data p.2)) =
      .ok { names := [py! "amount", py! "to", py! "sender"], vars := [(py! "amount", .data amount), (py! "to", .data dst)] } := by
  show (bindArgs [py! "amount", py! "to"] [] [] (kwargs.map fun p => (p.1, .data p.2))).bind (fun b => _) = _
  have : bindArgs [py! "amount", py! "to"] [] [] (kwargs.map fun p => (p.1, .data p.2)) =
      .ok [(py! "amount", .data amount), (py! "to", .data dst)] := by
    unfold bindArgs
    rw [if_neg (by simp)]
    have hall := all_given hg
    simp only [List.length_nil, List.drop_zero] at hall ⊢
    rw [if_pos hall]
    simp only [fillArgs, get_data, ha, ht, Option.map, Option.or, Except.map]
    rfl
  rw [this]
  rfl

theorem start_raises {D : Data} {own : List Str} {f : Fun} (hd : f.defaults = []) {kwargs : Dict Str PyVal}
    (h : ¬ Given kwargs (f.args.map Prod.fst)) : f.start D own [] (kwargs.map fun p => (p.1, .data p.2)) = .error .typeError := by
  have hdv : f.defaultVals D own = .ok [] := by
    unfold Fun.defaultVals
    rw [hd]
    simp [pureVals, Except.map]
  unfold Fun.start
  rw [hdv]
  simp only [bind, Except.bind]
  have : bindArgs (f.args.map Prod.fst) [] [] (kwargs.map fun p => (p.1, .data p.2)) = .error .typeError := by
    unfold bindArgs
    rw [if_neg (by simp)]
    simp only [List.length_nil, List.drop_zero]
    split
    · rename_i hall
      have hmem : ∀ k ∈ kwargs, k.1 ∈ f.args.map Prod.fst := by
        simp only [List.all_eq_true, List.mem_map, List.contains_iff_mem] at hall
        intro k hk
        have := hall _ ⟨k, hk, rfl⟩
        simpa using this
      have hmiss : ∃ p ∈ f.args.map Prod.fst, Dict.get? kwargs p = none := by
        by_contra hno
        refine h ⟨hmem, fun p hp => ?_⟩
        cases hg : Dict.get? kwargs p with
        | none => exact absurd ⟨p, hp, hg⟩ hno
        | some v => rfl
      obtain ⟨p, hp, hn⟩ := hmiss
      have : ∀ ps : List Str, p ∈ ps → fillArgs (kwargs.map fun p => (p.1, Val.data p.2)) [] ps = .error .typeError := by
        intro ps
        induction ps with
        | nil => intro h; cases h
        | cons q ps ih =>
          intro hm
          unfold fillArgs
          rw [get_data]
          rcases List.mem_cons.1 hm with rfl | hm
          · rw [hn]
            rfl
          · rw [ih hm]
            cases Dict.get? kwargs q <;> rfl
      rw [this _ hp]
      rfl
    · rfl
  rw [this]

theorem ctx_signer {C : Chain} {c : Str} (hcode : C.code c = some (compileModule c source)) (n : Nat) (vars : Dict Str Val) (k : Val → Prog) :
    eval (C.machine n) c { names := [py! "amount", py! "to", py! "sender"], vars := vars } (.attr (.name (py! "ctx")) (py! "signer")) k =
      api .ctxSigner fun v => k (.data v) := by
  have hM : (C.machine n).global = C.global := rfl
  have n0 : [py! "amount", py! "to", py! "sender"].contains (py! "ctx") = false := by decide
  simp only [eval, nameVal, n0, hM, global_ctx hcode, Bool.false_eq_true, if_false]
  rfl

end Currency

open Currency in
/-- **C95, `transfer`.** A transaction that calls `transfer` of the deployed token contract with the arguments `amount`
and `to` (not a tuple) does, in every state, what `Token.transfer` says; with other arguments it does nothing but raise
a `TypeError`. -/
theorem C95_transfer {C : Chain} {c : Str} (hcode : C.code c = some (compileModule c source)) (hD : Arith C.D) (n : Nat) :
    ∃ fn cost, C.entry n c (py! "transfer") = some (true, fn) ∧
      (∀ kwargs amount dst, Given kwargs [py! "amount", py! "to"] → Dict.get? kwargs (py! "amount") = some amount →
        Dict.get? kwargs (py! "to") = some dst → (∀ vs, dst ≠ .tuple vs) →
        Does (fn kwargs) (Token.transfer C.D.nums c cost amount (compOf C.D dst))) ∧
      ∀ kwargs, ¬ Given kwargs [py! "amount", py! "to"] → fn kwargs = .raise .typeError := by
  refine ⟨_, fun i => C.cost c (line c i), (entries hcode n).1, ?_, ?_⟩
  · intro kwargs amount dst hg ha ht hdst H w
    simp only [Chain.body, transfer_start hg.1 ha ht, orRaise]
    have hb : (transfer' c).body = .assign (py! "sender") (.attr (.name (py! "ctx")) (py! "signer")) :: (transfer' c).body.drop 1 := rfl
    rw [hb, execAll, exec, ctx_signer hcode, tick_eq _ _ _ (fun i => C.cost c (line c i)) 10 _ rfl]
    unfold Token.transfer Token.tick
    simp only [Prog.run]
    rcases hline : Action.run H w (.line true (C.cost c (line c 10)).1 (C.cost c (line c 10)).2) with ⟨r, w1⟩
    simp only
    cases r with
    | error e => rfl
    | ok _ =>
      simp only [api, Prog.run, Action.run, orRaise]
      cases hs : w1.current.signer with
      | none =>
        simp only [optStr, Locals.set]
        rw [rest_eq hcode hD n amount dst .none hdst (fun _ h => by cases h) (vars := [(py! "amount", .data amount), (py! "to", .data dst)]) rfl rfl]
        simp only [compOf, hD.strNone]
      | some s =>
        simp only [optStr, Locals.set]
        rw [rest_eq hcode hD n amount dst (.str s) hdst (fun _ h => by cases h) (vars := [(py! "amount", .data amount), (py! "to", .data dst)]) rfl rfl]
        rfl
  · intro kwargs hg
    simp only [Chain.body]
    rw [start_raises (f := transfer' c) rfl hg]
    rfl

open Currency in
/-- **C95, `balance`.** -/
theorem C95_balance {C : Chain} {c : Str} (hcode : C.code c = some (compileModule c source)) (n : Nat) :
    ∃ fn cost, C.entry n c (py! "balance") = some (true, fn) ∧
      (∀ kwargs account, Given kwargs [py! "account"] → Dict.get? kwargs (py! "account") = some account →
        (∀ vs, account ≠ .tuple vs) → fn kwargs = Token.balance c cost (compOf C.D account)) ∧
      ∀ kwargs, ¬ Given kwargs [py! "account"] → fn kwargs = .raise .typeError := by
  refine ⟨_, fun i => C.cost c (line c i), (entries hcode n).2.1, ?_, ?_⟩
  · intro kwargs account hg ha hac
    have hst : (balance' c).start C.D ((compileModule c source).map Top.bound) [] (kwargs.map fun p => (p.1, .data p.2)) =
        .ok { names := [py! "account"], vars := [(py! "account", .data account)] } := by
      show (bindArgs [py! "account"] [] [] (kwargs.map fun p => (p.1, .data p.2))).bind (fun b => _) = _
      have : bindArgs [py! "account"] [] [] (kwargs.map fun p => (p.1, .data p.2)) = .ok [(py! "account", .data account)] := by
        unfold bindArgs
        rw [if_neg (by simp)]
        have hall := all_given hg.1
        simp only [List.length_nil, List.drop_zero] at hall ⊢
        rw [if_pos hall]
        simp only [fillArgs, get_data, ha, Option.map, Option.or, Except.map]
        rfl
      rw [this]
      rfl
    simp only [Chain.body, hst, orRaise]
    have ix : indexOf C.D account = .one (compOf C.D account) := by
      cases account <;> first | rfl | exact absurd rfl (hac _)
    have n0 : [py! "account"].contains (py! "__balances") = false := by decide
    have n1 : [py! "account"].contains (py! "account") = true := by decide
    have g1 : Dict.get? [(py! "account", Val.data account)] (py! "account") = some (.data account) := rfl
    have hM : (C.machine n).global = C.global := rfl
    have hMD : (C.machine n).D = C.D := rfl
    simp only [balance', execAll, exec, evalAll, eval, entry', nameVal, n0, n1, g1, hM, hMD, global_balances hcode, subVal, asData, ix, orRaise,
      Bool.false_eq_true, if_false, if_true, finish, Flow.value, List.headD]
    refine (tick_eq _ _ _ (fun i => C.cost c (line c i)) 22 _ rfl).trans ?_
    rw [api_getB]
    rfl
  · intro kwargs hg
    simp only [Chain.body]
    rw [start_raises (f := balance' c) rfl hg]
    rfl

open Currency in
/-- **C95, the constructor.** It is not exported, and gives `stu` 1000000 and `colin` 100. -/
theorem C95_seed {C : Chain} {c : Str} (hcode : C.code c = some (compileModule c source)) (n : Nat) :
    ∃ fn cost, C.entry n c (py! "____") = some (false, fn) ∧ fn [] = seeded c cost := by
  refine ⟨_, fun i => C.cost c (line c i), (entries hcode n).2.2, ?_⟩
  have hst : seed'.start C.D ((compileModule c source).map Top.bound) [] (([] : Dict Str PyVal).map fun p => (p.1, Val.data p.2)) =
      .ok { names := [], vars := [] } := rfl
  have hM : (C.machine n).global = C.global := rfl
  have hMD : (C.machine n).D = C.D := rfl
  simp only [Chain.body, hst, orRaise]
  have n0 : ([] : List Str).contains (py! "__balances") = false := rfl
  simp only [seed', execAll, exec, eval, nameVal, n0, hM, hMD, global_balances hcode, storeVal, asData, indexOf, compOf, constVal, orRaise,
      Bool.false_eq_true, if_false, if_true, finish, Flow.value]
  refine (tick_eq _ _ _ (fun i => C.cost c (line c i)) 5 _ rfl).trans ?_
  rw [api_setB]
  unfold seeded
  congr 2
  refine (tick_eq _ _ _ (fun i => C.cost c (line c i)) 6 _ rfl).trans ?_
  rw [api_setB]

theorem quiet_supply {c : Str} {w w1 : World} (h : Quiet c w w1) {T : ℚ} (hS : Supply (stateOf c w.driver) T) :
    Supply (stateOf c w1.driver) T := by rw [h.1]; exact hS

/-- **C95, minting.** Where nobody had a balance, there are 1000100 coins when the constructor has run. -/
theorem C95_minted {H : Host} {c : Str} {cost : Nat → Nat × Nat} {w w' : World} {v : PyVal} (hb : w.driver.bypass = false)
    (h0 : ∀ a, Spec.Plain a → stateOf c w.driver (py! "balances:" ++ a) = .ok .none)
    (h : (Currency.seeded c cost).run H w = (.ok v, w')) : Supply (stateOf c w'.driver) 1000100 := by
  have hS : Supply (stateOf c w.driver) 0 :=
    ⟨fun _ => 0, ∅, fun a ha => ⟨⟨.none, h0 a ha, .absent⟩, le_refl _⟩, by simp, by simp, by simp, by norm_num⟩
  have hstu : Spec.Plain (py! "stu") := by decide
  have hcol : Spec.Plain (py! "colin") := by decide
  obtain ⟨w1, k1, h⟩ := tick_ok (c := c) h
  obtain ⟨w2, h, b2, s2⟩ := setB_ok (by rw [k1.2]; exact hb) (.int 1000000) (by simp) h
  have hp : Holds (stateOf c w1.driver) (py! "stu") 0 := ⟨.none, by rw [k1.1]; exact h0 _ hstu, .absent⟩
  have hS2 := Supply.update (quiet_supply k1 hS) hstu hp (.int 1000000) (by norm_num) s2 (by norm_num)
  obtain ⟨w3, k3, h⟩ := tick_ok (c := c) h
  obtain ⟨w4, h, b4, s4⟩ := setB_ok (by rw [k3.2]; exact b2) (.int 100) (by simp) h
  have hp4 : Holds (stateOf c w3.driver) (py! "colin") 0 := by
    refine ⟨.none, ?_, .absent⟩
    rw [k3.1, s2, if_neg (by decide), k1.1]
    exact h0 _ hcol
  have hS4 := Supply.update (quiet_supply k3 hS2) hcol hp4 (.int 100) (by norm_num) s4 (by norm_num)
  cases h
  have e : (0 : ℚ) + ((1000000 : ℤ) : ℚ) - 0 + ((100 : ℤ) : ℚ) - 0 = 1000100 := by norm_num
  rw [e] at hS4
  exact hS4

open Currency in
theorem entry_cases {C : Chain} {c : Str} (hcode : C.code c = some (compileModule c source)) (n : Nat) {fname : Str}
    {fn : Bool × (Dict Str PyVal → Prog)} (h : C.entry n c fname = some fn) :
    fname = py! "transfer" ∨ fname = py! "balance" ∨ fname = py! "____" := by
  by_contra hno
  rw [not_or, not_or] at hno
  unfold Chain.entry at h
  rw [hcode] at h
  have : globalOf C.D c (compileModule c source) fname = none ∨ ∃ h, globalOf C.D c (compileModule c source) fname = some (.ok (.hash h)) := by
    rw [compiled]
    unfold globalOf bindings
    simp only [bindings, List.reverse_cons, List.reverse_nil, List.nil_append, List.cons_append, Dict.get?]
    rw [if_neg (fun e => hno.2.1 (by rw [← e]; rfl)), if_neg (fun e => hno.1 (by rw [← e]; rfl)), if_neg (fun e => hno.2.2 (by rw [← e]; rfl))]
    by_cases hx : py! "__balances" = fname
    · right
      rw [if_pos hx]
      exact ⟨Token.balances c, rfl⟩
    · left
      rw [if_neg hx]
  rcases this with e | ⟨x, e⟩
  · simp only [e] at h
    cases h
  · simp only [e] at h
    cases h

open Currency in
/-- **C95, transactions.** A transaction on the deployed contract is one of those C92 is about. -/
theorem C95_transaction {C : Chain} {c : Str} (hcode : C.code c = some (compileModule c source)) (hD : Arith C.D) {n : Nat} {tx : Tx}
    (h : TokenTx C n c tx) : TxOutside c (TokenFn c) tx := by
  have hfn : ∀ {fn}, tx.code.fn = some fn → C.entry n c tx.function = some fn := by
    intro fn hf
    rw [h.code] at hf
    exact hf
  have hbody : ∀ {fn}, tx.code.fn = some fn → ∃ f ∈ funs (compileModule c source), fn = (true, fun kwargs =>
      C.body n c (compileModule c source) f [] (kwargs.map fun p => (p.1, .data p.2))) := by
    intro fn hf
    have hf := hfn hf
    rcases entry_cases hcode n hf with e | e | e
    · rw [e, (entries hcode n).1] at hf
      exact ⟨transfer' c, by rw [compiled]; simp [funs], (Option.some.inj hf).symm⟩
    · rw [e, (entries hcode n).2.1] at hf
      exact ⟨balance' c, by rw [compiled]; simp [funs], (Option.some.inj hf).symm⟩
    · have := h.isPublic
      rw [e] at this
      cases this
  have hany : ∀ (k : Str) fn, tx.code.fn = some fn → ∀ kwargs, (fn.2 kwargs).NoCatch ∧ (fn.2 kwargs).All (Action.NoMutate k) := by
    intro k fn hf kwargs
    obtain ⟨f, hm, rfl⟩ := hbody hf
    exact Chain.body_P (any_closed k) (any_allows k) (any_ready k C) n c _ f _ _ trivial hcode hm (fun _ _ => trivial) (fun _ _ => trivial)
  have htop : tx.code.top = C.top n c := by rw [h.code]; rfl
  refine
    { top := ?_
      fn := ?_
      topNoCatch := by rw [htop]; exact (Chain.top_P (any_closed []) (any_allows []) (fun _ _ _ _ _ _ _ _ _ _ => trivial) n c).1
      fnNoCatch := fun fn hf kwargs => (hany [] fn hf kwargs).1
      noMutate := fun k => ⟨by rw [htop]; exact (Chain.top_P (any_closed _) (any_allows _) (fun _ _ _ _ _ _ _ _ _ _ => trivial) n c).2, fun fn hf kwargs => (hany _ fn hf kwargs).2⟩ }
  · rw [htop]
    cases n with
    | zero => exact trivial
    | succ n =>
      unfold Chain.top
      rw [hcode]
      simp only [compiled, topProg, topStep]
      refine ⟨trivial, fun r => ?_⟩
      rcases r with e | v
      · exact trivial
      show Outside c _ (orRaise _ _)
      have hor : ∀ {α : Type} (r : Except PyErr α) (k : Prog), Outside c (TokenFn c) k → Outside c (TokenFn c) (orRaise r fun _ => k) := by
        intro α r k hk
        cases r with
        | ok v => exact hk
        | error e => exact trivial
      have hapi : ∀ (a b : Nat) (k : Prog), Outside c (TokenFn c) k → Outside c (TokenFn c) (api (.line true a b) fun _ => k) := by
        intro a b k hk
        refine ⟨trivial, fun r => ?_⟩
        cases r with
        | ok v => exact hk
        | error e => exact trivial
      exact hor _ _ (hapi _ _ _ (hor _ _ (hapi _ _ _ (hor _ _ (hapi _ _ _ (hor _ _ trivial))))))
  · intro fn kwargs hf hk
    have hf' := hfn hf
    obtain ⟨f, _, hfe⟩ := hbody hf
    have hF : TokenFn c (fn.2 kwargs) := by
      rcases entry_cases hcode n hf' with e | e | e
      · obtain ⟨fn0, cost, he, h1, h2⟩ := C95_transfer hcode hD n
        rw [e, he] at hf'
        cases hf'
        by_cases hg : Given kwargs [py! "amount", py! "to"]
        · obtain ⟨a, ha⟩ := Option.isSome_iff_exists.1 (hg.2 (py! "amount") (by simp))
          obtain ⟨d, hd⟩ := Option.isSome_iff_exists.1 (hg.2 (py! "to") (by simp))
          obtain ⟨hn, q, hq, hq0⟩ := h.amount kwargs a hk ha
          obtain ⟨ht, hp⟩ := h.dst kwargs d hk hd
          exact .inr (.inr ⟨_, _, a, _, q, Currency.exact hD, hq, hq0, hn, hp, h1 kwargs a d hg ha hd ht⟩)
        · exact .inl ⟨.typeError, fun H w => congrArg (fun p => p.run H w) (h2 kwargs hg)⟩
      · obtain ⟨fn0, cost, he, h1, h2⟩ := C95_balance hcode n
        rw [e, he] at hf'
        cases hf'
        by_cases hg : Given kwargs [py! "account"]
        · obtain ⟨a, ha⟩ := Option.isSome_iff_exists.1 (hg.2 (py! "account") (by simp))
          exact .inr (.inl ⟨cost, compOf C.D a, fun H w => congrArg (fun p => p.run H w) (h1 kwargs a hg ha (h.account kwargs a hk ha))⟩)
        · exact .inl ⟨.typeError, fun H w => congrArg (fun p => p.run H w) (h2 kwargs hg)⟩
      · have := h.isPublic
        rw [e] at this
        cases this
    subst hfe
    refine ⟨fun _ => hF, fun hne => absurd h.contract hne, fun r => ?_⟩
    cases r <;> exact trivial

open Currency in
/-- **C95, conservation.** A transaction on the deployed contract -- compiled from its source and interpreted -- that
does not ask for a negative amount leaves the supply as it is, if it is not metered, whether it succeeds or fails; if
it is, exactly what the sender pays disappears. -/
theorem C95_conserved {H : Host} {cfg : ExecCfg} {C : Chain} {c : Str} (hcode : C.code c = some (compileModule c source)) (hD : Arith C.D)
    {n : Nat} {tx : Tx} (ht : TokenTx C n c tx) (hc : tx.autoCommit = false) (hs : Spec.Plain tx.sender) {w w' : World} {o : Output}
    (hst : w.stack = []) (hby : w.driver.bypass = false) (h : execute H cfg tx w = (.ok o, w')) {T : ℚ} (hT : Supply (stateOf c w.driver) T) :
    (tx.metered cfg = false → Supply (stateOf c w'.driver) T) ∧
    (tx.metered cfg = true → cfg.currency = c → cfg.balances = py! "balances" →
      ∃ fee, cdOfStr (H.fdiv o.stampsUsed tx.stampCost).text = .ok fee ∧ (0 ≤ fee.val →
        ∃ paid, 0 ≤ paid ∧ paid ≤ fee.val ∧ Supply (stateOf c w'.driver) (T - paid) ∧
          (paid = fee.val ∨ Holds (stateOf c w'.driver) tx.sender 0))) :=
  C92_transaction (C95_transaction hcode hD ht) hc hs hst hby h hT

/-! ### Examples -/

namespace TokenDemo

/-- Python with the arithmetic of amounts. -/
def data : Data :=
  { Lang.Demo.data with
    op := fun o vs => match o, vs with
      | .cmp op, [a, b] =>
        if op = py! "Is" then .ok (.bool (a.isNone && b.isNone))
        else if op = py! "GtE" then (Token.numGe a b).map .bool else .error .typeError
      | .bin op, [a, b] => if op = py! "Sub" then Token.numSub a b else if op = py! "Add" then Token.numAdd a b else .error .typeError
      | _, _ => .error .typeError
    str := fun _ => py! "None" }

theorem arith : Arith data where
  ge := fun _ _ _ _ _ _ => rfl
  sub := fun _ _ _ _ _ _ => rfl
  add := fun _ _ _ _ _ _ => rfl
  isNone := fun a => by
    show Except.ok (PyVal.bool (a.isNone && true)) = _
    rw [Bool.and_true]
  strNone := rfl

/-- A chain with the token contract. -/
def chain : Chain where
  D := data
  cost := fun _ _ => (1, 0)
  topCost := fun _ _ => (1, 0)
  code := fun c => if c = Verif.Demo.currency then some (compileModule c Currency.source) else none

theorem code : chain.code Verif.Demo.currency = some (compileModule Verif.Demo.currency Currency.source) := rfl

/-- `bob` transfers to `alice`. -/
def tx (amount : PyVal) : Tx :=
  { sender := Verif.Demo.bob, contract := Verif.Demo.currency, function := py! "transfer",
    kwargs := [(py! "to", .str Verif.Demo.alice), (py! "amount", amount)], stamps := 50, stampCost := 1,
    code := chain.codeFor 3 Verif.Demo.currency (py! "transfer") }

/-- The token contract is deployed, `bob` has 100. -/
def world : World := Verif.Demo.world (Verif.Demo.stored Verif.Demo.currency ++ [(Verif.Demo.bobKey, .int 100)])

theorem tokenTx : TokenTx chain 3 Verif.Demo.currency (tx (.int 30)) where
  contract := rfl
  code := rfl
  isPublic := rfl
  amount := by
    intro kwargs v hk hv
    have : fixKwargs (tx (.int 30)).kwargs = .ok [(py! "to", .str Verif.Demo.alice), (py! "amount", .int 30)] := rfl
    rw [this] at hk
    cases hk
    cases hv
    exact ⟨by simp, 30, by exact_mod_cast Money.int 30, by norm_num⟩
  dst := by
    intro kwargs v hk hv
    have : fixKwargs (tx (.int 30)).kwargs = .ok [(py! "to", .str Verif.Demo.alice), (py! "amount", .int 30)] := rfl
    rw [this] at hk
    cases hk
    cases hv
    exact ⟨by simp, by decide⟩
  account := by
    intro kwargs v hk hv
    have : fixKwargs (tx (.int 30)).kwargs = .ok [(py! "to", .str Verif.Demo.alice), (py! "amount", .int 30)] := rfl
    rw [this] at hk
    cases hk
    cases hv

/-- The hypotheses are met, and what the interpreted source does: 30 coins go to `alice`, nothing else changes hands. -/
example : TxOutside Verif.Demo.currency (TokenFn Verif.Demo.currency) (tx (.int 30)) ∧
    (execute Verif.Demo.host { metering := false } (tx (.int 30)) world).1.map Output.status = .ok 0 ∧
    stateOf Verif.Demo.currency (execute Verif.Demo.host { metering := false } (tx (.int 30)) world).2.driver (py! "balances:bob") = .ok (.int 70) ∧
    stateOf Verif.Demo.currency (execute Verif.Demo.host { metering := false } (tx (.int 30)) world).2.driver (py! "balances:alice") = .ok (.int 30) :=
  ⟨C95_transaction code arith tokenTx, by decide +kernel⟩

/-- The contract is one the compiler accepts, and one C94 applies to: the source means the same. -/
theorem accepted : Accepted AstDemo.info Verif.Demo.currency (moduleAst Currency.source) := ⟨_, rfl⟩

/-- The constructor runs where nobody has anything. -/
example : ((Currency.seeded Verif.Demo.currency fun _ => (1, 0)).run Verif.Demo.host (Verif.Demo.world [])).1 = .ok .none := by decide +kernel

/-- The source refuses more than there is, does not refuse negative amounts. -/
example : (execute Verif.Demo.host { metering := false } (tx (.int 101)) world).1.map Output.result = .ok (.error .assertion) ∧
    stateOf Verif.Demo.currency (execute Verif.Demo.host { metering := false } (tx (.int (-50))) world).2.driver (py! "balances:bob") = .ok (.int 150) := by
  decide +kernel

end TokenDemo

end Verif.Lang
