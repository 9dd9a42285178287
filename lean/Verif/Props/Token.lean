import Verif.Spec.Token
import Verif.Props.Guard
import Verif.Props.Decimal
import Mathlib.Algebra.BigOperators.Group.Finset.Piecewise
import Mathlib.Tactic.Linarith
/-!
# Property C92: the currency is conserved
-/
namespace Verif
open Spec Verif.Dec

/-! ### Numbers -/

theorem Spec.Money.grid {v : PyVal} {q : ℚ} (h : Money v q) : ∃ n : ℤ, q = n / 10 ^ 30 := by
  cases h with
  | absent => exact ⟨0, by simp⟩
  | int i => exact ⟨i * 10 ^ 30, int_grid _⟩
  | dec hd => exact hd.range.2.2

theorem cdOfInt_exact {i : ℤ} {x : Dec} (h : cdOfInt i = .ok x) (hi : (i : ℚ) ≤ 10 ^ 29) : IsCD x ∧ x.val = i :=
  ⟨⟨decOfInt i, h⟩, exact_of_agrees (C01_int_operand i) h hi ⟨i * 10 ^ 30, int_grid _⟩⟩

/-- An int above the cap counts as the cap. -/
theorem cdOfInt_cap {i : ℤ} {x : Dec} (h : cdOfInt i = .ok x) (hi : ¬ (i : ℚ) ≤ 10 ^ 29) : x.val = 10 ^ 29 := by
  have := C01_int_operand i
  unfold Spec.fix at this
  rw [if_pos (not_le.1 hi)] at this
  obtain ⟨d, h1, h2⟩ := this
  rw [h] at h1; cases h1; exact h2

theorem sub_exact {a b r : Dec} (ha : IsCD a) (hb : IsCD b) (h : cdSub a b = .ok r) (hle : a.val - b.val ≤ 10 ^ 29) :
    IsCD r ∧ r.val = a.val - b.val := by
  refine ⟨cdOp_isCD h, exact_of_agrees (C01_sub ha hb) h hle ?_⟩
  obtain ⟨n, hn⟩ := ha.range.2.2
  obtain ⟨m, hm⟩ := hb.range.2.2
  exact ⟨n - m, by rw [hn, hm]; push_cast; ring⟩

theorem add_exact {a b r : Dec} (ha : IsCD a) (hb : IsCD b) (h : cdAdd a b = .ok r) (hle : a.val + b.val ≤ 10 ^ 29) :
    IsCD r ∧ r.val = a.val + b.val := by
  refine ⟨cdOp_isCD h, exact_of_agrees (C01_add ha hb) h hle ?_⟩
  obtain ⟨n, hn⟩ := ha.range.2.2
  obtain ⟨m, hm⟩ := hb.range.2.2
  exact ⟨n + m, by rw [hn, hm]; push_cast; ring⟩

/-- The check passes only if there is enough. -/
theorem numGe_spec {a b : PyVal} {p q : ℚ} (ha : Money a p) (hb : Money b q) (hp : p < 10 ^ 29)
    (h : Token.numGe a b = .ok true) : q ≤ p := by
  cases ha with
  | absent => cases hb <;> cases h
  | int i =>
    cases hb with
    | absent => cases h
    | int j =>
      simp only [Token.numGe, Except.ok.injEq, decide_eq_true_eq] at h
      exact_mod_cast h
    | dec hd =>
      simp only [Token.numGe] at h
      cases hx : cdOfInt i with
      | error e => rw [hx] at h; cases h
      | ok x =>
        rw [hx] at h
        simp only [Except.map, Except.ok.injEq] at h
        have := ((C05_order _ _).2.1).1 h
        rw [(cdOfInt_exact hx hp.le).2] at this
        exact this
  | dec hd =>
    cases hb with
    | absent => cases h
    | int j =>
      simp only [Token.numGe, cdGeInt] at h
      cases hx : cdOfInt j with
      | error e => rw [hx] at h; cases h
      | ok x =>
        rw [hx] at h
        rename_i d
        have h' : cdGe d x = true := by
          simp only [bind, Except.bind, pure, Except.pure, Except.ok.injEq] at h; exact h
        have := ((C05_order _ _).2.2.2.1).1 h'
        by_cases hj : (j : ℚ) ≤ 10 ^ 29
        · rw [(cdOfInt_exact hx hj).2] at this; exact this
        · rw [cdOfInt_cap hx hj] at this
          exact absurd this (not_le.2 hp)
    | dec hd' =>
      simp only [Token.numGe, Except.ok.injEq] at h
      exact ((C05_order _ _).2.2.2.1).1 h

/-- Subtraction of what is there. -/
theorem numSub_spec {a b v : PyVal} {p q : ℚ} (ha : Money a p) (hb : Money b q) (hq0 : 0 ≤ q) (hq : q ≤ p) (hp : p < 10 ^ 29)
    (h : Token.numSub a b = .ok v) : Money v (p - q) ∧ v ≠ .none := by
  have hle : p - q ≤ 10 ^ 29 := by linarith
  cases ha with
  | absent => cases hb <;> cases h
  | int i =>
    cases hb with
    | absent => cases h
    | int j => cases h; exact ⟨by have := Money.int (i - j); push_cast at this; exact this, by simp⟩
    | dec hd =>
      simp only [Token.numSub] at h
      cases hx : cdOfInt i with
      | error e => rw [hx] at h; cases h
      | ok x =>
        obtain ⟨h1, h2⟩ := cdOfInt_exact hx hp.le
        rw [hx] at h
        simp only [Except.bind] at h
        cases hr : cdSub x _ with
        | error e => rw [hr] at h; cases h
        | ok r =>
          rw [hr] at h; cases h
          obtain ⟨h3, h4⟩ := sub_exact h1 hd hr (by rw [h2]; exact hle)
          rw [← h2, ← h4]
          exact ⟨.dec h3, by simp⟩
  | dec hd =>
    cases hb with
    | absent => cases h
    | int j =>
      simp only [Token.numSub] at h
      cases hx : cdOfInt j with
      | error e => rw [hx] at h; cases h
      | ok x =>
        obtain ⟨h1, h2⟩ := cdOfInt_exact hx (by linarith)
        rw [hx] at h
        simp only [Except.bind] at h
        cases hr : cdSub _ x with
        | error e => rw [hr] at h; cases h
        | ok r =>
          rw [hr] at h; cases h
          obtain ⟨h3, h4⟩ := sub_exact hd h1 hr (by rw [h2]; exact hle)
          rw [← h2, ← h4]
          exact ⟨.dec h3, by simp⟩
    | dec hd' =>
      simp only [Token.numSub] at h
      cases hr : cdSub _ _ with
      | error e => rw [hr] at h; cases h
      | ok r =>
        rw [hr] at h; cases h
        obtain ⟨h3, h4⟩ := sub_exact hd hd' hr hle
        rw [← h4]
        exact ⟨.dec h3, by simp⟩

/-- Addition below the cap. -/
theorem numAdd_spec {a b v : PyVal} {p q : ℚ} (ha : Money a p) (hb : Money b q) (hp0 : 0 ≤ p) (hq0 : 0 ≤ q) (hle : p + q ≤ 10 ^ 29)
    (h : Token.numAdd a b = .ok v) : Money v (p + q) ∧ v ≠ .none := by
  cases ha with
  | absent => cases hb <;> cases h
  | int i =>
    cases hb with
    | absent => cases h
    | int j => cases h; exact ⟨by have := Money.int (i + j); push_cast at this; exact this, by simp⟩
    | dec hd =>
      simp only [Token.numAdd] at h
      cases hx : cdOfInt i with
      | error e => rw [hx] at h; cases h
      | ok x =>
        obtain ⟨h1, h2⟩ := cdOfInt_exact hx (by linarith)
        rw [hx] at h
        simp only [Except.bind] at h
        cases hr : cdAdd x _ with
        | error e => rw [hr] at h; cases h
        | ok r =>
          rw [hr] at h; cases h
          obtain ⟨h3, h4⟩ := add_exact h1 hd hr (by rw [h2]; exact hle)
          rw [← h2, ← h4]
          exact ⟨.dec h3, by simp⟩
  | dec hd =>
    cases hb with
    | absent => cases h
    | int j =>
      simp only [Token.numAdd] at h
      cases hx : cdOfInt j with
      | error e => rw [hx] at h; cases h
      | ok x =>
        obtain ⟨h1, h2⟩ := cdOfInt_exact hx (by linarith)
        rw [hx] at h
        simp only [Except.bind] at h
        cases hr : cdAdd _ x with
        | error e => rw [hr] at h; cases h
        | ok r =>
          rw [hr] at h; cases h
          obtain ⟨h3, h4⟩ := add_exact hd h1 hr (by rw [h2]; exact hle)
          rw [← h2, ← h4]
          exact ⟨.dec h3, by simp⟩
    | dec hd' =>
      simp only [Token.numAdd] at h
      cases hr : cdAdd _ _ with
      | error e => rw [hr] at h; cases h
      | ok r =>
        rw [hr] at h; cases h
        obtain ⟨h3, h4⟩ := add_exact hd hd' hr hle
        rw [← h4]
        exact ⟨.dec h3, by simp⟩

/-! ### Steps of the program -/

theorem act_ok {H : Host} {a : Action} {k : Except PyErr PyVal → Prog} (hk : ∀ e, k (.error e) = .raise e) {w w' : World} {v : PyVal}
    (h : (Prog.act a k).run H w = (.ok v, w')) : ∃ u w1, a.run H w = (.ok u, w1) ∧ (k (.ok u)).run H w1 = (.ok v, w') := by
  simp only [Prog.run] at h
  cases hr : a.run H w with
  | mk r w1 =>
    rw [hr] at h
    cases r with
    | error e => rw [hk e] at h; cases h
    | ok u => exact ⟨u, w1, rfl, h⟩

/-- What a step leaves alone: it writes nothing. -/
def Quiet (c : Str) (w w1 : World) : Prop := stateOf c w1.driver = stateOf c w.driver ∧ w1.driver.bypass = w.driver.bypass

theorem quiet_act {H : Host} {c : Str} {a : Action} (h : Spares c a) {w w1 : World} {r : Except PyErr PyVal}
    (hr : a.run H w = (r, w1)) : Quiet c w w1 := by
  have h1 := spares_stateOf (H := H) h w
  have h2 := (Prog.run_outside H (.act a fun _ => .ret .none) w).sameDisk.2.1
  simp only [Prog.run] at h2
  rw [hr] at h1 h2
  exact ⟨h1, h2⟩

theorem Quiet.trans {c : Str} {a b d : World} (h : Quiet c a b) (h' : Quiet c b d) : Quiet c a d :=
  ⟨h'.1.trans h.1, h'.2.trans h.2⟩

theorem tick_ok {H : Host} {c : Str} {cost : Nat → Nat × Nat} {n : Nat} {k : Prog} {w w' : World} {v : PyVal}
    (h : (Token.tick cost n k).run H w = (.ok v, w')) : ∃ w1, Quiet c w w1 ∧ k.run H w1 = (.ok v, w') := by
  obtain ⟨u, w1, h1, h2⟩ := act_ok (fun _ => rfl) h
  exact ⟨w1, quiet_act (c := c) (a := .line true _ _) trivial h1, h2⟩

theorem useR_ok {α : Type} {H : Host} {r : Except PyErr α} {k : α → Prog} {w w' : World} {v : PyVal}
    (h : (Token.useR r k).run H w = (.ok v, w')) : ∃ x, r = .ok x ∧ (k x).run H w = (.ok v, w') := by
  cases r with
  | error e => cases h
  | ok x => exact ⟨x, rfl, h⟩

theorem entry_name (c a : Str) : (Token.balances c).entry a = c ++ '.' :: (py! "balances:" ++ a) := by
  simp [HashVar.entry, Token.balances, HashVar.make, makeKey]

theorem validate_one {a : Comp} {s : Str} (h : validateKey (.one a) = .ok s) : s = a.text := by
  unfold validateKey at h
  by_cases h1 : ':' ∈ a.text
  · simp only [h1, if_true] at h; cases h
  · by_cases h2 : '.' ∈ a.text
    · simp only [h1, h2, if_true, if_false] at h; cases h
    · simp only [h1, h2, if_false] at h
      split at h
      · cases h; rfl
      · cases h

/-- Reading a balance. -/
theorem getB_ok {H : Host} {c : Str} {a : Comp} {k : PyVal → Prog} {w w' : World} {v : PyVal}
    (h : (Token.getB c a k).run H w = (.ok v, w')) : ∃ u w1, Quiet c w w1 ∧ (k u).run H w1 = (.ok v, w') ∧
      ∀ q, Holds (stateOf c w.driver) a.text q → Money u q := by
  obtain ⟨u, w1, h1, h2⟩ := act_ok (fun _ => rfl) h
  refine ⟨u, w1, quiet_act (c := c) (a := .hashGet _ _) trivial h1, h2, ?_⟩
  rintro q ⟨x, hx, hm⟩
  simp only [Action.run, HashVar.getItem] at h1
  cases hv : validateKey (.one a) with
  | error e => rw [hv] at h1; cases h1
  | ok s =>
    obtain rfl := validate_one hv
    rw [hv] at h1
    simp only at h1
    rw [entry_name] at h1
    have hx' : (w.driver.get (c ++ '.' :: (py! "balances:" ++ a.text))).1 = .ok x := hx
    rw [pair_of_fst hx'] at h1
    simp only [World.rd, Prod.mk.injEq] at h1
    have h1 := h1.1
    cases hm with
    | absent => cases h1; exact .absent
    | int i => cases h1; exact .int i
    | dec hd =>
      simp only [PyVal.isNone, hashValue] at h1
      obtain ⟨d', e1, e2⟩ := cdOfStr_toStr false hd
      change (cdOfStr (Dec.toStr false _)).map PyVal.dec = _ at h1
      rw [e1] at h1
      cases h1
      rw [← e2]
      exact .dec (cdOfStr_isCD e1)

/-- Writing a balance. -/
theorem setB_ok {H : Host} {c : Str} {a : Comp} {x : PyVal} {k : Prog} {w w' : World} {v : PyVal} (hb : w.driver.bypass = false) {q : ℚ} (hm : Money x q)
    (hx : x ≠ .none) (h : (Token.setB c a x k).run H w = (.ok v, w')) : ∃ w1, k.run H w1 = (.ok v, w') ∧ w1.driver.bypass = false ∧
      ∀ n, stateOf c w1.driver n = if n = py! "balances:" ++ a.text then .ok x else stateOf c w.driver n := by
  obtain ⟨u, w1, h1, h2⟩ := act_ok (fun _ => rfl) h
  refine ⟨w1, h2, ?_⟩
  simp only [Action.run, HashVar.setItem] at h1
  cases hv : validateKey (.one a) with
  | error e => rw [hv] at h1; cases h1
  | ok s =>
    obtain rfl := validate_one hv
    rw [hv] at h1
    simp only at h1
    rw [entry_name] at h1
    rcases hs : w.driver.set w.meter (c ++ '.' :: (py! "balances:" ++ a.text)) x true with ⟨r, m', d'⟩
    rw [hs] at h1
    cases r with
    | error e => cases h1
    | ok y =>
      have hd : w1.driver = d' := by
        simp only [World.md, Prod.mk.injEq] at h1
        rw [← h1.2]
      obtain ⟨x', hn, _, hd', _⟩ := Driver.set_ok hs
      have hxx : x' = x := by cases hm <;> cases hn <;> rfl
      subst hxx
      have hbp : d'.bypass = false := by rw [hd']; exact hb
      refine ⟨by rw [hd]; exact hbp, fun n => ?_⟩
      rw [hd, stateOf_eq, stateOf_eq]
      simp only
      have hnn : x'.isNone = false := by cases hm <;> first | exact absurd rfl hx | rfl
      split
      · rename_i he
        subst he
        rw [Driver.find_through hbp, hd']
        have : dget (Dict.set w.driver.pendingWrites (c ++ '.' :: (py! "balances:" ++ a.text)) x') (c ++ '.' :: (py! "balances:" ++ a.text)) = x' := by
          unfold dget; simp
        show (if (dget (Dict.set w.driver.pendingWrites _ x') _).isNone = true then _ else Except.ok (dget (Dict.set w.driver.pendingWrites _ x') _)) = _
        rw [this, hnn]; rfl
      · rename_i he
        refine Driver.find_congr_at ?_ ?_ ?_ ?_
        · rw [hd']
          exact Dict.get?_set_ne _ _ (fun e => he (by simpa using e.symm))
        · rw [hd']
        · rw [hd']
        · rw [hd']

/-! ### Supply -/

theorem Spec.Money.unique {v : PyVal} {p q : ℚ} (h : Money v p) (h' : Money v q) : p = q := by
  cases h <;> cases h' <;> rfl

/-- One balance changes. -/
theorem Spec.Supply.update {s t : Str → Except PyErr PyVal} {T p q : ℚ} {a : Str} {v : PyVal} (h : Supply s T) (ha : Plain a)
    (hp : Holds s a p) (hv : Money v q) (hq : 0 ≤ q)
    (ht : ∀ n, t n = if n = py! "balances:" ++ a then .ok v else s n) :
    T + q - p < 10 ^ 29 → Supply t (T + q - p) := by
  intro hT
  obtain ⟨bal, S, h1, h2, h3, h4, _⟩ := h
  have hpa : bal a = p := by
    obtain ⟨x, hx, hxm⟩ := (h1 a ha).1
    obtain ⟨y, hy, hym⟩ := hp
    rw [hx] at hy; cases hy
    exact hxm.unique hym
  refine ⟨Function.update bal a q, insert a S, fun b hb => ?_, fun b hb => ?_, fun b hb hn => ?_, ?_, hT⟩
  · by_cases hab : b = a
    · subst hab
      refine ⟨⟨v, by rw [ht, if_pos rfl], by simpa using hv⟩, by simpa using hq⟩
    · obtain ⟨⟨x, hx, hm⟩, h0⟩ := h1 b hb
      rw [Function.update_of_ne hab]
      refine ⟨⟨x, ?_, hm⟩, h0⟩
      rw [ht, if_neg (fun e => hab (List.append_cancel_left e))]
      exact hx
  · rcases Finset.mem_insert.1 hb with rfl | hb
    · exact ha
    · exact h2 b hb
  · have hab : b ≠ a := fun e => hn (e ▸ Finset.mem_insert_self a S)
    rw [Function.update_of_ne hab]
    exact h3 b hb fun hm => hn (Finset.mem_insert_of_mem hm)
  · rw [Finset.sum_update_of_mem (Finset.mem_insert_self a S), Finset.insert_sdiff_of_mem _ (Finset.mem_singleton_self a)]
    by_cases hm : a ∈ S
    · have := Finset.sum_sdiff (f := bal) (Finset.singleton_subset_iff.2 hm)
      rw [Finset.sum_singleton, h4, hpa] at this
      linarith
    · have h0 : bal a = 0 := h3 a ha hm
      rw [Finset.sdiff_singleton_eq_erase, Finset.erase_eq_of_notMem hm, h4, ← hpa, h0]
      ring

theorem Spec.Supply.holds {s : Str → Except PyErr PyVal} {T : ℚ} (h : Supply s T) {a : Str} (ha : Plain a) :
    ∃ q, Holds s a q ∧ 0 ≤ q ∧ q ≤ T := by
  obtain ⟨bal, S, h1, h2, h3, h4, _⟩ := h
  refine ⟨bal a, (h1 a ha).1, (h1 a ha).2, ?_⟩
  have hnn : ∀ b ∈ S, 0 ≤ bal b := fun b hb => (h1 b (h2 b hb)).2
  by_cases hm : a ∈ S
  · rw [← h4]; exact Finset.single_le_sum hnn hm
  · rw [h3 a ha hm, ← h4]; exact Finset.sum_nonneg hnn

theorem Spec.Supply.lt {s : Str → Except PyErr PyVal} {T : ℚ} (h : Supply s T) : T < 10 ^ 29 := by
  obtain ⟨_, _, _, _, _, _, h⟩ := h; exact h

theorem Spec.Money.isNone {v : PyVal} {q : ℚ} (h : Money v q) (hn : v.isNone = true) : q = 0 := by
  cases h <;> first | rfl | cases hn

/-- **C92, one call.** `transfer` of an amount that is not negative, and `balance`, leave the supply as it is when
they return, whoever calls them in whatever state. -/
theorem C92_function {H : Host} {c : Str} {body : Prog} (hf : TokenFn c body) :
    KeepsFor Plain H c (fun s t => ∀ T, Supply s T → Supply t T) body := by
  intro w v w' hA h T hS
  by_cases hby : w.driver.bypass = true
  · have hd := (Prog.run_outside H body w).sameDisk
    rw [h] at hd
    have : stateOf c w'.driver = stateOf c w.driver := by
      rw [stateOf_eq, stateOf_eq]
      funext n
      unfold Driver.find Driver.fromDisk
      rw [hd.1, show w'.driver.bypass = w.driver.bypass from hd.2.1, hby]
      simp
    rw [this]; exact hS
  have hby : w.driver.bypass = false := by simpa using hby
  rcases hf with ⟨e, he⟩ | ⟨cost, account, he⟩ | ⟨N, cost, amount, dst, q, hN, hq, hq0, hne, hdst, he⟩ <;> rw [he] at h
  · cases h
  · obtain ⟨w1, k1, h⟩ := tick_ok (c := c) h
    obtain ⟨u, w2, k2, h, _⟩ := getB_ok h
    cases h
    rw [(k1.trans k2).1]; exact hS
  · obtain ⟨_, w1, h1, h⟩ := act_ok (fun _ => rfl) h
    have k1 := quiet_act (c := c) (a := .line true _ _) trivial h1
    have hA1 : SignersIn Plain w1 := by have := hA.act (H := H) (.line true (cost 10).1 (cost 10).2); rw [h1] at this; exact this
    obtain ⟨sg, w2, hsg, h⟩ := act_ok (fun _ => rfl) h
    have k2 := quiet_act (c := c) (a := .ctxSigner) trivial hsg
    simp only [Action.run, Prod.mk.injEq, Except.ok.injEq] at hsg
    obtain ⟨rfl, rfl⟩ := hsg
    have k12 := k1.trans k2
    obtain ⟨sender, hsp, h⟩ : ∃ sender : Comp, Plain sender.text ∧
        (Token.transferFrom N c cost amount dst sender).run H w1 = (.ok v, w') := by
      cases hcs : w1.current.signer with
      | none => rw [hcs] at h; exact ⟨.other (py! "None"), (by decide : Plain (py! "None")), h⟩
      | some sender => rw [hcs] at h; exact ⟨.str sender, hA1.current sender hcs, h⟩
    obtain ⟨w3, k3, h⟩ := tick_ok (c := c) h
    obtain ⟨b, w4, k4, h, hb⟩ := getB_ok h
    obtain ⟨enough, hge, h⟩ := useR_ok h
    cases enough with
    | false => cases h
    | true =>
      simp only [if_true] at h
      obtain ⟨w5, k5, h⟩ := tick_ok (c := c) h
      obtain ⟨b', w6, k6, h, hb'⟩ := getB_ok h
      obtain ⟨x, hx, h⟩ := useR_ok h
      have k36 := ((k12.trans k3).trans k4).trans k5
      obtain ⟨p, hp, hp0, hpT⟩ := hS.holds hsp
      have hlt : p < 10 ^ 29 := lt_of_le_of_lt hpT hS.lt
      have hbm := hb p (by rw [(k12.trans k3).1]; exact hp)
      have hbm' := hb' p (by rw [k36.1]; exact hp)
      have hqp : q ≤ p := numGe_spec hbm hq hlt ((hN _ _ _ _ hbm hq).1 ▸ hge)
      obtain ⟨hxm, hxn⟩ := numSub_spec hbm' hq hq0 hqp hlt ((hN _ _ _ _ hbm' hq).2.1 ▸ hx)
      have k6' := k36.trans k6
      obtain ⟨w7, h, hby7, hs7⟩ := setB_ok (by rw [k6'.2]; exact hby) hxm hxn h
      rw [k6'.1] at hs7
      have hS7 : Supply (stateOf c w7.driver) (T + (p - q) - p) :=
        Supply.update hS hsp hp hxm (by linarith) hs7 (by linarith [hS.lt])
      obtain ⟨w8, k8, h⟩ := tick_ok (c := c) h
      obtain ⟨y, w9, k9, h, hy⟩ := getB_ok h
      obtain ⟨r, hr, hr0, hrT⟩ := hS7.holds hdst
      have hym := hy r (by rw [k8.1]; exact hr)
      have k89 := k8.trans k9
      have hT := hS.lt
      by_cases hyn : y.isNone = true
      · rw [if_pos hyn] at h
        have hr00 := hym.isNone hyn
        obtain ⟨w10, k10, h⟩ := tick_ok (c := c) h
        have k := k89.trans k10
        obtain ⟨w11, h, _, hs⟩ := setB_ok (by rw [k.2]; exact hby7) hq hne h
        rw [k.1] at hs
        have := Supply.update hS7 hdst hr hq hq0 hs (by rw [hr00]; linarith)
        cases h
        have e : T + (p - q) - p + q - r = T := by rw [hr00]; ring
        rw [e] at this; exact this
      · rw [if_neg hyn] at h
        obtain ⟨w10, k10, h⟩ := tick_ok (c := c) h
        obtain ⟨z, w11, k11, h, hz⟩ := getB_ok h
        obtain ⟨x', hx', h⟩ := useR_ok h
        have k := k89.trans k10
        have hzm := hz r (by rw [k.1]; exact hr)
        obtain ⟨hxm', hxn'⟩ := numAdd_spec hzm hq hr0 hq0 (by linarith) ((hN _ _ _ _ hzm hq).2.2 ▸ hx')
        have k' := k.trans k11
        obtain ⟨w12, h, _, hs⟩ := setB_ok (by rw [k'.2]; exact hby7) hxm' hxn' h
        rw [k'.1] at hs
        have := Supply.update hS7 hdst hr hxm' (by linarith) hs (by linarith)
        cases h
        have e : T + (p - q) - p + (r + q) - r = T := by ring
        rw [e] at this; exact this

/-! ### Transactions: the fee is what is taken out -/

theorem afterFee_money {balance b : PyVal} {fee : Dec} (hfee : IsCD fee) {B : ℚ} (hB : Money balance B) (h : afterFee balance fee = .ok b)
    (h1 : B ≤ 10 ^ 29) (h2 : B - fee.val ≤ 10 ^ 29) : Money b (max 0 (B - fee.val)) ∧ b ≠ .none := by
  have hv : Spec.balanceVal b = some (max 0 (B - fee.val)) :=
    afterFee_spec hfee (fun d hd => by subst hd; cases hB; assumption) h (by cases hB <;> rfl) h1 h2
  have key : ∀ c : Dec, ((cdSub c fee).bind fun r => (cdLtInt r 0).bind fun lt =>
      if lt = true then (.ok (.int 0) : Except PyErr PyVal) else .ok (.dec r)) = .ok b → b = .int 0 ∨ ∃ r, b = .dec r ∧ IsCD r := by
    intro c hb
    cases hs : cdSub c fee with
    | error e => rw [hs] at hb; cases hb
    | ok r =>
      rw [hs] at hb
      simp only [Except.bind] at hb
      cases hl : cdLtInt r 0 with
      | error e => rw [hl] at hb; cases hb
      | ok lt =>
        rw [hl] at hb
        cases lt with
        | true => cases hb; exact Or.inl rfl
        | false => cases hb; exact Or.inr ⟨r, rfl, cdOp_isCD hs⟩
  have keyI : ∀ i : ℤ, ((cdOfInt i).bind fun c => (cdSub c fee).bind fun r => (cdLtInt r 0).bind fun lt =>
      if lt = true then (.ok (.int 0) : Except PyErr PyVal) else .ok (.dec r)) = .ok b → b = .int 0 ∨ ∃ r, b = .dec r ∧ IsCD r := by
    intro i hb
    cases hc : cdOfInt i with
    | error e => rw [hc] at hb; cases hb
    | ok c => rw [hc] at hb; exact key c hb
  have : b = .int 0 ∨ ∃ r, b = .dec r ∧ IsCD r := by
    cases hB with
    | absent => exact keyI 0 h
    | int i => exact keyI i h
    | dec _ => exact key _ h
  rcases this with rfl | ⟨r, rfl, hr⟩
  · simp only [Spec.balanceVal, Option.some.injEq] at hv
    rw [← hv]
    exact ⟨.int 0, by simp⟩
  · simp only [Spec.balanceVal, Option.some.injEq] at hv
    rw [← hv]
    exact ⟨.dec hr, by simp⟩

theorem Spec.Supply.sum_le {s : Str → Except PyErr PyVal} {T : ℚ} (h : Supply s T) {a : Str} (ha : Plain a) {q : ℚ} (hq : Holds s a q) :
    0 ≤ q ∧ q ≤ T := by
  obtain ⟨p, ⟨x, hx, hxm⟩, h0, h1⟩ := h.holds ha
  obtain ⟨y, hy, hym⟩ := hq
  rw [hx] at hy; cases hy
  rw [← hxm.unique hym]
  exact ⟨h0, h1⟩

/-- **C92, transactions.** A transaction (auto-commit off) by a sender with a plain name, made of arbitrary code that
calls the token contract, leaves the supply as it is if it is not metered, whether it succeeds or fails. If it is
metered, exactly what the sender pays disappears: the fee, or all the sender has left if that is less. -/
theorem C92_transaction {H : Host} {cfg : ExecCfg} {tx : Tx} {c : Str} (ht : TxOutside c (TokenFn c) tx) (hc : tx.autoCommit = false)
    (hs : Plain tx.sender) {w w' : World} {o : Output} (hst : w.stack = []) (hby : w.driver.bypass = false)
    (h : execute H cfg tx w = (.ok o, w')) {T : ℚ} (hT : Supply (stateOf c w.driver) T) :
    (tx.metered cfg = false → Supply (stateOf c w'.driver) T) ∧
    (tx.metered cfg = true → cfg.currency = c → cfg.balances = py! "balances" →
      ∃ fee, cdOfStr (H.fdiv o.stampsUsed tx.stampCost).text = .ok fee ∧ (0 ≤ fee.val →
        ∃ paid, 0 ≤ paid ∧ paid ≤ fee.val ∧ Supply (stateOf c w'.driver) (T - paid) ∧
          (paid = fee.val ∨ Holds (stateOf c w'.driver) tx.sender 0))) := by
  have hk := transaction_outside (A := Plain) (R := fun s t => ∀ T, Supply s T → Supply t T) (fun s T h => h)
    (fun s t u h1 h2 T hT => h2 T (h1 T hT)) (fun b hb => C92_function hb) ht hc hs (by rw [hst]; simp) h
  obtain ⟨k0, k1, k2⟩ := hk
  have hran : Supply (stateOf c (ranWorld H cfg tx w).driver) T := by
    rcases (show o.status = 0 ∨ o.status = 1 by unfold Output.status; split <;> simp) with e | e
    · exact k0 e T hT
    · rw [k1 e]; exact hT
  refine ⟨fun hm => ?_, fun hm hcur hbal => ?_⟩
  · have e : stateOf c w'.driver = stateOf c (ranWorld H cfg tx w).driver := by
      funext n
      exact k2 n fun hm' => by rw [hm] at hm'; cases hm'
    rw [e]; exact hran
  · have hb' : (ranWorld H cfg tx w).driver.bypass = false := by
      have := (execute_around ht.noMutate hc h).2.1
      obtain ⟨_, writes, w2, hw, rfl, rfl⟩ := execute_ok h
      rw [hm, if_pos rfl] at hw
      obtain ⟨_, _, b, r, _, _, _, _, hw2⟩ := chargeFee_ok hc rfl hw
      rw [hw2] at this
      exact this.trans hby
    obtain ⟨_, writes, w2, hw, rfl, rfl⟩ := execute_ok h
    rw [hm, if_pos rfl] at hw
    obtain ⟨fee, balance, b, r, hf, hb, ha, hwr, hw2⟩ := chargeFee_ok hc rfl hw
    have hfee : cdOfStr (H.fdiv (stampsUsed tx (ranWorld H cfg tx w)) tx.stampCost).text = .ok fee := by
      unfold feeOf at hf
      split at hf
      · cases hf
      · exact hf
    refine ⟨fee, hfee, fun h0 => ?_⟩
    have hkey : balanceKey cfg tx.sender = c ++ '.' :: (py! "balances:" ++ tx.sender) := by
      unfold balanceKey; rw [hcur, hbal]; rfl
    obtain ⟨B, hB, hB0, hBT⟩ := hran.holds hs
    have hBm : Money balance B := by
      obtain ⟨x, hx, hxm⟩ := hB
      rw [stateOf_eq] at hx
      rw [hkey] at hb
      have hb2 : (ranWorld H cfg tx w).driver.find (c ++ '.' :: (py! "balances:" ++ tx.sender)) = .ok x := hx
      rw [hb] at hb2; cases hb2
      exact hxm
    have hlt := hran.lt
    obtain ⟨hbm, hbn⟩ := afterFee_money (cdOfStr_isCD hfee) hBm ha (by linarith) (by linarith)
    have hnew : ∀ n, stateOf c (cleanUp w2).driver n = if n = py! "balances:" ++ tx.sender then .ok b else
        stateOf c (ranWorld H cfg tx w).driver n := by
      intro n
      show stateOf c w2.driver n = _
      rw [hw2, stateOf_eq, stateOf_eq]
      simp only
      rw [hkey]
      split
      · rename_i he
        subst he
        have hnn : b.isNone = false := by cases b <;> first | exact absurd rfl hbn | rfl
        rw [Driver.find_through (by exact hb')]
        have : dget (Dict.set (ranWorld H cfg tx w).driver.pendingWrites (c ++ '.' :: (py! "balances:" ++ tx.sender)) b)
            (c ++ '.' :: (py! "balances:" ++ tx.sender)) = b := by
          unfold dget; simp
        show (if (dget (Dict.set (ranWorld H cfg tx w).driver.pendingWrites _ b) _).isNone = true then _ else
          Except.ok (dget (Dict.set (ranWorld H cfg tx w).driver.pendingWrites _ b) _)) = _
        rw [this, hnn]; rfl
      · rename_i he
        exact Driver.find_congr_at (Dict.get?_set_ne _ _ (fun e => he (by simpa using e.symm))) rfl rfl rfl
    have hmax : max 0 (B - fee.val) ≤ B := max_le hB0 (by linarith)
    have hup := Supply.update hran hs hB hbm (le_max_left _ _) hnew (by linarith)
    refine ⟨B - max 0 (B - fee.val), by linarith, ?_, ?_, ?_⟩
    · have := le_max_right 0 (B - fee.val); linarith
    · have e : T + max 0 (B - fee.val) - B = T - (B - max 0 (B - fee.val)) := by ring
      rw [e] at hup; exact hup
    · rcases le_total 0 (B - fee.val) with hle | hle
      · left; rw [max_eq_right hle]; ring
      · right
        rw [max_eq_left hle] at hbm
        exact ⟨b, by rw [hnew, if_pos rfl], hbm⟩

/-! ### Histories -/

theorem plainKey_balance {c a : Str} (hc : Plain c) (ha : Plain a) : PlainKey (c ++ '.' :: (py! "balances:" ++ a)) :=
  ⟨c, py! "balances", [a], hc, by decide, by simpa using ha, by simp [stateKey]⟩

/-- The supply only depends on what is stored under plain names. -/
theorem Spec.Supply.congr {c : Str} (hc : Plain c) {s t : Str → Except PyErr PyVal} {T : ℚ} (h : Supply s T)
    (he : ∀ n, PlainKey (c ++ '.' :: n) → t n = s n) : Supply t T := by
  obtain ⟨bal, S, h1, h2, h3, h4⟩ := h
  refine ⟨bal, S, fun a ha => ⟨?_, (h1 a ha).2⟩, h2, h3, h4⟩
  obtain ⟨v, hv, hm⟩ := (h1 a ha).1
  exact ⟨v, by rw [he _ (plainKey_balance hc ha)]; exact hv, hm⟩

/-- **C92, histories.** Take any history of a node on which `c` is the currency: transactions of arbitrary code,
successful or failed, by any senders, that call the token contract in any order and depth; blocks, commits,
rollbacks, expiring caches, restarts. If the balances on disk added up to `T` when it began, then they still add up,
without a negative one among them, to at most `T` and at least `T` minus the fees due: no currency is ever made, and
none is lost but fees. -/
theorem C92_history {H : Host} {c : Str} (hc : Plain c) {disk : Disk} {w : World} {D : ℚ} (h : Circulates H c disk w D)
    {T : ℚ} (hT : Supply (stateOf c (.open disk)) T) :
    ∃ T', T - D ≤ T' ∧ T' ≤ T ∧ Supply (stateOf c w.driver) T' := by
  suffices hb : NodeInv c w.driver ∧ 0 ≤ D ∧ (∃ T', T - D ≤ T' ∧ T' ≤ T ∧ Supply (stateOf c w.driver) T') ∧
      ∃ T', T - D ≤ T' ∧ T' ≤ T ∧ Supply (diskStateOf c w.driver) T' from hb.2.2.1
  induction h with
  | start =>
    obtain ⟨h1, h2⟩ := nodeInv_open c disk
    exact ⟨h1, le_refl _, ⟨T, by simp, le_refl _, hT⟩, T, by simp, le_refl _, hT.congr hc fun n hn => (h2 n hn).symm⟩
  | tx hr hst hs hac ht hfee h0 he ih =>
    rename_i w w' D fee cfg tx o
    obtain ⟨i1, i0, ⟨T1, i2, i3, i4⟩, T2, i5, i6, i7⟩ := ih
    obtain ⟨h1, h2⟩ := i1.tx ht hac he
    obtain ⟨k1, k2⟩ := C92_transaction ht hac hs hst i1.bypass he i4
    refine ⟨h1, by linarith, ?_, T2, by linarith, i6, by rw [h2]; exact i7⟩
    cases hm : tx.metered cfg with
    | false => exact ⟨T1, by linarith, i3, k1 hm⟩
    | true =>
      obtain ⟨e1, e2, d, e3, e4⟩ := hfee hm
      obtain ⟨fee', f1, f2⟩ := k2 hm e1 e2
      rw [e3] at f1; cases f1
      obtain ⟨q, q0, q1, q2, _⟩ := f2 (by rw [e4]; exact h0)
      exact ⟨T1 - q, by rw [e4] at q1; linarith, by linarith, q2⟩
  | apply nanos _ hs ih =>
    obtain ⟨i1, i0, ⟨T1, i2, i3, i4⟩, _⟩ := ih
    obtain ⟨h1, h2⟩ := i1.apply nanos hs
    exact ⟨h1, i0, ⟨T1, i2, i3, i4.congr hc fun n hn => (h2 n hn).1⟩, T1, i2, i3, i4.congr hc fun n hn => (h2 n hn).2⟩
  | commit _ hs ih =>
    obtain ⟨i1, i0, ⟨T1, i2, i3, i4⟩, _⟩ := ih
    obtain ⟨h1, h2⟩ := i1.commit hs
    exact ⟨h1, i0, ⟨T1, i2, i3, i4.congr hc fun n hn => (h2 n hn).1⟩, T1, i2, i3, i4.congr hc fun n hn => (h2 n hn).2⟩
  | rollback _ ih =>
    obtain ⟨i1, i0, _, T2, i5, i6, i7⟩ := ih
    obtain ⟨h1, h2, h3⟩ := i1.rollback
    exact ⟨h1, i0, ⟨T2, i5, i6, i7.congr hc h2⟩, T2, i5, i6, by rw [h3]; exact i7⟩
  | evict keep _ ih =>
    obtain ⟨i1, i0, ⟨T1, i2, i3, i4⟩, T2, i5, i6, i7⟩ := ih
    obtain ⟨h1, h2, h3⟩ := i1.evict keep
    exact ⟨h1, i0, ⟨T1, i2, i3, i4.congr hc h2⟩, T2, i5, i6, by rw [h3]; exact i7⟩
  | restart _ hp ih =>
    rename_i w D _
    obtain ⟨i1, i0, _, T2, i5, i6, i7⟩ := ih
    obtain ⟨h1, h2⟩ := nodeInv_open c w.driver.disk
    have e : diskStateOf c (.open w.driver.disk) = diskStateOf c w.driver := rfl
    exact ⟨h1, i0, ⟨T2, i5, i6, i7.congr hc fun n hn => by rw [h2 n hn, e]⟩, T2, i5, i6, by rw [e]; exact i7⟩

/-! ### A concrete case, and where it ends -/

namespace Demo

def currency : Str := py! "currency"
def alice : Str := py! "alice"

/-- `con_b` has the token contract transfer money of the signer. -/
def payer (amount : PyVal) (dst : Str) : Prog :=
  .call currency (Token.transfer Token.nums currency (fun _ => (1, 0)) amount (.str dst)) (andThen (.ret .none))

end Demo

theorem Token.transfer_noCatch (N : Token.Nums) (c : Str) (cost : Nat → Nat × Nat) (amount : PyVal) (dst : Comp) :
    (Token.transfer N c cost amount dst).NoCatch := by
  have ht : ∀ {n : Nat} {k : Prog}, k.NoCatch → (Token.tick cost n k).NoCatch := fun h => ⟨fun _ => rfl, fun _ => h⟩
  have hg : ∀ {a : Comp} {k : PyVal → Prog}, (∀ v, (k v).NoCatch) → (Token.getB c a k).NoCatch := fun h => ⟨fun _ => rfl, fun v => h v⟩
  have hs : ∀ {a : Comp} {v : PyVal} {k : Prog}, k.NoCatch → (Token.setB c a v k).NoCatch := fun h => ⟨fun _ => rfl, fun _ => h⟩
  have hu : ∀ {α : Type} {r : Except PyErr α} {k : α → Prog}, (∀ v, (k v).NoCatch) → (Token.useR r k).NoCatch := by
    intro α r k h
    cases r with
    | ok v => exact h v
    | error e => exact trivial
  refine ht ⟨fun _ => rfl, fun v => ?_⟩
  have hfrom : ∀ sender, (Token.transferFrom N c cost amount dst sender).NoCatch := by
    intro sender
    refine ht (hg fun b => hu fun enough => ?_)
    cases enough with
    | false => exact trivial
    | true =>
      refine ht (hg fun b => hu fun v => hs (ht (hg fun t => ?_)))
      show (if t.isNone = true then _ else _ : Prog).NoCatch
      split
      · exact ht (hs trivial)
      · exact ht (hg fun t => hu fun v => hs trivial)
  cases v with
  | str sender => exact hfrom _
  | none => exact hfrom _
  | _ => exact trivial

theorem Token.transfer_all {P : Action → Prop} (hP : ∀ a, (∀ k v x y, a ≠ .mutate k v x y) → P a) (N : Token.Nums) (c : Str)
    (cost : Nat → Nat × Nat) (amount : PyVal) (dst : Comp) : (Token.transfer N c cost amount dst).All P := by
  have hk : ∀ {k : PyVal → Prog}, (∀ v, (k v).All P) → ∀ r : Except PyErr PyVal,
      (match r with | .ok v => k v | .error e => .raise e : Prog).All P := by
    intro k h r
    cases r with
    | ok v => exact h v
    | error e => exact trivial
  have ht : ∀ {n : Nat} {k : Prog}, k.All P → (Token.tick cost n k).All P :=
    fun h => ⟨hP _ (fun _ _ _ _ h => by cases h), fun r => by cases r with | ok v => exact h | error e => exact trivial⟩
  have hg : ∀ {a : Comp} {k : PyVal → Prog}, (∀ v, (k v).All P) → (Token.getB c a k).All P :=
    fun h => ⟨hP _ (fun _ _ _ _ h => by cases h), fun r => by cases r with | ok v => exact h v | error e => exact trivial⟩
  have hs : ∀ {a : Comp} {v : PyVal} {k : Prog}, k.All P → (Token.setB c a v k).All P :=
    fun h => ⟨hP _ (fun _ _ _ _ h => by cases h), fun r => by cases r with | ok v => exact h | error e => exact trivial⟩
  have hu : ∀ {α : Type} {r : Except PyErr α} {k : α → Prog}, (∀ v, (k v).All P) → (Token.useR r k).All P := by
    intro α r k h
    cases r with
    | ok v => exact h v
    | error e => exact trivial
  refine ht ⟨hP _ (fun _ _ _ _ h => by cases h), fun r => ?_⟩
  rcases r with e | v
  · exact trivial
  have hfrom : ∀ sender, (Token.transferFrom N c cost amount dst sender).All P := by
    intro sender
    refine ht (hg fun b => hu fun enough => ?_)
    cases enough with
    | false => exact trivial
    | true =>
      refine ht (hg fun b => hu fun v => hs (ht (hg fun t => ?_)))
      show (if t.isNone = true then _ else _ : Prog).All P
      split
      · exact ht (hs trivial)
      · exact ht (hg fun t => hu fun v => hs trivial)
  cases v with
  | str sender => exact hfrom _
  | none => exact hfrom _
  | _ => exact trivial

theorem Demo.payer_tx {amount : PyVal} {q : ℚ} (hq : Money amount q) (h0 : 0 ≤ q) (hn : amount ≠ .none) {dst : Str} (hd : Plain dst) :
    TxOutside Demo.currency (TokenFn Demo.currency) (Demo.txB (Demo.payer amount dst)) where
  top := trivial
  fn fn kwargs hf _ := by
    cases hf
    refine ⟨fun h => absurd (show Demo.conB = Demo.currency from h) (by decide), fun _ => .inr ⟨fun _ => Or.inr <| Or.inr ⟨_, _, _, .str dst, q, fun _ _ _ _ _ _ => ⟨rfl, rfl, rfl⟩, hq, h0, hn, hd, fun _ _ => rfl⟩, fun h => absurd rfl h, fun r => ?_⟩,
      fun r => by cases r <;> exact trivial⟩
    cases r <;> exact trivial
  topNoCatch := trivial
  fnNoCatch fn hf kwargs := by
    cases hf
    exact ⟨Token.transfer_noCatch _ _ _ _ _, fun _ => rfl, fun _ => trivial⟩
  noMutate n := ⟨trivial, fun fn hf kwargs => by
    cases hf
    refine ⟨Token.transfer_all (fun a ha => ?_) _ _ _ _ _, fun r => by cases r <;> exact trivial⟩
    cases a <;> first | exact trivial | exact absurd rfl (ha _ _ _ _)⟩

/-- On the example disk `bob` has 100 and nobody else has anything. -/
theorem Demo.supply : Supply (stateOf Demo.currency (.open Demo.diskB)) 100 := by
  have hi : NodeInv Demo.currency (Demo.world (Demo.stored Demo.conB ++ [(Demo.bobKey, .int 100)])).driver :=
    ⟨rfl, rfl, by unfold Dict.WF; decide, fun k _ _ h => by cases h⟩
  have hs : Settled Demo.currency (Demo.world (Demo.stored Demo.conB ++ [(Demo.bobKey, .int 100)])).driver := by
    intro p hp
    simp only [Demo.world, Demo.stored, List.cons_append, List.nil_append, List.mem_cons, List.not_mem_nil, or_false] at hp
    rcases hp with rfl | rfl | rfl
    · exact ⟨⟨Demo.conB, py! "__code__", [], by decide, by decide, by decide, rfl⟩, stable_of (by decide +kernel), fun _ h => by cases h⟩
    · exact ⟨⟨Demo.conB, py! "__compiled__", [], by decide, by decide, by decide, rfl⟩, stable_of (by decide +kernel), fun _ h => by cases h⟩
    · exact ⟨⟨Demo.currency, py! "balances", [Demo.bob], by decide, by decide, by decide, rfl⟩, stable_of (by decide +kernel), fun _ h => by cases h⟩
  have hrd : ∀ a, Plain a → stateOf Demo.currency (.open Demo.diskB) (py! "balances:" ++ a) =
      .ok (if a = Demo.bob then .int 100 else .none) := by
    intro a ha
    have hk := plainKey_balance (c := Demo.currency) (by decide) ha
    rw [(nodeInv_open _ _).2 _ hk]
    refine ((hi.commit hs).2 _ hk).2.trans ?_
    rw [stateOf_eq]
    show Driver.find _ _ = _
    rw [Driver.find_through rfl]
    have h1 : ∀ x : Str, Demo.conB ++ '.' :: x ≠ Demo.currency ++ '.' :: (py! "balances:" ++ a) := by
      intro x h; injection h with _ h; injection h with h _; exact absurd h (by decide)
    split_ifs with hn hb hb
    · subst hb; exact absurd hn (by decide +kernel)
    · rfl
    · subst hb; rfl
    · exfalso
      apply hn
      have h2 : Demo.bobKey ≠ Demo.currency ++ '.' :: (py! "balances:" ++ a) := by
        intro h
        have h : Demo.currency ++ '.' :: (py! "balances:" ++ Demo.bob) = Demo.currency ++ '.' :: (py! "balances:" ++ a) := h
        exact hb (by simpa using h.symm)
      show (dget [(Demo.conB ++ '.' :: py! "__code__", .str (py! "src")), (Demo.conB ++ '.' :: py! "__compiled__", .bytes []),
        (Demo.bobKey, .int 100)] (Demo.currency ++ '.' :: (py! "balances:" ++ a))).isNone = true
      unfold dget
      rw [Dict.get?_cons, if_neg (h1 _), Dict.get?_cons, if_neg (h1 _), Dict.get?_cons, if_neg h2]
      rfl
  refine ⟨fun a => if a = Demo.bob then 100 else 0, {Demo.bob}, fun a ha => ⟨⟨_, hrd a ha, ?_⟩, ?_⟩, ?_, ?_, ?_, ?_⟩
  · dsimp only
    split_ifs
    · exact_mod_cast Money.int 100
    · exact .absent
  · simp only; split_ifs <;> norm_num
  · intro a ha; rw [Finset.mem_singleton.1 ha]; decide
  · intro a _ ha; simp only; rw [if_neg (by simpa using ha)]
  · simp
  · norm_num

theorem Demo.payer_runs :
    (execute Demo.host {} (Demo.txB (Demo.payer (.int 30) Demo.alice)) { driver := .open Demo.diskB }).1.map Output.stampsUsed = .ok 6 ∧
    (execute Demo.host {} (Demo.txB (Demo.payer (.int 30) Demo.alice)) { driver := .open Demo.diskB }).2.driver.pendingWrites =
      [(Spec.stateKey Demo.currency (py! "balances") [Demo.bob], .dec ⟨false, 64, 0⟩),
       (Spec.stateKey Demo.currency (py! "balances") [Demo.alice], .int 30)] := by decide +kernel

theorem ok_of_map {ε α β : Type} {r : Except ε α} {f : α → β} {y : β} (h : r.map f = .ok y) : ∃ o, r = .ok o ∧ f o = y := by
  cases r with
  | error e => cases h
  | ok o => exact ⟨o, rfl, by simpa [Except.map] using h⟩

/-- The hypotheses are met: `bob` calls `con_b`, which has the token contract transfer 30 to `alice`, in a metered
transaction with a fee of 6; the block is applied, the node restarts. -/
example : ∃ w, Circulates Demo.host Demo.currency Demo.diskB w 6 ∧
    Holds (stateOf Demo.currency w.driver) Demo.bob 64 ∧ Holds (stateOf Demo.currency w.driver) Demo.alice 30 := by
  obtain ⟨o, ho, hst⟩ := ok_of_map Demo.payer_runs.1
  have h1 := Circulates.tx (H := Demo.host) (c := Demo.currency) (disk := Demo.diskB) (fee := 6) .start rfl (by decide) rfl
    (Demo.payer_tx (.int 30) (by norm_num) (by simp) (dst := Demo.alice) (by decide))
    (fun _ => ⟨rfl, rfl, ⟨false, 6, 0⟩, by rw [hst]; decide +kernel, by unfold Dec.val; norm_num⟩) (by norm_num) (pair_of_fst ho)
  have hs : Settled Demo.currency (execute Demo.host {} (Demo.txB (Demo.payer (.int 30) Demo.alice)) { driver := .open Demo.diskB }).2.driver := by
    unfold Settled
    rw [Demo.payer_runs.2]
    intro p hp
    simp only [List.mem_cons, List.not_mem_nil, or_false] at hp
    rcases hp with rfl | rfl
    · exact ⟨⟨_, _, _, by decide, by decide, by decide, rfl⟩, stable_of (by decide +kernel), fun _ h => by cases h⟩
    · exact ⟨⟨_, _, _, by decide, by decide, by decide, rfl⟩, stable_of (by decide +kernel), fun _ h => by cases h⟩
  refine ⟨_, by simpa using (h1.apply 5 hs).restart (by decide +kernel), ⟨.dec ⟨false, 64, 0⟩, by decide +kernel, ?_⟩,
    ⟨.int 30, by decide +kernel, by exact_mod_cast Money.int 30⟩⟩
  have : Money (.dec ⟨false, 64, 0⟩) (Dec.val ⟨false, 64, 0⟩) := .dec ⟨⟨false, 64, 0⟩, by decide +kernel⟩
  have e : Dec.val ⟨false, 64, 0⟩ = 64 := by unfold Dec.val; norm_num
  rw [e] at this; exact this

/-- **C92 is false for negative amounts**: `transfer` does not refuse them. `bob`, who has 100, "transfers" -50 to
`alice`, who has nothing; he has 150 then and she has -50. -/
theorem C92_refuted_negative :
    let w : World := { driver := { pendingWrites := Demo.stored Demo.conB ++ [(Demo.bobKey, .int 100)] } }
    let w' := (execute Demo.host { metering := false } (Demo.txB (Demo.payer (.int (-50)) Demo.alice)) w)
    w'.1.map Output.status = .ok 0 ∧
    stateOf Demo.currency w'.2.driver (py! "balances:bob") = .ok (.int 150) ∧
    stateOf Demo.currency w'.2.driver (py! "balances:alice") = .ok (.int (-50)) := by
  decide +kernel

/-- **C92 is false at the top of the range**: amounts are compared and subtracted after they were cut to the largest
decimal, `10^29`, but the recipient gets what was asked for. `bob` has the largest decimal and transfers `10^40`; he
has nothing then, and `alice` has `10^40`. -/
theorem C92_refuted_cap :
    let w : World := { driver := { pendingWrites := Demo.stored Demo.conB ++ [(Demo.bobKey, .dec Dec.maxDecimal)] } }
    let w' := (execute Demo.host { metering := false } (Demo.txB (Demo.payer (.int (10 ^ 40)) Demo.alice)) w)
    w'.1.map Output.status = .ok 0 ∧
    (stateOf Demo.currency w'.2.driver (py! "balances:bob")).map (fun v => match v with | .dec d => d.coef | _ => 1) = .ok 0 ∧
    stateOf Demo.currency w'.2.driver (py! "balances:alice") = .ok (.int (10 ^ 40)) := by
  decide +kernel

end Verif
