import Verif.Proofs.Decimal
/-! # Contract decimal operations compute the rational results -/
namespace Verif
open Dec

theorem floor30_mult (n : ℤ) : Spec.floor30 ((n : ℚ) / 10 ^ 30) = (n : ℚ) / 10 ^ 30 := by
  unfold Spec.floor30
  rw [div_mul_cancel₀ _ (by positivity), Int.floor_intCast]

theorem floor30_idem (q : ℚ) : Spec.floor30 (Spec.floor30 q) = Spec.floor30 q := floor30_mult _

theorem floor30_le (q : ℚ) : Spec.floor30 q ≤ q := by rw [floor30_eq]; exact floorTo_le _ _

theorem floor30_cap : Spec.floor30 ((10:ℚ) ^ 29) = 10 ^ 29 := by
  have := floor30_mult (10 ^ 59)
  norm_num at this ⊢; exact this

theorem fix_idem {q r : ℚ} (h : Spec.fix q = some r) : Spec.fix r = some r := by
  unfold Spec.fix at h
  split at h
  · cases h
    simp only [Spec.fix, lt_irrefl, if_false, floor30_cap]; norm_num
  · split at h
    · rename_i h1 h2
      cases h
      simp only [Spec.fix, floor30_idem, h2, if_true]
      rw [if_neg]
      exact not_lt.2 (le_trans (floor30_le q) (not_lt.1 h1))
    · cases h

/-- A contract decimal is a fixed point of the specification's rounding. -/
theorem IsCD.fix {d : Dec} (h : IsCD d) : Spec.fix d.val = some d.val := by
  obtain ⟨x, hx⟩ := h
  have := fixPrecision_agrees x
  cases hs : Spec.fix x.val with
  | none => rw [hs] at this; obtain ⟨e, he⟩ := this; rw [hx] at he; cases he
  | some q =>
    rw [hs] at this; obtain ⟨d', he, hd⟩ := this
    rw [hx] at he; cases he
    rw [hd]; exact fix_idem hs

theorem fix_some_iff {q : ℚ} : Spec.fix q = some q ↔ -10 ^ 30 < q ∧ q ≤ 10 ^ 29 ∧ Spec.floor30 q = q := by
  unfold Spec.fix
  constructor
  · intro h
    split at h
    · cases h; norm_num at *
    · split at h
      · rename_i h1 h2
        have h3 : Spec.floor30 q = q := by injection h
        rw [h3] at h2
        exact ⟨h2, not_lt.1 h1, h3⟩
      · cases h
  · rintro ⟨h1, h2, h3⟩
    rw [if_neg (not_lt.2 h2), h3, if_pos h1]

theorem IsCD.range {d : Dec} (h : IsCD d) :
    -10 ^ 30 < d.val ∧ d.val ≤ 10 ^ 29 ∧ ∃ n : ℤ, d.val = n / 10 ^ 30 := by
  obtain ⟨h1, h2, h3⟩ := fix_some_iff.1 h.fix
  exact ⟨h1, h2, _, h3.symm⟩

theorem IsCD.abs_lt {d : Dec} (h : IsCD d) : |d.val| < 10 ^ (30:ℤ) := by
  obtain ⟨h1, h2, _⟩ := h.range
  rw [_root_.abs_lt]
  constructor
  · exact_mod_cast h1
  · refine lt_of_le_of_lt h2 ?_; norm_num

theorem IsCD.abs_ge {d : Dec} (h : IsCD d) (h0 : d.coef ≠ 0) : (10:ℚ) ^ (-30:ℤ) ≤ |d.val| := by
  obtain ⟨_, _, n, hn⟩ := h.range
  have hv : d.val ≠ 0 := fun hh => h0 (val_eq_zero.1 hh)
  have hn0 : n ≠ 0 := by rintro rfl; simp at hn; exact hv hn
  rw [hn, abs_div]
  have h1 : (1:ℚ) ≤ |(n:ℚ)| := by exact_mod_cast Int.one_le_abs hn0
  have : |(10:ℚ) ^ 30| = 10 ^ 30 := abs_of_pos (by positivity)
  rw [this, le_div_iff₀ (by positivity)]
  refine le_trans (le_of_eq ?_) h1
  norm_num

theorem cdOp_agrees {op : Dec → Dec → Except PyErr Dec} {a b r : Dec} {v : ℚ}
    (h : op a b = .ok r) (hv : Spec.fix r.val = Spec.fix v) :
    Agrees (cdOp op a b) (Spec.fix v) := by
  have h1 := fixPrecision_agrees r
  rw [hv] at h1
  unfold cdOp
  rw [h]
  cases hs : Spec.fix v with
  | none =>
    rw [hs] at h1; obtain ⟨e, he⟩ := h1
    exact ⟨e, by simp [bind, Except.bind, he]⟩
  | some q =>
    rw [hs] at h1; obtain ⟨d, hd, hdv⟩ := h1
    have h2 := fixPrecision_agrees d
    rw [hdv, fix_idem hs] at h2
    obtain ⟨d', hd', hdv'⟩ := h2
    exact ⟨d', by simp [bind, Except.bind, hd, hd'], hdv'⟩

theorem cdOp_error {op : Dec → Dec → Except PyErr Dec} {a b : Dec} {e : PyErr}
    (h : op a b = .error e) : cdOp op a b = .error e := by
  simp [cdOp, h, bind, Except.bind]

/-- What `cdOp` returns is a contract decimal. -/
theorem cdOp_isCD {op : Dec → Dec → Except PyErr Dec} {a b d : Dec} (h : cdOp op a b = .ok d) :
    IsCD d := by
  unfold cdOp at h
  cases h1 : op a b with
  | error e => simp [h1, bind, Except.bind] at h
  | ok r =>
    cases h2 : fixPrecision r with
    | error e => simp [h1, h2, bind, Except.bind] at h
    | ok r' => exact ⟨r', by simpa [h1, h2, bind, Except.bind] using h⟩

/-- The exact sum triple that `__add__` hands to `_fix`. -/
theorem add_spec {a b : Dec} (hb : |a.val + b.val| < 10 ^ (100:ℤ)) :
    ∃ r, Dec.add a b = .ok r ∧ Spec.fix r.val = Spec.fix (a.val + b.val) := by
  set e := min a.exp b.exp with he
  set s := scaled a e + scaled b e with hs
  set d : Dec := ⟨if s = 0 then a.neg || b.neg else decide (s < 0), s.natAbs, e⟩ with hd
  have hv : d.val = a.val + b.val := by
    have h1 : (s : ℚ) * 10 ^ e = a.val + b.val := by
      rw [hs]; push_cast; rw [add_mul, scaled_val (min_le_left _ _), scaled_val (min_le_right _ _)]
    rw [← h1, Dec.val_eq]
    congr 2
    rw [hd]; unfold Dec.sc
    by_cases h0 : s = 0
    · simp [h0]
    · by_cases hn : s < 0
      · simp only [h0, hn, if_false, decide_true, if_true]; omega
      · simp only [h0, hn, if_false, decide_false, Bool.false_eq_true]; omega
  have : Dec.add a b = fixCtx d := rfl
  rw [this, ← hv]
  exact fixCtx_fix (by rw [hv]; exact hb)

theorem copyNegate_val (a : Dec) : a.copyNegate.val = - a.val := by
  unfold copyNegate Dec.val; cases a.neg <;> simp

theorem sub_spec {a b : Dec} (hb : |a.val - b.val| < 10 ^ (100:ℤ)) :
    ∃ r, Dec.sub a b = .ok r ∧ Spec.fix r.val = Spec.fix (a.val - b.val) := by
  have := add_spec (a := a) (b := b.copyNegate) (by rw [copyNegate_val]; simpa [sub_eq_add_neg] using hb)
  rw [copyNegate_val, ← sub_eq_add_neg] at this
  exact this

theorem sign_mul (x y : Bool) :
    (if (x != y) = true then (-1:ℚ) else 1) = (if x then -1 else 1) * (if y then -1 else 1) := by
  cases x <;> cases y <;> simp

theorem mul_spec {a b : Dec} (hb : |a.val * b.val| < 10 ^ (100:ℤ)) :
    ∃ r, Dec.mul a b = .ok r ∧ Spec.fix r.val = Spec.fix (a.val * b.val) := by
  have hv : (⟨a.neg != b.neg, a.coef * b.coef, a.exp + b.exp⟩ : Dec).val = a.val * b.val := by
    unfold Dec.val
    simp only []
    rw [sign_mul, zp_add]; push_cast; ring
  unfold Dec.mul
  rw [← hv]
  exact fixCtx_fix (by rw [hv]; exact hb)

/-- The sticky digit of `__truediv__`: perturbing an inexact quotient inside its unit interval does
not change any coarser floor. -/
theorem sticky_floor {c : ℕ} {Q : ℚ} {j : ℕ} (hj : 0 < j) (h1 : (c:ℚ) < Q) (h2 : Q < c + 1) (sg : ℚ)
    (hsg : sg = 1 ∨ sg = -1) :
    ⌊sg * ((if c % 5 = 0 then c + 1 else c : ℕ) : ℚ) / ((10 ^ j : ℕ):ℚ)⌋ = ⌊sg * Q / ((10 ^ j:ℕ):ℚ)⌋ := by
  set c' := (if c % 5 = 0 then c + 1 else c : ℕ) with hc'
  have h10 : 10 ∣ 10 ^ j := dvd_pow_self 10 (by omega)
  have h5 : c' % 10 ≠ 0 := by rw [hc']; split <;> omega
  have hpow : 0 < 10 ^ j := by positivity
  set p := 10 ^ j with hp
  have hmod : c' % p ≠ 0 := by
    intro h
    have : 10 ∣ c' := dvd_trans h10 (Nat.dvd_of_mod_eq_zero h)
    omega
  have hdiv : c' / p = c / p := by
    rw [hc']; split
    · -- c+1 is not a multiple of p
      rename_i h5'
      have hne : ¬ p ∣ c + 1 := by
        intro h; have : 10 ∣ c + 1 := dvd_trans h10 h; omega
      exact Nat.succ_div_of_not_dvd hne
    · rfl
  have hpq : (0:ℚ) < (p:ℚ) := by exact_mod_cast hpow
  set q := c / p with hq
  have hdm := Nat.div_add_mod c p
  have hml := Nat.mod_lt c hpow
  have hdm' : (p:ℚ) * q + ((c % p : ℕ) : ℚ) = c := by exact_mod_cast hdm
  have hml' : ((c % p : ℕ) : ℚ) + 1 ≤ p := by exact_mod_cast hml
  have hm0 : (0:ℚ) ≤ ((c % p : ℕ) : ℚ) := by positivity
  have fQ : ⌊Q / (p:ℚ)⌋ = q := by
    rw [Int.floor_eq_iff]
    constructor
    · rw [le_div_iff₀ hpq]; push_cast; nlinarith
    · rw [div_lt_iff₀ hpq]; push_cast; nlinarith
  have fQn : ⌊-Q / (p:ℚ)⌋ = -((q + 1 : ℕ) : ℤ) := by
    rw [Int.floor_eq_iff]
    constructor
    · rw [le_div_iff₀ hpq]; push_cast; nlinarith
    · rw [div_lt_iff₀ hpq]; push_cast; nlinarith
  rcases hsg with rfl | rfl
  · rw [one_mul, one_mul, fQ, floor_nat_div, hdiv]
  · rw [neg_one_mul, neg_one_mul, fQn, neg_div, floor_neg_nat_div hpow, if_pos hmod, hdiv]

theorem div_spec {a b : Dec} (hb0 : b.coef ≠ 0) (hb : |a.val / b.val| < 10 ^ (99:ℤ)) :
    ∃ r, Dec.div a b = .ok r ∧ Spec.fix r.val = Spec.fix (a.val / b.val) := by
  unfold Dec.div
  simp only [hb0, if_false]
  by_cases ha0 : a.coef = 0
  · simp only [ha0, if_true]
    obtain ⟨r, h1, h2, _⟩ := fixCtx_zero (d := ⟨a.neg != b.neg, 0, a.exp - b.exp⟩) rfl
    exact ⟨r, h1, by rw [h2, val_zero ha0, zero_div]⟩
  · simp only [ha0, if_false]
    set shift : ℤ := (numDigits b.coef : ℤ) - (numDigits a.coef : ℤ) + prec + 1 with hshift
    set e := a.exp - b.exp - shift with hee
    set n := (if 0 ≤ shift then a.coef * 10 ^ shift.toNat else a.coef) with hn
    set m := (if 0 ≤ shift then b.coef else b.coef * 10 ^ (-shift).toNat) with hm
    have hbq : (b.coef : ℚ) ≠ 0 := by exact_mod_cast hb0
    have haq : (a.coef : ℚ) ≠ 0 := by exact_mod_cast ha0
    have hm0 : 0 < m := by
      rw [hm]; split
      · omega
      · have : 0 < 10 ^ (-shift).toNat := by positivity
        exact Nat.mul_pos (by omega) this
    have hmq : (0:ℚ) < m := by exact_mod_cast hm0
    set sg : ℚ := (if (a.neg != b.neg) = true then (-1:ℚ) else 1) with hsg
    have hsg' : sg = 1 ∨ sg = -1 := by rw [hsg]; split <;> simp
    have hsgabs : |sg| = 1 := by rcases hsg' with h | h <;> simp [h]
    have hQ : (n:ℚ) / m = (a.coef : ℚ) / b.coef * 10 ^ shift := by
      rw [hn, hm]
      by_cases hs : 0 ≤ shift
      · simp only [hs, if_true]; push_cast; rw [zp_toNat hs]; ring
      · simp only [hs, if_false]; push_cast; rw [zp_toNat (by omega), zpow_neg]
        have := (zp_pos shift).ne'
        field_simp
    have hval : a.val / b.val = sg * ((n:ℚ) / m) * 10 ^ e := by
      rw [hQ, hsg, sign_mul, hee, zp_sub, zp_sub]
      unfold Dec.val
      have h1 := (zp_pos shift).ne'
      have h2 := (zp_pos a.exp).ne'
      have h3 := (zp_pos b.exp).ne'
      cases a.neg <;> cases b.neg <;> simp <;> field_simp
    have hQlow : (10:ℚ) ^ 60 < (n:ℚ) / m := by
      rw [hQ]
      have ha1 : (10:ℚ) ^ ((numDigits a.coef : ℤ) - 1) ≤ a.coef := by
        have h1 := pow_numDigits_le ha0
        have h2 : ((10:ℚ) ^ (numDigits a.coef - 1 : ℕ)) ≤ a.coef := by exact_mod_cast h1
        have := numDigits_pos a.coef
        rw [show (numDigits a.coef : ℤ) - 1 = ((numDigits a.coef - 1 : ℕ) : ℤ) by omega, zpow_natCast]
        exact h2
      have hb1 : (b.coef : ℚ) < (10:ℚ) ^ (numDigits b.coef : ℤ) := by
        rw [zpow_natCast]; exact_mod_cast lt_pow_numDigits b.coef
      have hbpos : (0:ℚ) < b.coef := by positivity
      rw [div_mul_eq_mul_div, lt_div_iff₀ hbpos]
      calc (10:ℚ) ^ 60 * b.coef < 10 ^ 60 * (10:ℚ) ^ (numDigits b.coef : ℤ) := by
            apply mul_lt_mul_of_pos_left hb1; positivity
        _ = (10:ℚ) ^ ((numDigits a.coef : ℤ) - 1) * 10 ^ shift := by
            rw [← zp_add, show (10:ℚ) ^ 60 = 10 ^ (60:ℤ) by norm_cast, ← zp_add]
            congr 1; rw [hshift]; unfold prec; push_cast; ring
        _ ≤ _ := mul_le_mul_of_nonneg_right ha1 (zp_pos _).le
    set c := n / m with hc
    have hdm : (m:ℚ) * c + ((n % m : ℕ):ℚ) = n := by exact_mod_cast Nat.div_add_mod n m
    by_cases hrem : n % m ≠ 0
    · simp only [hrem, if_true, ne_eq, not_false_eq_true]
      have h1 : (c:ℚ) < (n:ℚ)/m := by
        rw [lt_div_iff₀ hmq]
        have : (0:ℚ) < ((n % m : ℕ):ℚ) := by exact_mod_cast Nat.pos_of_ne_zero hrem
        linarith
      have h2 : (n:ℚ)/m < c + 1 := by
        rw [div_lt_iff₀ hmq]
        have : ((n % m : ℕ):ℚ) < m := by exact_mod_cast Nat.mod_lt n hm0
        linarith
      set c' := (if c % 5 = 0 then c + 1 else c) with hc'
      set d : Dec := ⟨a.neg != b.neg, c', e⟩ with hd
      have hc60 : 10 ^ 60 ≤ c := by
        have : (10:ℚ) ^ 60 < c + 1 := lt_trans hQlow h2
        have : 10 ^ 60 < c + 1 := by exact_mod_cast this
        omega
      have hc'le : c' ≤ c + 1 := by rw [hc']; split <;> omega
      have hc'ge : c ≤ c' := by rw [hc']; split <;> omega
      have hc'0 : d.coef ≠ 0 := by
        show c' ≠ 0
        have : 0 < 10 ^ 60 := by positivity
        omega
      have hdv : d.val = sg * c' * 10 ^ e := rfl
      have hdb : |d.val| < 10 ^ (100:ℤ) := by
        have e1 : |a.val / b.val| = ((n:ℚ)/m) * 10 ^ e := by
          rw [hval, abs_mul, abs_mul, hsgabs, one_mul, abs_of_pos (zp_pos e), abs_of_pos]
          exact lt_trans (by positivity) hQlow
        have e2 : |d.val| = c' * 10 ^ e := by rw [abs_val]
        have e3 : (c':ℚ) ≤ 10 * ((n:ℚ)/m) := by
          have : (c':ℚ) ≤ c + 1 := by exact_mod_cast hc'le
          have : (1:ℚ) ≤ (n:ℚ)/m := by
            refine le_trans ?_ hQlow.le; norm_num
          linarith
        rw [e1] at hb
        rw [e2]
        calc (c':ℚ) * 10 ^ e ≤ 10 * ((n:ℚ)/m) * 10 ^ e := mul_le_mul_of_nonneg_right e3 (zp_pos e).le
          _ = 10 * (((n:ℚ)/m) * 10 ^ e) := by ring
          _ < 10 * 10 ^ (99:ℤ) := mul_lt_mul_of_pos_left hb (by norm_num)
          _ = 10 ^ (100:ℤ) := by
            rw [show (100:ℤ) = 1 + 99 by norm_num, zp_add, zpow_one]
      obtain ⟨r, hr1, hr2⟩ := fixCtx_spec hdb hc'0
      refine ⟨r, hr1, ?_⟩
      -- the grid is strictly coarser than the exponent
      have hnd : 61 ≤ numDigits c' := by
        by_contra hcon
        have := (numDigits_le_iff (n := c') (k := 60) (by norm_num)).1 (by omega)
        omega
      have hgrid : e < fixGrid d := by
        unfold fixGrid prec
        refine lt_of_lt_of_le ?_ (le_max_left _ _)
        show e < (numDigits c' : ℤ) + e - ((60:ℕ):ℤ)
        push_cast; omega
      obtain ⟨j, hj⟩ := Int.le.dest hgrid.le
      have hj0 : 0 < j := by omega
      have hfl : floorTo (fixGrid d) d.val = floorTo (fixGrid d) (a.val / b.val) := by
        unfold floorTo
        congr 2
        have e1 : ∀ x : ℚ, x * 10 ^ e / 10 ^ (fixGrid d) = x / ((10 ^ j : ℕ) : ℚ) := by
          intro x
          rw [← hj, zp_add, zpow_natCast]
          have := (zp_pos e).ne'
          push_cast; field_simp
        rw [hdv, hval, e1, e1, hc']
        exact sticky_floor hj0 h1 h2 sg hsg'
      rw [hr2, hfl]
      apply fix_floorTo
      rcases fixGrid_bound hc'0 with h | h
      · left; omega
      · right
        -- 10^(k+59) ≤ c'·10^e, and c' is not a power of ten, so ≤ Q·10^e
        set k := fixGrid d with hk
        have h3 : (10:ℚ) ^ (k + 59) ≤ c' * 10 ^ e := by rw [abs_val] at h; exact h
        have e1 : |a.val / b.val| = ((n:ℚ)/m) * 10 ^ e := by
          rw [hval, abs_mul, abs_mul, hsgabs, one_mul, abs_of_pos (zp_pos e), abs_of_pos]
          exact lt_trans (by positivity) hQlow
        rw [e1]
        have e2 : (10:ℚ) ^ (k + 59) = ((10 ^ (j + 59) : ℕ) : ℚ) * 10 ^ e := by
          rw [show k + 59 = ((j + 59 : ℕ) : ℤ) + e by push_cast; omega, zp_add, zpow_natCast]; push_cast; rfl
        rw [e2] at h3 ⊢
        apply mul_le_mul_of_nonneg_right _ (zp_pos e).le
        have h4 : ((10 ^ (j + 59) : ℕ) : ℚ) ≤ c' := le_of_mul_le_mul_right h3 (zp_pos e)
        have h5 : 10 ^ (j + 59) ≤ c' := by exact_mod_cast h4
        have h6 : 10 ^ (j + 59) ≠ c' := by
          intro hcon
          have : 10 ∣ 10 ^ (j+59) := dvd_pow_self 10 (by omega)
          rw [hcon] at this
          have : c' % 10 ≠ 0 := by rw [hc']; split <;> omega
          omega
        have h7 : 10 ^ (j + 59) ≤ c := by omega
        exact le_trans (by exact_mod_cast h7) h1.le
    · simp only [hrem, if_false]
      have hrem' : n % m = 0 := by simpa using hrem
      have hcq : (c:ℚ) = (n:ℚ)/m := by
        rw [eq_div_iff hmq.ne']; rw [hrem'] at hdm; push_cast at hdm; linarith
      set ce := stripZeros (numDigits c) c e (a.exp - b.exp) with hce
      have hv : (⟨a.neg != b.neg, ce.1, ce.2⟩ : Dec).val = a.val / b.val := by
        rw [hval]
        unfold Dec.val
        simp only []
        rw [mul_assoc, stripZeros_val, ← hcq, ← hsg]; ring
      rw [← hv]
      refine fixCtx_fix ?_
      rw [hv]
      exact lt_trans hb (zp_lt (by norm_num))

end Verif
