import Verif.Proofs.DecimalInt
/-!
# Properties C77 – C78: signs, whole-number division, remainder, `int` and `round`

`Dec.val`, `Spec.fix`, `Spec.trunc`, `Spec.NearestEven` and `Agrees` are in `Verif/Spec/Decimal.lean`.
-/
namespace Verif
open Dec

/-! ## C77 -/

/-- C77: `-x` is the exact negation, capped like every result. -/
theorem C77_neg {a : Dec} (ha : IsCD a) : Agrees (cdNeg a) (Spec.fix (-a.val)) := by
  obtain ⟨r, h1, h2⟩ := fixCtx_fix (d := a.copyNegate) (by
    rw [copyNegate_val, abs_neg]; exact lt_trans ha.abs_lt (zp_lt (by norm_num)))
  rw [copyNegate_val] at h2
  have h3 := fixPrecision_agrees r
  rw [h2] at h3
  have : cdNeg a = fixPrecision r := by simp [cdNeg, Dec.neg', h1, bind, Except.bind]
  rw [this]; exact h3

/-- C77: `abs(x)` is the exact absolute value, capped like every result. -/
theorem C77_abs {a : Dec} (ha : IsCD a) : Agrees (cdAbs a) (Spec.fix |a.val|) := by
  cases hn : a.neg
  · have hv : |a.val| = a.val := by rw [abs_val, Dec.val, hn]; simp
    obtain ⟨r, h1, h2⟩ := fixCtx_fix (d := a) (lt_trans ha.abs_lt (zp_lt (by norm_num)))
    have h3 := fixPrecision_agrees r
    have : cdAbs a = fixPrecision r := by simp [cdAbs, Dec.abs, hn, h1, bind, Except.bind]
    rw [hv, this, ← h2]; exact h3
  · have hv : |a.val| = -a.val := by rw [abs_val, Dec.val, hn]; simp
    have : cdAbs a = cdNeg a := by simp [cdAbs, Dec.abs, hn, cdNeg]
    rw [hv, this]; exact C77_neg ha

/-- C77: `+x` is `x`. -/
theorem C77_pos (a : Dec) : cdPos a = a := rfl

/-- C77: `int(x)` drops the fraction, toward zero, whatever the size of `x`. -/
theorem C77_int (a : Dec) : cdInt a = Spec.trunc a.val := toInt_spec a

/-- C77: `x // y` is the quotient with its fraction dropped (toward zero, unlike Python's `//` on ints),
capped like every result. -/
theorem C77_floordiv {a b : Dec} (ha : IsCD a) (hb : IsCD b) (h0 : b.val ≠ 0) :
    Agrees (cdFloordiv a b) (Spec.fix (Spec.trunc (a.val / b.val) : ℚ)) := by
  obtain ⟨r, h1, h2⟩ := floordiv_spec ha hb (fun h => h0 (val_zero h))
  exact cdOp_agrees h1 (by rw [h2])

/-- C77: `x % y` is the exact remainder of that division: it never fails and is never rounded. -/
theorem C77_mod {a b : Dec} (ha : IsCD a) (hb : IsCD b) (h0 : b.val ≠ 0) :
    Agrees (cdMod a b) (some (a.val - b.val * (Spec.trunc (a.val / b.val) : ℚ))) := by
  obtain ⟨r, h1, h2, h3, h4, h5⟩ := mod_spec ha hb (fun h => h0 (val_zero h))
  rw [← h2]
  have hfix : Spec.fix r.val = some r.val := by
    obtain ⟨ra, rb, _⟩ := ha.range
    obtain ⟨hl, hu, _⟩ := hb.range
    refine fix_exact ?_ ?_ h5
    · have := (_root_.abs_lt.1 (lt_of_le_of_lt h3 ha.abs_lt)).1
      exact_mod_cast this
    · by_cases hneg : a.neg = true
      · have ha' : a.val ≤ 0 := by
          rw [val_sign a, hneg]; simp
        have hq : (Spec.trunc (a.val / b.val) : ℚ) * b.val = a.val - r.val := by rw [h2]; ring
        obtain ⟨x, y, e, hyp, _, _, hx, hy, hd⟩ := divide_eq ha hb (fun h => h0 (val_zero h))
        have hv := (divide_trunc hyp hx hy).2
        have : r.val ≤ 0 := by
          rw [h2, ← hv]
          unfold Dec.val
          simp only [hneg, if_true]
          have := mul_nonneg (show (0:ℚ) ≤ ((x % y : ℕ) : ℚ) by positivity) (zp_pos e).le
          linarith
        refine le_trans this (by norm_num)
      · have ha' : |a.val| = a.val := by
          have hneg : a.neg = false := by simpa using hneg
          rw [abs_val, Dec.val, hneg]; simp
        rw [ha'] at h3
        exact le_trans (le_trans (le_abs_self _) h3) rb
  rw [← hfix]
  exact cdOp_agrees h1 rfl

/-- C77: the remainder is smaller than the divisor and has the sign of the dividend. -/
theorem C77_mod_range {a b r : Dec} (ha : IsCD a) (hb : IsCD b) (h0 : b.val ≠ 0) (h : cdMod a b = .ok r) :
    |r.val| < |b.val| ∧ 0 ≤ r.val * a.val := by
  obtain ⟨d, h1, h2⟩ := C77_mod ha hb h0
  rw [h1] at h
  cases h
  have hb0 : b.coef ≠ 0 := fun h => h0 (val_zero h)
  obtain ⟨r', _, e1, e2, e3, _⟩ := mod_spec ha hb hb0
  rw [h2, ← e1]
  refine ⟨e3, ?_⟩
  obtain ⟨x, y, e, hyp, _, _, hx, hy, _⟩ := divide_eq ha hb hb0
  have hv := (divide_trunc hyp hx hy).2
  rw [e1, ← hv, val_sign a, val_sign (⟨a.neg, x % y, e⟩ : Dec)]
  have hnn := mul_nonneg (abs_nonneg (⟨a.neg, x % y, e⟩ : Dec).val) (abs_nonneg a.val)
  dsimp only
  generalize (if a.neg = true then (-1:ℚ) else 1) = s
  have hr : ∀ X Y : ℚ, s * X * (s * Y) = s * s * (X * Y) := fun X Y => by ring
  rw [hr]
  exact mul_nonneg (mul_self_nonneg s) hnn

/-- C77: whole-number division and remainder by zero always raise. -/
theorem C77_zero {a b : Dec} (h0 : b.val = 0) :
    (∃ e, cdFloordiv a b = .error e) ∧ ∃ e, cdMod a b = .error e := by
  have hb0 := val_eq_zero.1 h0
  refine ⟨?_, _, cdOp_error (e := .invalidOperation) (by simp [Dec.mod, hb0])⟩
  by_cases ha : a.coef = 0
  · exact ⟨_, cdOp_error (e := .invalidOperation) (by simp [Dec.floordiv, hb0, ha])⟩
  · exact ⟨_, cdOp_error (e := .divisionByZero) (by simp [Dec.floordiv, hb0, ha])⟩

/-- `-7 // 2` is `-3`, `-7 % 2` is `-1`: not the Python integer results (`-4`, `1`). -/
example : IsCD ⟨true, 7, 0⟩ ∧ IsCD ⟨false, 2, 0⟩ ∧
    cdFloordiv ⟨true, 7, 0⟩ ⟨false, 2, 0⟩ = .ok ⟨true, 3, 0⟩ ∧
    cdMod ⟨true, 7, 0⟩ ⟨false, 2, 0⟩ = .ok ⟨true, 1, 0⟩ :=
  ⟨⟨⟨true, 7, 0⟩, by decide +kernel⟩, ⟨⟨false, 2, 0⟩, by decide +kernel⟩, by decide +kernel, by decide +kernel⟩

/-- The quotient is capped: `10^29 // 10^-30`. -/
example : IsCD ⟨false, 1, 29⟩ ∧ IsCD ⟨false, 1, -30⟩ ∧
    cdFloordiv ⟨false, 1, 29⟩ ⟨false, 1, -30⟩ = .ok ⟨false, 1, 29⟩ ∧
    cdInt ⟨true, 29, -1⟩ = -2 :=
  ⟨⟨⟨false, 1, 29⟩, by decide +kernel⟩, ⟨⟨false, 1, -30⟩, by decide +kernel⟩, by decide +kernel, by decide⟩

/-! ## C78 -/

/-- C78: `round(x)` is the nearest integer, ties to even. -/
theorem C78_round (a : Dec) : Spec.NearestEven a.val (cdRound a) := round_spec a

/-- The nearest-even integer is unique, so `C78_round` pins the result. -/
theorem C78_unique {q : ℚ} {m n : ℤ} (hm : Spec.NearestEven q m) (hn : Spec.NearestEven q n) : m = n := by
  have h1 : |((m - n : ℤ) : ℚ)| ≤ 1 := by
    have : ((m - n : ℤ) : ℚ) = (q - n) - (q - m) := by push_cast; ring
    rw [this]
    have := abs_sub (q - n) (q - m)
    linarith [hm.1, hn.1]
  have h2 : |m - n| ≤ 1 := by exact_mod_cast h1
  by_contra hne
  have h3 : m = n + 1 ∨ n = m + 1 := by
    rcases abs_le.1 h2 with ⟨h, h'⟩; omega
  rcases h3 with h | h
  · have hq : q = n + 1 / 2 := by
      have a1 := (abs_le.1 hm.1).1
      have a2 := (abs_le.1 hn.1).2
      rw [h] at a1; push_cast at a1; linarith
    have e1 := hn.2 (by rw [hq]; norm_num)
    have e2 := hm.2 (by rw [hq, h]; push_cast; rw [show (n:ℚ) + 1/2 - (n + 1) = -(1/2) by ring, abs_neg]; norm_num)
    omega
  · have hq : q = m + 1 / 2 := by
      have a1 := (abs_le.1 hn.1).1
      have a2 := (abs_le.1 hm.1).2
      rw [h] at a1; push_cast at a1; linarith
    have e1 := hm.2 (by rw [hq]; norm_num)
    have e2 := hn.2 (by rw [hq, h]; push_cast; rw [show (m:ℚ) + 1/2 - (m + 1) = -(1/2) by ring, abs_neg]; norm_num)
    omega

/-- C78: `round(x, n)` rounds *down* to a multiple of `10^-n` (not to the nearest one), and succeeds
exactly when `n` is between -100 and 159 and the result has at most 60 digits. -/
theorem C78_round_to {a : Dec} (ha : IsCD a) (n : ℤ) :
    (∀ d, cdRoundTo a n = .ok d → d.val = (⌊a.val * 10 ^ n⌋ : ℚ) / 10 ^ n) ∧
    ((∃ d, cdRoundTo a n = .ok d) ↔ -100 ≤ n ∧ n ≤ 159 ∧ |⌊a.val * 10 ^ n⌋| < 10 ^ 60) :=
  roundTo_spec ha n

/-- `round(decimal('1.29'), 1)` is `1.2` and `round(decimal('-1.21'), 1)` is `-1.3`. -/
example : IsCD ⟨false, 129, -2⟩ ∧ cdRoundTo ⟨false, 129, -2⟩ 1 = .ok ⟨false, 12, -1⟩ ∧
    IsCD ⟨true, 121, -2⟩ ∧ cdRoundTo ⟨true, 121, -2⟩ 1 = .ok ⟨true, 13, -1⟩ ∧
    cdRound ⟨false, 25, -1⟩ = 2 ∧ cdRound ⟨true, 35, -1⟩ = -4 :=
  ⟨⟨⟨false, 129, -2⟩, by decide +kernel⟩, by decide +kernel, ⟨⟨true, 121, -2⟩, by decide +kernel⟩, by decide +kernel,
    by decide +kernel, by decide +kernel⟩

/-- C78, the limit of C02: `round` with a digit count hands the contract a plain `Decimal` that need not be
a contract decimal: `round(decimal('-1'), -100)` is `-10^100`. -/
theorem C78_escapes : ∃ a d : Dec, IsCD a ∧ cdRoundTo a (-100) = .ok d ∧ ¬ IsCD d := by
  refine ⟨⟨true, 1, 0⟩, ⟨true, 1, 100⟩, ⟨⟨true, 1, 0⟩, by decide +kernel⟩, by decide +kernel, fun h => ?_⟩
  have h1 := h.abs_lt
  rw [abs_val] at h1
  norm_num at h1

end Verif
