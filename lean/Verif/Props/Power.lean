import Verif.Proofs.Power2
/-!
# Property C89: powers of decimals

`Dec.val`, `Spec.floor30`, `Spec.fix` and `Agrees` are in `Verif/Spec/Decimal.lean`; `x ^ n` is the power of rational
numbers. `real` is whatever the `decimal` module computes for an exponent that is not a whole number.
-/
namespace Verif
open Dec

/-- C89: `x ** n` for a whole `n` of either sign and `x ≠ 0` is the exact power, off by at most `10^-60` of
the larger of itself and one, and then capped and rounded once like every other result. -/
theorem C89_pow (real : Dec → Dec → Except PyErr Num) {a b : Dec} (ha : IsCD a) (hb : IsCD b) {n : ℤ}
    (hn : b.val = n) (h0 : a.val ≠ 0) (hq : |a.val ^ n| < 10 ^ 99) :
    ∃ q, |q - a.val ^ n| ≤ 1 / 10 ^ 60 * max 1 |a.val ^ n| ∧ Agrees (cdPow real a b) (Spec.fix q) := by
  have h99 : ((10:ℚ) ^ 99) = 10 ^ (99:ℤ) := (zpow_natCast _ 99).symm
  rw [h99] at hq
  have h60 : (1:ℚ) / 10 ^ 60 = 10 ^ (-60:ℤ) := by rw [zpow_neg, one_div]; rfl
  rw [h60]
  rcases power_whole real ha hb hn h0 with ⟨d, h1, h2⟩ | ⟨_, h⟩
  · refine ⟨d.val, h2, cdPow_agrees h1 ?_⟩
    have h3 := (max_cases h2).1
    have h4 : max 1 |a.val ^ n| ≤ 10 ^ (99:ℤ) :=
      max_le (by rw [← zpow_zero (10:ℚ)]; exact zp_le (by norm_num)) hq.le
    have h5 : (10:ℚ) ^ (100:ℤ) = 10 * 10 ^ (99:ℤ) := by
      rw [show (100:ℤ) = 1 + 99 by norm_num, zp_add, zpow_one]
    have h6 := zp_pos 99
    rw [h5]
    generalize (10:ℚ) ^ (99:ℤ) = w at *
    linarith
  · exact absurd h (not_lt.2 hq.le)

/-- C89: so where the power is within the range of a decimal, the result is the exact power rounded down to 30
places, or differs from that by one unit in the last place. -/
theorem C89_units (real : Dec → Dec → Except PyErr Num) {a b : Dec} (ha : IsCD a) (hb : IsCD b) {n : ℤ}
    (hn : b.val = n) (h0 : a.val ≠ 0) (hq : |a.val ^ n| ≤ 10 ^ 29) :
    ∃ d, cdPow real a b = .ok d ∧
      (d.val = Spec.floor30 (a.val ^ n) ∨ d.val = Spec.floor30 (a.val ^ n) + 1 / 10 ^ 30 ∨
        d.val = Spec.floor30 (a.val ^ n) - 1 / 10 ^ 30) := by
  obtain ⟨q, h1, h2⟩ := C89_pow real ha hb hn h0 (lt_of_le_of_lt hq (by norm_num))
  set x := a.val ^ n with hx
  have h3 : |q - x| < 1 / 10 ^ 30 := by
    have : max 1 |x| ≤ 10 ^ 29 := max_le (by norm_num) hq
    refine lt_of_le_of_lt h1 (lt_of_le_of_lt (mul_le_mul_of_nonneg_left this (by norm_num)) (by norm_num))
  have hfl : ⌊q * 10 ^ 30⌋ = ⌊x * 10 ^ 30⌋ ∨ ⌊q * 10 ^ 30⌋ = ⌊x * 10 ^ 30⌋ + 1 ∨ ⌊q * 10 ^ 30⌋ = ⌊x * 10 ^ 30⌋ - 1 := by
    have h4 := abs_lt.1 h3
    have e1 := Int.floor_le (q * 10 ^ 30)
    have e2 := Int.lt_floor_add_one (q * 10 ^ 30)
    have e3 := Int.floor_le (x * 10 ^ 30)
    have e4 := Int.lt_floor_add_one (x * 10 ^ 30)
    have h5 : q * 10 ^ 30 - x * 10 ^ 30 < 1 := by
      have := mul_lt_mul_of_pos_right h4.2 (show (0:ℚ) < 10 ^ 30 by norm_num)
      rw [sub_mul] at this; linarith
    have h6 : -1 < q * 10 ^ 30 - x * 10 ^ 30 := by
      have := mul_lt_mul_of_pos_right h4.1 (show (0:ℚ) < 10 ^ 30 by norm_num)
      rw [sub_mul] at this; linarith
    generalize q * 10 ^ 30 = Q at *
    generalize x * 10 ^ 30 = X at *
    have h7 : ((⌊Q⌋ : ℤ) : ℚ) < ((⌊X⌋ + 2 : ℤ) : ℚ) := by push_cast; linarith
    have h8 : ((⌊X⌋ : ℤ) : ℚ) < ((⌊Q⌋ + 2 : ℤ) : ℚ) := by push_cast; linarith
    have h7' : ⌊Q⌋ < ⌊X⌋ + 2 := by exact_mod_cast h7
    have h8' : ⌊X⌋ < ⌊Q⌋ + 2 := by exact_mod_cast h8
    omega
  have hfq : Spec.floor30 q = Spec.floor30 x ∨ Spec.floor30 q = Spec.floor30 x + 1 / 10 ^ 30 ∨
      Spec.floor30 q = Spec.floor30 x - 1 / 10 ^ 30 := by
    unfold Spec.floor30
    rcases hfl with h | h | h <;> rw [h]
    · left; rfl
    · right; left; push_cast; ring
    · right; right; push_cast; ring
  have hxr := abs_le.1 hq
  by_cases hbig : 10 ^ 29 < q
  · -- the cap
    rw [Spec.fix, if_pos hbig] at h2
    obtain ⟨d, hd, hv⟩ := h2
    refine ⟨d, hd, ?_⟩
    rw [hv]
    have e3 : x < Spec.floor30 x + 1 / 10 ^ 30 := by
      have := lt_floorTo (-30) x
      rw [floor30_eq]
      rw [zpow_neg] at this; rw [one_div]; exact this
    have e4 := floor30_le x
    have e5 := (abs_lt.1 h3).2
    have hlow : ⌊x * 10 ^ 30⌋ = 10 ^ 59 ∨ ⌊x * 10 ^ 30⌋ = 10 ^ 59 - 1 := by
      have f1 : ⌊x * 10 ^ 30⌋ ≤ 10 ^ 59 := by
        have : ⌊x * 10 ^ 30⌋ < 10 ^ 59 + 1 := by
          rw [Int.floor_lt]; push_cast; linarith [hxr.2]
        omega
      have f2 : 10 ^ 59 - 1 ≤ ⌊x * 10 ^ 30⌋ := by
        rw [Int.le_floor]; push_cast
        have : (10:ℚ) ^ 29 - 1 / 10 ^ 30 < x := by linarith
        linarith
      omega
    unfold Spec.floor30
    rcases hlow with h | h <;> rw [h]
    · left; norm_num
    · right; left; norm_num
  · have hlow : -10 ^ 30 < Spec.floor30 q := by
      have e5 := (abs_lt.1 h3).1
      have : -10 ^ 30 < q - 1 := by
        have := hxr.1
        norm_num at e5 this ⊢
        linarith
      have e6 : q < Spec.floor30 q + 1 := by
        have := lt_floorTo (-30) q
        rw [← floor30_eq] at this
        refine lt_of_lt_of_le this ?_
        have : (10:ℚ) ^ (-30:ℤ) ≤ 1 := by rw [← zpow_zero (10:ℚ)]; exact zp_le (by norm_num)
        linarith
      linarith
    rw [Spec.fix, if_neg hbig, if_pos hlow] at h2
    obtain ⟨d, hd, hv⟩ := h2
    exact ⟨d, hd, by rw [hv]; exact hfq⟩

/-- C89: when the digits of the power fit sixty places, and it is neither beyond `10^99` nor below `10^-100`, the result is
the exact power, capped and rounded once. -/
theorem C89_exact (real : Dec → Dec → Except PyErr Num) {a b : Dec} {n : ℕ} (hn : b.val = n) (h1 : 1 ≤ n)
    (hfit : a.coef ^ n < 10 ^ 60) (hlo : 1 / 10 ^ 100 ≤ |a.val ^ n|) (hhi : |a.val ^ n| < 10 ^ 99) :
    Agrees (cdPow real a b) (Spec.fix (a.val ^ n)) := by
  have h99 : ((10:ℚ) ^ 99) = 10 ^ (99:ℤ) := (zpow_natCast _ 99).symm
  have h100 : (1:ℚ) / 10 ^ 100 = 10 ^ (-100:ℤ) := by rw [zpow_neg, one_div]; rfl
  rw [h99] at hhi
  rw [h100] at hlo
  obtain ⟨d, h2, h3⟩ := power_exact real hn h1 hfit hlo hhi
  rw [← h3]
  refine cdPow_agrees h2 ?_
  rw [h3]
  exact lt_trans hhi (zp_lt (by norm_num))

/-- C89: a power that is far out of range raises. -/
theorem C89_overflow (real : Dec → Dec → Except PyErr Num) {a b : Dec} (ha : IsCD a) (hb : IsCD b) {n : ℤ}
    (hn : b.val = n) (h0 : a.val ≠ 0) (hq : 10 ^ 102 ≤ |a.val ^ n|) : ∃ e, cdPow real a b = .error e := by
  have h102 : ((10:ℚ) ^ 102) = 10 * 10 ^ (101:ℤ) := by
    rw [← zpow_natCast, show ((102:ℕ):ℤ) = 1 + 101 by norm_num, zp_add, zpow_one]
  rw [h102] at hq
  have h101 := zp_pos 101
  have h101' : (10:ℚ) ≤ 10 ^ (101:ℤ) := by
    have := zp_le (show (1:ℤ) ≤ 101 by norm_num); rwa [zpow_one] at this
  rcases power_whole real ha hb hn h0 with ⟨d, h1, h2⟩ | ⟨⟨er, he⟩, _⟩
  · have h3 := (max_cases h2).2
    have h4 : (10:ℚ) ^ (101:ℤ) ≤ |d.val| := by
      generalize (10:ℚ) ^ (101:ℤ) = w at *
      have := h3 (by linarith)
      linarith
    rcases h1 with ⟨_, h1⟩ | h1
    · exfalso; rw [h1] at h4; generalize (10:ℚ) ^ (101:ℤ) = w at *; linarith
    · obtain ⟨er, he⟩ := fixCtx_overflow h4
      exact ⟨er, by unfold cdPow; rw [h1, he]; rfl⟩
  · exact ⟨er, by unfold cdPow; rw [he]; rfl⟩

/-- C89: whatever the operands, a power that does not raise is a decimal in range with at most 30 places. -/
theorem C89_closed (real : Dec → Dec → Except PyErr Num) {a b d : Dec} (h : cdPow real a b = .ok d) : IsCD d := by
  unfold cdPow at h
  simp only [bind, Except.bind] at h
  split at h
  · cases h
  · split at h
    · cases h
    · exact ⟨_, h⟩

/-- C89: `x ** 0` is `1` for every `x ≠ 0`. -/
theorem C89_pow_zero (real : Dec → Dec → Except PyErr Num) {a b : Dec} (h0 : a.val ≠ 0) (hb : b.val = 0) :
    Agrees (cdPow real a b) (some 1) := by
  have hc : a.coef ≠ 0 := fun h => h0 (val_zero h)
  have hb0 := val_eq_zero.1 hb
  have hint : isInteger b = true := (isInteger_iff b).2 ⟨0, by rw [hb]; simp⟩
  have hti : toInt b = 0 := toInt_of_val (by rw [hb]; simp)
  have : power real a b = .ok (.fin ⟨false, 1, 0⟩) := by
    unfold power; dsimp only; rw [hint, hti, if_neg hc, if_neg (by simp), if_pos hb0]; simp
  refine ⟨⟨false, 1, 0⟩, ?_, by simp [Dec.val]⟩
  unfold cdPow
  rw [this]
  decide +kernel

/-- C89: zero to a power. `0 ** 0` raises, a positive power is `0`, and a negative power is the cap `10^29` where
mathematics has no value, except for a negative zero to an odd power, which raises. -/
theorem C89_zero_base (real : Dec → Dec → Except PyErr Num) {a b : Dec} (h0 : a.val = 0) :
    (b.val = 0 → ∃ e, cdPow real a b = .error e) ∧
    (0 < b.val → Agrees (cdPow real a b) (some 0)) ∧
    (b.val < 0 → a.neg = false → Agrees (cdPow real a b) (some (10 ^ 29))) ∧
    (b.val < 0 → a.neg = true → ∀ n : ℤ, b.val = n → n % 2 = 1 → ∃ e, cdPow real a b = .error e) := by
  have hc := val_eq_zero.1 h0
  refine ⟨fun hb => ?_, fun hb => ?_, fun hb hn => ?_, fun hb hn n hbn ho => ?_⟩
  · have hb0 := val_eq_zero.1 hb
    exact ⟨.invalidOperation, by unfold cdPow power; simp [hc, hb0, bind, Except.bind]⟩
  · have hb0 : b.coef ≠ 0 := fun h => by rw [val_zero h] at hb; exact lt_irrefl _ hb
    have hbn : b.neg = false := by
      cases h : b.neg
      · rfl
      · exfalso
        unfold Dec.val at hb; rw [h] at hb
        have := mul_nonneg (Nat.cast_nonneg (α := ℚ) b.coef) (zp_pos b.exp).le
        simp only [if_true] at hb
        linarith
    have : ∃ s, power real a b = .ok (.fin ⟨s, 0, 0⟩) := by
      unfold power; simp [hc, hb0, hbn]
    obtain ⟨s, hs⟩ := this
    refine ⟨⟨s, 0, 0⟩, ?_, by simp [Dec.val]⟩
    unfold cdPow
    rw [hs]
    cases s <;> decide +kernel
  all_goals
    have hb0 : b.coef ≠ 0 := fun h => by rw [val_zero h] at hb; exact lt_irrefl _ hb
    have hbneg : b.neg = true := by
      cases h : b.neg
      · exfalso
        unfold Dec.val at hb; rw [h] at hb
        have := mul_nonneg (Nat.cast_nonneg (α := ℚ) b.coef) (zp_pos b.exp).le
        simp at hb
        linarith
      · rfl
  · have : power real a b = .ok (.inf false) := by
      unfold power; simp [hc, hb0, hbneg, hn]
    refine ⟨⟨false, 1, 29⟩, ?_, by simp [Dec.val]⟩
    unfold cdPow
    rw [this]
    decide +kernel
  · have hint : isInteger b = true := (isInteger_iff b).2 ⟨n, hbn⟩
    have hti := toInt_of_val hbn
    have : power real a b = .ok (.inf true) := by
      unfold power; simp [hc, hb0, hbneg, hn, hint, hti, ho]
    exact ⟨.invalidOperation, by unfold cdPow; rw [this]; rfl⟩

/-- C89: a negative number to a power that is not whole raises. -/
theorem C89_negative_base (real : Dec → Dec → Except PyErr Num) {a b : Dec} (h0 : a.val < 0) (hb : ∀ n : ℤ, b.val ≠ n) :
    ∃ e, cdPow real a b = .error e := by
  have hc : a.coef ≠ 0 := fun h => by rw [val_zero h] at h0; exact lt_irrefl _ h0
  have hn : a.neg = true := by
    cases h : a.neg
    · exfalso
      unfold Dec.val at h0; rw [h] at h0
      have := mul_nonneg (Nat.cast_nonneg (α := ℚ) a.coef) (zp_pos a.exp).le
      simp at h0
      linarith
    · rfl
  have hi : isInteger b = false := by
    cases h : isInteger b
    · rfl
    · obtain ⟨n, h'⟩ := (isInteger_iff b).1 h
      exact absurd h' (hb n)
  exact ⟨.invalidOperation, by unfold cdPow power; simp [hc, hn, hi, bind, Except.bind]⟩

/-- What the module does for exponents that are not whole plays no role for whole ones. -/
theorem cdPow_whole_eq (r1 r2 : Dec → Dec → Except PyErr Num) (a : Dec) {b : Dec} (hb : isInteger b = true) :
    cdPow r1 a b = cdPow r2 a b := by
  unfold cdPow power; simp only [hb, if_true]

/-- C89: squaring is not multiplication: with `x = 12345678901234.408591540930876643203620972687`, `x ** 2` and
`x * x` differ in the last place (`C01` says `x * x` is the one that is rounded once). -/
theorem C89_refuted (real : Dec → Dec → Except PyErr Num) :
    let x : Dec := ⟨false, 12345678901234408591540930876643203620972687, -30⟩
    IsCD x ∧ cdMul x x = .ok ⟨false, 15241578753238443420665494219113506826751586854069656999, -29⟩ ∧
      cdPow real x ⟨false, 2, 0⟩ = .ok ⟨false, 152415787532384434206654942191135068267515868540696569991, -30⟩ := by
  refine ⟨⟨⟨false, 12345678901234408591540930876643203620972687, -30⟩, by decide +kernel⟩, by decide +kernel, ?_⟩
  rw [cdPow_whole_eq real (fun _ _ => .error .invalidOperation) _ (by decide +kernel)]
  decide +kernel

/-- The premises of `C89_pow`, `C89_units` and `C89_exact` on a case with a fraction and on one with a negative base and
exponent; the results are `1.5 ** 3 = 3.375` and `(-0.7) ** -3 = -2.915451895…`, rounded down. -/
example (real : Dec → Dec → Except PyErr Num) :
    IsCD ⟨false, 15, -1⟩ ∧ IsCD ⟨false, 3, 0⟩ ∧ IsCD ⟨true, 7, -1⟩ ∧ IsCD ⟨true, 3, 0⟩ ∧
    (⟨true, 3, 0⟩ : Dec).val = ((-3 : ℤ) : ℚ) ∧ |(⟨true, 7, -1⟩ : Dec).val ^ (-3 : ℤ)| ≤ 10 ^ 29 ∧
    1 / 10 ^ 100 ≤ |(⟨false, 15, -1⟩ : Dec).val ^ 3| ∧ |(⟨false, 15, -1⟩ : Dec).val ^ 3| < 10 ^ 99 ∧
    cdPow real ⟨false, 15, -1⟩ ⟨false, 3, 0⟩ = .ok ⟨false, 3375, -3⟩ ∧
    cdPow real ⟨true, 7, -1⟩ ⟨true, 3, 0⟩ = .ok ⟨true, 2915451895043731778425655976677, -30⟩ := by
  have v1 : (⟨true, 3, 0⟩ : Dec).val = ((-3 : ℤ) : ℚ) := by simp [Dec.val]
  have v2 : (⟨true, 7, -1⟩ : Dec).val = -7 / 10 := by simp [Dec.val]; norm_num
  have v3 : (⟨false, 15, -1⟩ : Dec).val = 3 / 2 := by simp [Dec.val]; norm_num
  rw [v1, v2, v3, cdPow_whole_eq real (fun _ _ => .error .invalidOperation) _ (by decide +kernel),
    cdPow_whole_eq real (fun _ _ => .error .invalidOperation) _ (by decide +kernel)]
  refine ⟨⟨⟨false, 15, -1⟩, by decide +kernel⟩, ⟨⟨false, 3, 0⟩, by decide +kernel⟩, ⟨⟨true, 7, -1⟩, by decide +kernel⟩,
    ⟨⟨true, 3, 0⟩, by decide +kernel⟩, rfl, ?_, ?_, ?_, by decide +kernel, by decide +kernel⟩
  · rw [abs_of_neg (by norm_num)]; norm_num
  · rw [abs_of_pos (by norm_num)]; norm_num
  · rw [abs_of_pos (by norm_num)]; norm_num

/-- `C89_overflow` and the corner cases: `1000 ** 40` raises, `0 ** -1` is `10^29`, `(-0) ** -1` raises. -/
example (real : Dec → Dec → Except PyErr Num) :
    (∃ e, cdPow real ⟨false, 1, 3⟩ ⟨false, 4, 1⟩ = .error e) ∧ cdPow real ⟨false, 0, 0⟩ ⟨true, 1, 0⟩ = .ok ⟨false, 1, 29⟩ ∧
    (10:ℚ) ^ 102 ≤ |(⟨false, 1, 3⟩ : Dec).val ^ (40:ℤ)| := by
  have v1 : (⟨false, 1, 3⟩ : Dec).val = 1000 := by simp [Dec.val]; norm_num
  refine ⟨C89_overflow real (n := 40) ⟨⟨false, 1, 3⟩, by decide +kernel⟩ ⟨⟨false, 4, 1⟩, by decide +kernel⟩ ?_ ?_ ?_, ?_, ?_⟩
  · simp [Dec.val]; norm_num
  · rw [v1]; norm_num
  · rw [v1, abs_of_pos (by norm_num)]; norm_num
  · rw [cdPow_whole_eq real (fun _ _ => .error .invalidOperation) _ (by decide +kernel)]; decide +kernel
  · rw [v1, abs_of_pos (by norm_num)]; norm_num

end Verif
