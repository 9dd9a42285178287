import Verif.Spec.Decimal
import Verif.Proofs.Digits
import Mathlib.Tactic.Positivity
import Mathlib.Tactic.FieldSimp
import Mathlib.Tactic.NormNum
import Mathlib.Tactic.GCongr
import Mathlib.Tactic.Qify
/-! # Lemmas about the decimal model -/
namespace Verif
open Dec

abbrev T : ℚ := 10

theorem T_pos : (0:ℚ) < 10 := by norm_num
theorem T_ne : (10:ℚ) ≠ 0 := by norm_num

theorem zp_pos (k : ℤ) : (0:ℚ) < 10 ^ k := by positivity

theorem zp_add (a b : ℤ) : (10:ℚ) ^ (a + b) = 10 ^ a * 10 ^ b := zpow_add₀ T_ne a b
theorem zp_sub (a b : ℤ) : (10:ℚ) ^ (a - b) = 10 ^ a / 10 ^ b := zpow_sub₀ T_ne a b

theorem zp_toNat {a : ℤ} (h : 0 ≤ a) : ((10:ℚ) ^ a.toNat) = 10 ^ a := by
  conv_rhs => rw [← Int.toNat_of_nonneg h]
  rw [zpow_natCast]

theorem zp_le {a b : ℤ} (h : a ≤ b) : (10:ℚ) ^ a ≤ 10 ^ b :=
  zpow_le_zpow_right₀ (by norm_num) h
theorem zp_lt {a b : ℤ} (h : a < b) : (10:ℚ) ^ a < 10 ^ b :=
  zpow_lt_zpow_right₀ (by norm_num) h
theorem zp_lt_iff {a b : ℤ} : (10:ℚ) ^ a < 10 ^ b ↔ a < b :=
  zpow_lt_zpow_iff_right₀ (by norm_num)
theorem zp_le_iff {a b : ℤ} : (10:ℚ) ^ a ≤ 10 ^ b ↔ a ≤ b :=
  zpow_le_zpow_iff_right₀ (by norm_num)

/-- Signed coefficient. -/
def Dec.sc (d : Dec) : ℤ := (if d.neg then -1 else 1) * (d.coef : ℤ)

theorem Dec.val_eq (d : Dec) : d.val = (d.sc : ℚ) * 10 ^ d.exp := by
  unfold Dec.val Dec.sc; split <;> simp

theorem abs_val (d : Dec) : |d.val| = (d.coef : ℚ) * 10 ^ d.exp := by
  rw [Dec.val_eq, abs_mul, abs_of_pos (zp_pos _)]
  congr 1
  unfold Dec.sc; split <;> simp

theorem val_zero {d : Dec} (h : d.coef = 0) : d.val = 0 := by simp [Dec.val, h]

theorem val_eq_zero {d : Dec} : d.val = 0 ↔ d.coef = 0 := by
  constructor
  · intro h
    have := abs_val d
    rw [h, abs_zero] at this
    have := (mul_eq_zero.1 this.symm).resolve_right (zp_pos _).ne'
    exact_mod_cast this
  · exact val_zero

theorem numDigits_pos (n : Nat) : 0 < numDigits n := natToStr_length_pos n
theorem lt_pow_numDigits (n : Nat) : n < 10 ^ numDigits n := lt_pow_length n
theorem pow_numDigits_le {n : Nat} (h : n ≠ 0) : 10 ^ (numDigits n - 1) ≤ n :=
  pow_le_of_pos (Nat.pos_of_ne_zero h)

theorem numDigits_le_iff {n k : Nat} (hk : 0 < k) : numDigits n ≤ k ↔ n < 10 ^ k := by
  constructor
  · intro h
    exact lt_of_lt_of_le (lt_pow_numDigits n) (Nat.pow_le_pow_right (by norm_num) h)
  · intro h
    by_contra hc
    have h0 : n ≠ 0 := by
      rintro rfl
      have : numDigits 0 = 1 := rfl
      omega
    have h1 := pow_numDigits_le h0
    have : 10 ^ k ≤ 10 ^ (numDigits n - 1) := Nat.pow_le_pow_right (by norm_num) (by omega)
    omega

theorem val_ge_adj {d : Dec} (h : d.coef ≠ 0) : (10:ℚ) ^ adjusted d ≤ |d.val| := by
  rw [abs_val]
  have h1 := pow_numDigits_le h
  have h2 : ((10:ℚ) ^ (numDigits d.coef - 1 : ℕ)) ≤ d.coef := by exact_mod_cast h1
  have : adjusted d = ((numDigits d.coef - 1 : ℕ) : ℤ) + d.exp := by
    unfold adjusted; have := numDigits_pos d.coef; omega
  rw [this, zp_add, zpow_natCast]
  exact mul_le_mul_of_nonneg_right h2 (zp_pos _).le

theorem val_lt_adj (d : Dec) : |d.val| < (10:ℚ) ^ (adjusted d + 1) := by
  rw [abs_val]
  have h1 := lt_pow_numDigits d.coef
  have h2 : (d.coef : ℚ) < ((10:ℚ) ^ (numDigits d.coef)) := by exact_mod_cast h1
  have : adjusted d + 1 = (numDigits d.coef : ℤ) + d.exp := by unfold adjusted; omega
  rw [this, zp_add, zpow_natCast]
  exact mul_lt_mul_of_pos_right h2 (zp_pos _)

/-- Round toward minus infinity to a multiple of `10^k`. -/
def floorTo (k : ℤ) (q : ℚ) : ℚ := (⌊q / 10 ^ k⌋ : ℚ) * 10 ^ k

theorem floorTo_mul (k : ℤ) (n : ℤ) : floorTo k ((n:ℚ) * 10 ^ k) = n * 10 ^ k := by
  unfold floorTo
  rw [mul_div_assoc, div_self (zp_pos k).ne', mul_one, Int.floor_intCast]

theorem floorTo_of_multiple {k e : ℤ} (h : k ≤ e) (n : ℤ) :
    floorTo k ((n:ℚ) * 10 ^ e) = n * 10 ^ e := by
  obtain ⟨j, rfl⟩ := Int.le.dest h
  have : (n:ℚ) * 10 ^ (k + (j:ℤ)) = ((n * 10 ^ j : ℤ) : ℚ) * 10 ^ k := by
    push_cast; rw [zp_add, zpow_natCast]; ring
  rw [this, floorTo_mul]

theorem floorTo_le (k : ℤ) (q : ℚ) : floorTo k q ≤ q := by
  unfold floorTo
  have := Int.floor_le (q / 10 ^ k)
  calc _ ≤ q / 10 ^ k * 10 ^ k := mul_le_mul_of_nonneg_right this (zp_pos k).le
    _ = q := div_mul_cancel₀ _ (zp_pos k).ne'

theorem lt_floorTo (k : ℤ) (q : ℚ) : q < floorTo k q + 10 ^ k := by
  unfold floorTo
  have := Int.lt_floor_add_one (q / 10 ^ k)
  calc q = q / 10 ^ k * 10 ^ k := (div_mul_cancel₀ _ (zp_pos k).ne').symm
    _ < (⌊q / 10 ^ k⌋ + 1) * 10 ^ k := mul_lt_mul_of_pos_right this (zp_pos k)
    _ = _ := by ring

/-- Nested floors: rounding to a finer grid first changes nothing. -/
theorem floorTo_floorTo {k m : ℤ} (h : k ≤ m) (q : ℚ) : floorTo m (floorTo k q) = floorTo m q := by
  unfold floorTo
  congr 2
  obtain ⟨j, rfl⟩ := Int.le.dest h
  have e : ∀ x : ℚ, x / 10 ^ (k + (j:ℤ)) = (x / 10 ^ k) / ((10 ^ j : ℕ) : ℚ) := by
    intro x; rw [zp_add, zpow_natCast, div_div]; push_cast; rfl
  rw [e, e]
  rw [mul_div_assoc, div_self (zp_pos k).ne', mul_one]
  rw [Int.floor_div_natCast, Int.floor_div_natCast, Int.floor_intCast]

theorem floorTo_mono (k : ℤ) {p q : ℚ} (h : p ≤ q) : floorTo k p ≤ floorTo k q := by
  unfold floorTo
  apply mul_le_mul_of_nonneg_right _ (zp_pos k).le
  exact_mod_cast Int.floor_le_floor (div_le_div_of_nonneg_right h (zp_pos k).le)

theorem floor30_eq (q : ℚ) : Spec.floor30 q = floorTo (-30) q := by
  unfold Spec.floor30 floorTo
  norm_num [div_eq_mul_inv]


theorem floor_nat_div (n p : ℕ) : ⌊(n:ℚ) / (p:ℚ)⌋ = ((n / p : ℕ) : ℤ) := by
  rw [Int.floor_div_natCast, Int.floor_natCast]; rfl

/-- Floor of a negated quotient. -/
theorem floor_neg_nat_div {n p : ℕ} (hp : 0 < p) :
    ⌊-((n:ℚ) / (p:ℚ))⌋ = -((if n % p ≠ 0 then n / p + 1 else n / p : ℕ) : ℤ) := by
  have hpq : (0:ℚ) < p := by exact_mod_cast hp
  have hdm : (p:ℚ) * ((n / p : ℕ) : ℚ) + ((n % p : ℕ) : ℚ) = n := by exact_mod_cast Nat.div_add_mod n p
  have hr2 : n % p < p := Nat.mod_lt n hp
  generalize n / p = q at *
  generalize n % p = r at *
  have hr2' : (r:ℚ) < p := by exact_mod_cast hr2
  rw [Int.floor_eq_iff]
  by_cases h : r ≠ 0
  · have h1 : (0:ℚ) < r := by exact_mod_cast Nat.pos_of_ne_zero h
    rw [if_pos h]
    push_cast
    constructor
    · rw [neg_le_neg_iff, div_le_iff₀ hpq]; nlinarith
    · rw [show -((q:ℚ) + 1) + 1 = -(q : ℚ) by ring, neg_lt_neg_iff, lt_div_iff₀ hpq]
      nlinarith
  · rw [if_neg h]
    have h : r = 0 := by simpa using h
    subst h
    have : (n:ℚ) / p = q := by
      rw [div_eq_iff hpq.ne']; push_cast at hdm ⊢; linarith
    rw [this]; push_cast; constructor <;> linarith

theorem rescaleFloor_exp (d : Dec) (e : ℤ) : (rescaleFloor d e).exp = e := by
  unfold rescaleFloor; split <;> [rfl; split <;> rfl]

theorem rescaleFloor_neg (d : Dec) (e : ℤ) : (rescaleFloor d e).neg = d.neg := by
  unfold rescaleFloor; split <;> [rfl; split <;> rfl]

/-- `_rescale` rounds toward minus infinity to a multiple of `10^e`. -/
theorem rescaleFloor_val (d : Dec) (e : ℤ) : (rescaleFloor d e).val = floorTo e d.val := by
  unfold rescaleFloor
  split
  · rename_i h
    rw [val_zero rfl, val_zero h]; simp [floorTo]
  · split
    · rename_i h1 h
      rw [Dec.val_eq d, floorTo_of_multiple h]
      unfold Dec.val Dec.sc
      push_cast
      rw [zp_toNat (by omega), zp_sub]
      have := (zp_pos e).ne'
      split <;> simp <;> field_simp
    · rename_i h1 h
      set j := (e - d.exp).toNat with hj
      have hp : 0 < 10 ^ j := by positivity
      have hv : d.val / 10 ^ e = (if d.neg then -1 else 1) * ((d.coef : ℚ) / ((10 ^ j : ℕ) : ℚ)) := by
        have he : e = d.exp + (j:ℤ) := by omega
        unfold Dec.val
        rw [he, zp_add, zpow_natCast]
        have := (zp_pos d.exp).ne'
        push_cast; field_simp
      unfold floorTo
      rw [hv]
      unfold Dec.val
      cases hn : d.neg
      · simp only [Bool.false_eq_true, if_false, false_and, one_mul]
        rw [floor_nat_div]; push_cast; rfl
      · simp only [if_true, true_and]
        rw [neg_one_mul (_ / _), floor_neg_nat_div hp, Int.cast_neg, Int.cast_natCast]; ring

/-- The grid that `_fix` rounds to. -/
def fixGrid (d : Dec) : ℤ := max ((numDigits d.coef : ℤ) + d.exp - prec) Etiny

theorem fixGrid_bound {d : Dec} (h : d.coef ≠ 0) :
    fixGrid d = -159 ∨ (10:ℚ) ^ (fixGrid d + 59) ≤ |d.val| := by
  unfold fixGrid Etiny prec
  rcases max_cases ((numDigits d.coef : ℤ) + d.exp - ((60:ℕ):ℤ)) (-159) with ⟨h1, _⟩ | ⟨h1, _⟩
  · right
    rw [h1]
    have := val_ge_adj h
    unfold adjusted at this
    have e : (numDigits d.coef : ℤ) + d.exp - ((60:ℕ):ℤ) + 59 = d.exp + (numDigits d.coef : ℤ) - 1 := by
      push_cast; ring
    rwa [e]
  · left; exact h1

/-- `_fix` rounds once toward minus infinity to 60 significant digits (or the smallest exponent)
and overflows only far outside the range of contract decimals. -/
theorem fixCtx_spec {d : Dec} (hb : |d.val| < 10 ^ (100:ℤ)) (h0 : d.coef ≠ 0) :
    ∃ r, fixCtx d = .ok r ∧ r.val = floorTo (fixGrid d) d.val := by
  have hadj : adjusted d < 100 := by
    rw [← zp_lt_iff]; exact lt_of_le_of_lt (val_ge_adj h0) hb
  have hE : ¬ ((numDigits d.coef : ℤ) + d.exp - (prec:ℤ) > Etop) := by
    unfold adjusted at hadj; unfold prec Etop; push_cast; omega
  have hG : fixGrid d ≤ 40 := by
    unfold adjusted at hadj; unfold fixGrid prec Etiny; push_cast; omega
  unfold fixCtx
  simp only [h0, if_false, hE]
  rw [show max ((numDigits d.coef : ℤ) + d.exp - (prec:ℤ)) Etiny = fixGrid d from rfl]
  split
  · rename_i hlt
    have hv := rescaleFloor_val d (fixGrid d)
    have hex := rescaleFloor_exp d (fixGrid d)
    by_cases hc : numDigits (rescaleFloor d (fixGrid d)).coef > prec
    · simp only [hc, if_true]
      have hE2 : ¬ ((rescaleFloor d (fixGrid d)).exp + 1 > Etop) := by
        rw [hex]; unfold Etop; omega
      simp only [hE2, if_false]
      refine ⟨_, rfl, ?_⟩
      rw [← hv]
      -- the only 61-digit result is 10^60
      have hcoef : (rescaleFloor d (fixGrid d)).coef = 10 ^ 60 := by
        have hge : 10 ^ 60 ≤ (rescaleFloor d (fixGrid d)).coef := by
          by_contra hcon
          have := (numDigits_le_iff (n := (rescaleFloor d (fixGrid d)).coef) (k := 60) (by norm_num)).2
            (Nat.lt_of_not_le hcon)
          unfold prec at hc; omega
        have hle : (rescaleFloor d (fixGrid d)).coef ≤ 10 ^ 60 := by
          unfold rescaleFloor
          simp only [h0, if_false, show ¬ fixGrid d ≤ d.exp by omega]
          have hq : d.coef / 10 ^ (fixGrid d - d.exp).toNat < 10 ^ 60 := by
            rw [Nat.div_lt_iff_lt_mul (by positivity), ← Nat.pow_add]
            refine lt_of_lt_of_le (lt_pow_numDigits d.coef) (Nat.pow_le_pow_right (by norm_num) ?_)
            have : (numDigits d.coef : ℤ) + d.exp - 60 ≤ fixGrid d := by
              unfold fixGrid prec; push_cast; exact le_max_left _ _
            omega
          split <;> omega
        omega
      unfold Dec.val
      rw [hcoef]
      simp only []
      rw [zp_add, zpow_one]
      push_cast
      rw [show ((10:ℕ) ^ 60 / 10) = 10 ^ 59 by norm_num]
      push_cast
      ring
    · simp only [hc, if_false]
      have hE2 : ¬ ((rescaleFloor d (fixGrid d)).exp > Etop) := by
        rw [hex]; unfold Etop; omega
      simp only [hE2, if_false]
      exact ⟨_, rfl, hv⟩
  · rename_i hlt
    refine ⟨_, rfl, ?_⟩
    rw [Dec.val_eq, floorTo_of_multiple (by omega)]

theorem fixCtx_zero {d : Dec} (h0 : d.coef = 0) :
    ∃ r, fixCtx d = .ok r ∧ r.val = 0 ∧ r.coef = 0 ∧ r.neg = d.neg := by
  unfold fixCtx
  simp only [h0, if_true]
  exact ⟨_, rfl, val_zero rfl, rfl, rfl⟩

/-- Rounding first to a grid that is at least 60 significant digits fine never changes what the
contract sees. -/
theorem fix_floorTo {k : ℤ} {v : ℚ} (h : k ≤ -30 ∨ (10:ℚ) ^ (k + 59) ≤ |v|) :
    Spec.fix (floorTo k v) = Spec.fix v := by
  by_cases hk : k ≤ -30
  · have hfl : Spec.floor30 (floorTo k v) = Spec.floor30 v := by
      rw [floor30_eq, floor30_eq, floorTo_floorTo hk]
    have hcap : (10:ℚ) ^ 29 < floorTo k v ∨ Spec.floor30 v = 10 ^ 29 ↔ 10 ^ 29 < v ∨ Spec.floor30 v = 10 ^ 29 := by
      constructor
      · rintro (h | h)
        · exact Or.inl (lt_of_lt_of_le h (floorTo_le k v))
        · exact Or.inr h
      · rintro (h | h)
        · by_cases hh : (10:ℚ) ^ 29 < floorTo k v
          · exact Or.inl hh
          · right
            have h1 : floorTo (-30) v ≤ floorTo (-30) ((10:ℚ)^29) := by
              rw [← floorTo_floorTo hk v]; exact floorTo_mono _ (not_lt.1 hh)
            have h2 : floorTo (-30) ((10:ℚ)^29) ≤ floorTo (-30) v := floorTo_mono _ h.le
            have h3 : floorTo (-30) ((10:ℚ)^29) = 10 ^ 29 := by
              have := floorTo_of_multiple (k := -30) (e := 29) (by norm_num) 1
              norm_num at this; norm_num; exact this
            rw [floor30_eq]; linarith
        · exact Or.inr h
    unfold Spec.fix
    rw [hfl]
    by_cases he : Spec.floor30 v = 10 ^ 29
    · rw [he]; norm_num
    · have hiff : (10:ℚ) ^ 29 < floorTo k v ↔ 10 ^ 29 < v := by tauto
      simp only [hiff]
  · have hv := h.resolve_left hk
    have hbig : (10:ℚ) ^ (30:ℤ) ≤ |v| := le_trans (zp_le (by omega)) hv
    have hsmall : (10:ℚ) ^ k * 10 ^ 59 ≤ |v| := by
      rw [zp_add] at hv; exact_mod_cast hv
    have h1 := floorTo_le k v
    have h2 := lt_floorTo k v
    have hb' : (10:ℚ) ^ 30 ≤ |v| := by exact_mod_cast hbig
    rcases le_total 0 v with h0 | h0
    · rw [abs_of_nonneg h0] at *
      have : (10:ℚ) ^ 29 < floorTo k v := by
        have : (10:ℚ) ^ k ≤ v / 10 ^ 59 := by rw [le_div_iff₀ (by positivity)]; exact hsmall
        have : v / 10 ^ 59 ≤ v / 2 := by
          apply div_le_div_of_nonneg_left h0 <;> norm_num
        norm_num at *
        linarith
      have h3 : (10:ℚ) ^ 29 < v := lt_of_lt_of_le this h1
      simp only [Spec.fix, this, h3, if_true]
    · rw [abs_of_nonpos h0] at *
      have f1 : ¬ (10:ℚ) ^ 29 < v := by norm_num; linarith [show (0:ℚ) < 100000000000000000000000000000 by norm_num]
      have f2 : ¬ (10:ℚ) ^ 29 < floorTo k v := fun h => f1 (lt_of_lt_of_le h h1)
      have f3 : ∀ q : ℚ, q ≤ -10 ^ 30 → ¬ (-10 ^ 30 < Spec.floor30 q) := by
        intro q hq; rw [floor30_eq]; exact not_lt.2 (le_trans (floorTo_le _ _) hq)
      simp only [Spec.fix, f1, f2, f3 v (by linarith), f3 (floorTo k v) (by linarith), if_false]

theorem fix_fixGrid {d : Dec} (h : d.coef ≠ 0) :
    Spec.fix (floorTo (fixGrid d) d.val) = Spec.fix d.val := by
  apply fix_floorTo
  rcases fixGrid_bound h with h | h
  · left; omega
  · right; exact h

/-- `_fix` does not change what the contract sees. -/
theorem fixCtx_fix {d : Dec} (hb : |d.val| < 10 ^ (100:ℤ)) :
    ∃ r, fixCtx d = .ok r ∧ Spec.fix r.val = Spec.fix d.val := by
  by_cases h0 : d.coef = 0
  · obtain ⟨r, h1, h2, _⟩ := fixCtx_zero h0
    exact ⟨r, h1, by rw [h2, val_zero h0]⟩
  · obtain ⟨r, h1, h2⟩ := fixCtx_spec hb h0
    exact ⟨r, h1, by rw [h2, fix_fixGrid h0]⟩


theorem scaled_val {d : Dec} {e : ℤ} (h : e ≤ d.exp) : (scaled d e : ℚ) * 10 ^ e = d.val := by
  unfold scaled Dec.val
  have := (zp_pos e).ne'
  push_cast
  rw [zp_toNat (by omega), zp_sub]
  split <;> simp <;> field_simp

theorem lt_iff (a b : Dec) : lt a b = true ↔ a.val < b.val := by
  unfold lt
  rw [decide_eq_true_iff, ← scaled_val (min_le_left a.exp b.exp), ← scaled_val (min_le_right a.exp b.exp)]
  rw [mul_lt_mul_iff_left₀ (zp_pos _)]
  exact_mod_cast Iff.rfl

theorem eqv_iff (a b : Dec) : eqv a b = true ↔ a.val = b.val := by
  unfold eqv
  rw [decide_eq_true_iff, ← scaled_val (min_le_left a.exp b.exp), ← scaled_val (min_le_right a.exp b.exp)]
  rw [mul_left_inj' (zp_pos _).ne']
  exact_mod_cast Iff.rfl

theorem maxDecimal_val : maxDecimal.val = 10 ^ 29 := by
  simp [maxDecimal, Dec.val]; norm_num

/-- Trailing-zero stripping keeps the number and leaves no trailing zero (given enough fuel). -/
theorem stripZeros_val (f c : ℕ) (e lim : ℤ) :
    ((stripZeros f c e lim).1 : ℚ) * 10 ^ (stripZeros f c e lim).2 = c * 10 ^ e := by
  induction f generalizing c e with
  | zero => rfl
  | succ f ih =>
    simp only [stripZeros]
    split
    · rename_i h
      rw [ih]
      have : (c : ℚ) = ((c / 10 : ℕ) : ℚ) * 10 := by
        have := Nat.div_add_mod c 10
        rw [h.1] at this
        exact_mod_cast (by omega : c = c / 10 * 10)
      rw [this, zp_add, zpow_one]; ring_nf
    · rfl

theorem stripZeros_le (f c : ℕ) (e lim : ℤ) (h : e ≤ lim) :
    e ≤ (stripZeros f c e lim).2 ∧ (stripZeros f c e lim).2 ≤ lim := by
  induction f generalizing c e with
  | zero => exact ⟨le_refl _, h⟩
  | succ f ih =>
    simp only [stripZeros]
    split
    · rename_i hh
      have := ih (c/10) (e+1) (by omega)
      omega
    · exact ⟨le_refl _, h⟩

theorem stripZeros_pos (f c : ℕ) (e lim : ℤ) (h : c ≠ 0) : (stripZeros f c e lim).1 ≠ 0 := by
  induction f generalizing c e with
  | zero => exact h
  | succ f ih =>
    simp only [stripZeros]
    split
    · exact ih _ _ (by omega)
    · exact h

theorem stripZeros_stop (f c : ℕ) (e lim : ℤ) (h : c ≠ 0) (hf : numDigits c ≤ f) :
    (stripZeros f c e lim).1 % 10 ≠ 0 ∨ lim ≤ (stripZeros f c e lim).2 := by
  induction f generalizing c e with
  | zero => have := numDigits_pos c; omega
  | succ f ih =>
    simp only [stripZeros]
    split
    · rename_i hh
      have h10 : 10 ≤ c := by omega
      have : numDigits c = numDigits (c / 10) + 1 := by
        unfold numDigits; rw [natToStr_step h10]; simp
      exact ih _ _ (by omega) (by omega)
    · rename_i hh
      by_cases hz : c % 10 = 0
      · right
        have : ¬ e < lim := fun h => hh ⟨hz, h⟩
        show lim ≤ e
        omega
      · left; exact hz

theorem fixCtx_id {d : Dec} (h0 : d.coef ≠ 0) (h1 : numDigits d.coef ≤ 60) (h2 : -159 ≤ d.exp)
    (h3 : adjusted d ≤ 100) : fixCtx d = .ok d := by
  unfold adjusted at h3
  unfold fixCtx
  have a1 : ¬ ((numDigits d.coef : ℤ) + d.exp - (prec:ℤ) > Etop) := by
    unfold prec Etop; push_cast; omega
  have a2 : ¬ (d.exp < max ((numDigits d.coef : ℤ) + d.exp - (prec:ℤ)) Etiny) := by
    unfold prec Etiny; push_cast; omega
  simp only [h0, if_false, a1, a2]

/-- Result of `fix_precision`: either the cap itself, or a canonical triple. -/
theorem fixPrecision_full (x : Dec) :
    (10 ^ 29 < x.val ∧ fixPrecision x = .ok maxDecimal) ∨
    (x.val ≤ 10 ^ 29 ∧ -10 ^ 30 < Spec.floor30 x.val ∧
      ∃ d, fixPrecision x = .ok d ∧ d.val = Spec.floor30 x.val ∧ Canonical d ∧ d.neg = x.neg) ∨
    (x.val ≤ 10 ^ 29 ∧ Spec.floor30 x.val ≤ -10 ^ 30 ∧ fixPrecision x = .error .invalidOperation) := by
  by_cases hmax : lt maxDecimal x = true
  · left
    refine ⟨?_, by simp [fixPrecision, hmax]⟩
    rw [lt_iff, maxDecimal_val] at hmax; exact hmax
  · right
    have hle : x.val ≤ 10 ^ 29 := by
      have h := hmax
      rw [lt_iff, maxDecimal_val] at h; exact not_lt.1 h
    have hfp : fixPrecision x = (quantize x).bind normalize := by simp [fixPrecision, hmax]
    by_cases h0 : x.coef = 0
    · left
      have hv := val_zero h0
      refine ⟨hle, by rw [hv, Spec.floor30]; norm_num, ⟨x.neg, 0, 0⟩, ?_, ?_, ?_, rfl⟩
      · rw [hfp]
        simp [quantize, quantizeTo, h0, fixCtx, Except.bind, normalize, bind, minExp, Etiny, Emax]
      · rw [val_zero rfl, hv, Spec.floor30]; norm_num
      · simp [Canonical]
    · -- nonzero
      by_cases hbig : adjusted x > Emax ∨ adjusted x - minExp + 1 > prec
      · right
        have hadj : 30 ≤ adjusted x := by
          unfold Emax minExp prec at hbig; push_cast at hbig; omega
        have hab : (10:ℚ) ^ (30:ℤ) ≤ |x.val| := le_trans (zp_le hadj) (val_ge_adj h0)
        have hab' : (10:ℚ) ^ 30 ≤ |x.val| := by exact_mod_cast hab
        have hneg : x.val ≤ -10 ^ 30 := by
          rcases abs_cases x.val with ⟨h, _⟩ | ⟨h, _⟩
          · rw [h] at hab'; norm_num at hab' hle; linarith
          · rw [h] at hab'; linarith
        refine ⟨hle, ?_, ?_⟩
        · rw [floor30_eq]; exact le_trans (floorTo_le _ _) hneg
        · rw [hfp]; simp [quantize, quantizeTo, h0, hbig, Except.bind]
      · set r := rescaleFloor x minExp with hr
        have hrv : r.val = Spec.floor30 x.val := by rw [hr, rescaleFloor_val, floor30_eq]; rfl
        have hre : r.exp = -30 := by rw [hr, rescaleFloor_exp]; rfl
        have hrn : r.neg = x.neg := by rw [hr, rescaleFloor_neg]
        have hcoef : (r.coef : ℚ) = |Spec.floor30 x.val| * 10 ^ 30 := by
          rw [← hrv, abs_val, hre]; norm_num; ring
        have hupper : Spec.floor30 x.val ≤ 10 ^ 29 := by
          rw [floor30_eq]; exact le_trans (floorTo_le _ _) hle
        by_cases hrb : adjusted r > Emax ∨ numDigits r.coef > prec
        · right
          have h60 : 10 ^ 60 ≤ r.coef := by
            by_contra hc
            have hnd := (numDigits_le_iff (n := r.coef) (k := 60) (by norm_num)).2 (Nat.lt_of_not_le hc)
            unfold adjusted Emax prec at hrb
            omega
          have h60' : (10:ℚ) ^ 60 ≤ |Spec.floor30 x.val| * 10 ^ 30 := by
            rw [← hcoef]; exact_mod_cast h60
          have : (10:ℚ) ^ 30 ≤ |Spec.floor30 x.val| := by
            by_contra hc
            have := mul_lt_mul_of_pos_right (not_le.1 hc) (show (0:ℚ) < 10 ^ 30 by positivity)
            norm_num at this h60'; linarith
          refine ⟨hle, ?_, ?_⟩
          · rcases abs_cases (Spec.floor30 x.val) with ⟨h, _⟩ | ⟨h, _⟩
            · rw [h] at this; norm_num at this hupper; linarith
            · rw [h] at this; linarith
          · rw [hfp]; simp only [quantize, quantizeTo, h0, hbig, if_false, ← hr, hrb, if_true, Except.bind]
        · left
          have hnd : numDigits r.coef ≤ 60 := by unfold prec at hrb; omega
          have h60 : r.coef < 10 ^ 60 := (numDigits_le_iff (by norm_num)).1 hnd
          have hlow : -10 ^ 30 < Spec.floor30 x.val := by
            have : |Spec.floor30 x.val| * 10 ^ 30 < 10 ^ 60 := by rw [← hcoef]; exact_mod_cast h60
            have : |Spec.floor30 x.val| < 10 ^ 30 := by
              by_contra hc
              have := mul_le_mul_of_nonneg_right (not_lt.1 hc) (show (0:ℚ) ≤ 10 ^ 30 by positivity)
              norm_num at *; linarith
            exact (abs_lt.1 this).1
          refine ⟨hle, hlow, ?_⟩
          have hq : quantize x = fixCtx r := by
            simp only [quantize, quantizeTo, h0, hbig, if_false, ← hr, hrb]
          rw [hfp, hq]
          by_cases hr0 : r.coef = 0
          · refine ⟨⟨r.neg, 0, 0⟩, ?_, ?_, by simp [Canonical], hrn⟩
            · simp [fixCtx, hr0, hre, Except.bind, normalize, bind, Etiny, Emax]
            · rw [val_zero rfl, ← hrv, val_zero hr0]
          · have hid : fixCtx r = .ok r :=
              fixCtx_id hr0 hnd (by omega) (by unfold adjusted; rw [hre]; omega)
            rw [hid]
            simp only [Except.bind, normalize, hid, bind, hr0, if_false]
            have hv := stripZeros_val (numDigits r.coef) r.coef r.exp Emax
            have hp := stripZeros_pos (numDigits r.coef) r.coef r.exp Emax hr0
            have hs := stripZeros_stop (numDigits r.coef) r.coef r.exp Emax hr0 (le_refl _)
            have hl := stripZeros_le (numDigits r.coef) r.coef r.exp Emax (by rw [hre]; decide)
            refine ⟨_, rfl, ?_, ⟨?_, ?_, ?_⟩, hrn⟩
            · unfold Dec.val
              rw [mul_assoc, hv, ← mul_assoc]; exact hrv
            · show -30 ≤ (stripZeros _ _ _ _).2
              omega
            · intro hc; exact absurd hc hp
            · intro _
              rcases hs with h | h
              · exact h
              · exfalso
                have h1 : (stripZeros (numDigits r.coef) r.coef r.exp Emax).2 = 100 := by
                  unfold Emax at *; omega
                rw [h1] at hv
                have h2 : (1:ℚ) ≤ (stripZeros (numDigits r.coef) r.coef r.exp Emax).1 := by
                  exact_mod_cast Nat.one_le_iff_ne_zero.2 hp
                have h3 : (10:ℚ) ^ (100:ℤ) ≤ r.coef * 10 ^ r.exp := by
                  rw [← hv]; nlinarith [zp_pos 100]
                rw [hre] at h3
                have h4 : (r.coef : ℚ) < 10 ^ (60:ℤ) := by exact_mod_cast h60
                have h5 := mul_lt_mul_of_pos_right h4 (zp_pos (-30))
                rw [← zp_add] at h5
                have h6 := zp_lt_iff.1 (lt_of_le_of_lt h3 h5)
                omega

/-- `fix_precision` computes exactly `Spec.fix`. -/
theorem fixPrecision_agrees (x : Dec) : Agrees (fixPrecision x) (Spec.fix x.val) := by
  unfold Spec.fix
  rcases fixPrecision_full x with ⟨h, h2⟩ | ⟨h, h2, d, h3, h4, -⟩ | ⟨h, h2, h3⟩
  · rw [if_pos h]; exact ⟨_, h2, maxDecimal_val⟩
  · rw [if_neg (not_lt.2 h), if_pos h2]; exact ⟨d, h3, h4⟩
  · rw [if_neg (not_lt.2 h), if_neg (not_lt.2 h2)]; exact ⟨_, h3⟩

end Verif
