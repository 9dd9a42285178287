import Verif.Proofs.Power
import Verif.Proofs.DecimalInt
/-!
# The early overflow and underflow tests of `**`
-/
namespace Verif
open Dec

/-- Repeated doubling: a base at least `10^u` above one, to a power much larger than `10^-u`. -/
theorem big_pow {y : ℚ} {u : ℤ} {k N : ℕ} (hu : u ≤ 0) (hy : 1 + 10 ^ u ≤ y) (hk : 5 ≤ (k:ℤ) + u) (hN : 10 ^ k ≤ N) :
    (10:ℚ) ^ 1000 ≤ y ^ N := by
  have hup : (0:ℚ) < 10 ^ u := zp_pos u
  have hy1 : 1 ≤ y := by linarith
  set M := 10 ^ (-u).toNat with hM
  have hM1 : (M:ℚ) * 10 ^ u = 1 := by
    rw [hM]; push_cast
    rw [zp_toNat (by omega), ← zp_add, neg_add_cancel, zpow_zero]
  have h2 : (2:ℚ) ≤ y ^ M := by
    have h3 := one_add_mul_le_pow (a := (10:ℚ) ^ u) (by linarith) M
    have h4 : (1 + (10:ℚ) ^ u) ^ M ≤ y ^ M := pow_le_pow_left₀ (by linarith) hy M
    rw [hM1] at h3
    linarith
  have h5 : M * 4000 ≤ N := by
    refine le_trans ?_ hN
    have e : k = (-u).toNat + (k - (-u).toNat) := by omega
    rw [e, pow_add, ← hM]
    have h6 : 10 ^ 5 ≤ 10 ^ (k - (-u).toNat) := Nat.pow_le_pow_right (by norm_num) (by omega)
    exact Nat.mul_le_mul_left _ (le_trans (by norm_num) h6)
  calc (10:ℚ) ^ 1000 ≤ (2 ^ 4) ^ 1000 := pow_le_pow_left₀ (by norm_num) (by norm_num) _
    _ = 2 ^ 4000 := by rw [← pow_mul]
    _ ≤ (y ^ M) ^ 4000 := pow_le_pow_left₀ (by norm_num) h2 _
    _ = y ^ (M * 4000) := by rw [← pow_mul]
    _ ≤ y ^ N := pow_le_pow_right₀ hy1 h5

/-- A base of at least `10^t`. -/
theorem big_pow10 {y : ℚ} {t k N : ℕ} (ht : t ≠ 0) (hy : 10 ^ t ≤ y) (hk : 4 ≤ (k:ℤ) + ((numDigits t : ℤ) - 1))
    (hN : 10 ^ k ≤ N) : (10:ℚ) ^ 1000 ≤ y ^ N := by
  have h1 := pow_numDigits_le ht
  have hd := numDigits_pos t
  have h2 : 1000 ≤ t * N := by
    have h3 : 10 ^ (numDigits t - 1) * 10 ^ k ≤ t * N := Nat.mul_le_mul h1 hN
    rw [← pow_add] at h3
    have h4 : 10 ^ 4 ≤ 10 ^ (numDigits t - 1 + k) := Nat.pow_le_pow_right (by norm_num) (by omega)
    omega
  calc (10:ℚ) ^ 1000 ≤ 10 ^ (t * N) := pow_le_pow_right₀ (by norm_num) h2
    _ = (10 ^ t) ^ N := by rw [← pow_mul]
    _ ≤ y ^ N := pow_le_pow_left₀ (by positivity) hy _

/-- `zeta` is sound: either the base or its reciprocal grows beyond every bound used here. -/
theorem zeta_sound {x : Dec} (hneg : x.neg = false) (hc : x.coef ≠ 0) (hne : x.val ≠ 1) {k N : ℕ}
    (hk : 4 ≤ (k:ℤ) + zeta x) (hN : 10 ^ k ≤ N) :
    (1 < x.val → (10:ℚ) ^ 1000 ≤ x.val ^ N) ∧ (x.val < 1 → (10:ℚ) ^ 1000 ≤ (x.val)⁻¹ ^ N) := by
  have habs : |x.val| = x.val := by rw [abs_val, Dec.val, hneg]; simp
  have hlo := val_ge_adj hc
  have hhi := val_lt_adj x
  rw [habs] at hlo hhi
  have hpos : 0 < x.val := lt_of_lt_of_le (zp_pos _) hlo
  unfold zeta at hk
  dsimp only at hk
  generalize hta : adjusted x = t at hk hlo hhi
  by_cases h1 : 0 < t
  · rw [if_pos h1] at hk
    have hx10 : (10:ℚ) ^ t.natAbs ≤ x.val := by
      rw [← zpow_natCast]; rw [show ((t.natAbs : ℕ) : ℤ) = t by omega]; exact hlo
    have hbig := big_pow10 (by omega) hx10 hk hN
    refine ⟨fun _ => hbig, fun h => absurd h (not_lt.2 ?_)⟩
    exact le_trans (one_le_pow₀ (by norm_num)) hx10
  · rw [if_neg h1] at hk
    by_cases h2 : t < -1
    · rw [if_pos h2] at hk
      have hx10 : (10:ℚ) ^ (t + 1).natAbs ≤ (x.val)⁻¹ := by
        rw [← zpow_natCast, show (((t + 1).natAbs : ℕ) : ℤ) = -(t + 1) by omega, zpow_neg]
        exact inv_anti₀ hpos hhi.le
      have hbig := big_pow10 (by omega) hx10 hk hN
      refine ⟨fun h => absurd h (not_lt.2 ?_), fun _ => hbig⟩
      refine le_trans hhi.le ?_
      rw [← zpow_zero (10:ℚ)]; exact zp_le (by omega)
    · rw [if_neg h2] at hk
      set e := min x.exp 0 with he
      have hsx : (scaled x e : ℚ) * 10 ^ e = x.val := scaled_val (min_le_left _ _)
      have hs1 : (scaled ⟨false, 1, 0⟩ e : ℚ) * 10 ^ e = 1 := by
        rw [scaled_val (show e ≤ (⟨false, 1, 0⟩ : Dec).exp from min_le_right _ _)]; simp [Dec.val]
      have hdiff : ((scaled x e - scaled ⟨false, 1, 0⟩ e : ℤ) : ℚ) * 10 ^ e = x.val - 1 := by
        push_cast; rw [sub_mul, hsx, hs1]
      set D : ℤ := scaled x e - scaled ⟨false, 1, 0⟩ e with hD
      have hD0 : D ≠ 0 := by
        intro h; rw [h] at hdiff; apply hne; have : x.val - 1 = 0 := by rw [← hdiff]; simp
        linarith
      have hDa : ((D.natAbs : ℕ) : ℚ) * 10 ^ e = |x.val - 1| := by
        rw [← hdiff, abs_mul, abs_of_pos (zp_pos e), Nat.cast_natAbs, Int.cast_abs]
      have hge := mv_ge_digits (c := D.natAbs) (by omega) e
      rw [hDa] at hge
      generalize huu : (numDigits D.natAbs : ℤ) + e - 1 = u at hge
      have hu' : e + (numDigits D.natAbs : ℤ) - 1 = u := by omega
      rw [hu'] at hk
      by_cases h3 : t = 0
      · rw [if_pos h3] at hk
        rw [h3] at hlo hhi
        rw [zpow_zero] at hlo
        have hlt : 1 < x.val := lt_of_le_of_ne hlo (Ne.symm hne)
        rw [abs_of_pos (by linarith)] at hge
        have hu0 : u ≤ 0 := by
          by_contra hu1
          have : (10:ℚ) ^ (1:ℤ) ≤ 10 ^ u := zp_le (by omega)
          rw [zpow_one] at this
          norm_num at hhi
          linarith
        exact ⟨fun _ => big_pow hu0 (by linarith) (by omega) hN, fun h => absurd h (by linarith)⟩
      · rw [if_neg h3] at hk
        have ht1 : t = -1 := by omega
        rw [ht1] at hhi
        norm_num at hhi
        rw [abs_of_neg (by linarith)] at hge
        have hu0 : u ≤ 0 := by
          by_contra hu1
          have : (10:ℚ) ^ (1:ℤ) ≤ 10 ^ u := zp_le (by omega)
          rw [zpow_one] at this
          linarith
        refine ⟨fun h => absurd h (by linarith), fun _ => big_pow hu0 ?_ (by omega) hN⟩
        rw [le_inv_comm₀ (by have := zp_pos u; linarith) hpos, inv_eq_one_div, le_div_iff₀ (by have := zp_pos u; linarith)]
        have := zp_pos u
        nlinarith

/-- `powBounds` is sound. -/
theorem powBounds_sound {x : Dec} (hneg : x.neg = false) (hc : x.coef ≠ 0) (hne : x.val ≠ 1) {n : ℤ} (hn : n ≠ 0) :
    (powBounds x n = .overflow → (10:ℚ) ^ 1000 ≤ x.val ^ n) ∧
    (powBounds x n = .underflow → x.val ^ n ≤ ((10:ℚ) ^ 1000)⁻¹) := by
  have habs : |x.val| = x.val := by rw [abs_val, Dec.val, hneg]; simp
  have hpos : 0 < x.val := by
    have := val_ge_adj hc; rw [habs] at this; exact lt_of_lt_of_le (zp_pos _) this
  have hpn : 0 ≤ n → x.val ^ n = x.val ^ n.natAbs := fun h => by
    rw [← zpow_natCast]; congr 1; omega
  have hnn : n < 0 → x.val ^ n = (x.val)⁻¹ ^ n.natAbs := fun h => by
    rw [inv_pow, ← zpow_natCast, ← zpow_neg]; congr 1; omega
  unfold powBounds
  dsimp only
  by_cases h3 : 3 < (numDigits n.natAbs : ℤ) - 1 + zeta x
  · rw [if_pos h3]
    have hd := numDigits_pos n.natAbs
    obtain ⟨hA, hB⟩ := zeta_sound hneg hc hne (k := numDigits n.natAbs - 1) (N := n.natAbs) (by omega)
      (pow_numDigits_le (by omega))
    have hl : lt x ⟨false, 1, 0⟩ = true ↔ x.val < 1 := by
      rw [lt_iff]; simp [Dec.val]
    have hT : (0:ℚ) < 10 ^ 1000 := by positivity
    have hinv : ∀ y T : ℚ, 0 < T → T ≤ y⁻¹ ^ n.natAbs → y ^ n.natAbs ≤ T⁻¹ := by
      intro y T hT hy
      rw [inv_pow] at hy
      have h0 : 0 < (y ^ n.natAbs)⁻¹ := lt_of_lt_of_le hT hy
      rw [le_inv_comm₀ (inv_pos.1 h0) hT]
      exact hy
    rcases lt_or_gt_of_ne hne with hx | hx
    · have hlt : lt x ⟨false, 1, 0⟩ = true := hl.2 hx
      rw [hlt]
      by_cases hnneg : n < 0
      · rw [decide_eq_true hnneg, if_pos rfl]
        exact ⟨fun _ => by rw [hnn hnneg]; exact hB hx, fun h => by cases h⟩
      · rw [decide_eq_false hnneg, if_neg (by simp)]
        exact ⟨fun h => (by cases h), fun _ => by rw [hpn (not_lt.1 hnneg)]; exact hinv _ _ hT (hB hx)⟩
    · have hlt : lt x ⟨false, 1, 0⟩ = false := by
        cases h : lt x ⟨false, 1, 0⟩
        · rfl
        · exact absurd (hl.1 h) (by linarith)
      rw [hlt]
      by_cases hnneg : n < 0
      · rw [decide_eq_true hnneg, if_neg (by simp)]
        refine ⟨fun h => (by cases h), fun _ => ?_⟩
        rw [hnn hnneg]; apply hinv _ _ hT; rw [inv_inv]; exact hA hx
      · rw [decide_eq_false hnneg, if_pos rfl]
        exact ⟨fun _ => by rw [hpn (not_lt.1 hnneg)]; exact hA hx, fun h => by cases h⟩
  · rw [if_neg h3]
    exact ⟨fun h => (by cases h), fun h => (by cases h)⟩

/-! ### Whole exponents -/

theorem trunc_int (n : ℤ) : Spec.trunc (n:ℚ) = n := by
  unfold Spec.trunc; split <;> simp

theorem toInt_of_val {b : Dec} {n : ℤ} (h : b.val = n) : toInt b = n := by
  have := toInt_spec b
  unfold cdInt at this
  rw [this, h, trunc_int]

theorem isInteger_iff (b : Dec) : isInteger b = true ↔ ∃ n : ℤ, b.val = n := by
  unfold isInteger
  rw [decide_eq_true_eq]
  rcases le_total 0 b.exp with h | h
  · have e : (-b.exp).toNat = 0 := by omega
    rw [e, pow_zero]
    refine iff_of_true (Nat.mod_one _) ⟨b.sc * 10 ^ b.exp.toNat, ?_⟩
    rw [Dec.val_eq]; push_cast; rw [zp_toNat h]
  · set P := 10 ^ (-b.exp).toNat with hP
    have hPq : (P:ℚ) * 10 ^ b.exp = 1 := by
      rw [hP]; push_cast; rw [zp_toNat (by omega), ← zp_add, neg_add_cancel, zpow_zero]
    constructor
    · intro h0
      have hd : (b.coef:ℚ) = P * (b.coef / P : ℕ) := by
        have := Nat.div_add_mod b.coef P
        rw [h0, Nat.add_zero] at this; exact_mod_cast this.symm
      refine ⟨(if b.neg then -1 else 1) * ((b.coef / P : ℕ) : ℤ), ?_⟩
      unfold Dec.val
      rw [hd]
      generalize b.coef / P = z
      push_cast
      have : (if b.neg = true then (-1:ℚ) else 1) * (P * z) * 10 ^ b.exp = (if b.neg = true then (-1:ℚ) else 1) * z * (P * 10 ^ b.exp) := by ring
      rw [this, hPq, mul_one]
    · rintro ⟨n, hn⟩
      have h1 : (b.coef : ℚ) * 10 ^ b.exp = |(n:ℚ)| := by rw [← abs_val, hn]
      have h2 : (b.coef : ℚ) = (n.natAbs : ℚ) * P := by
        rw [Nat.cast_natAbs, Int.cast_abs, ← h1, mul_assoc, mul_comm _ (P:ℚ), hPq, mul_one]
      have h3 : b.coef = n.natAbs * P := by exact_mod_cast h2
      rw [h3]; exact Nat.mul_mod_left _ _

/-- The sign of a power. -/
theorem pow_sign (a : Dec) (n : ℤ) :
    a.val ^ n = (if (a.neg && decide (n % 2 = 1)) = true then (-1:ℚ) else 1) * |a.val| ^ n := by
  have hv : a.val = (if a.neg then (-1:ℚ) else 1) * |a.val| := by rw [abs_val, Dec.val]; ring
  conv_lhs => rw [hv, mul_zpow]
  congr 1
  cases a.neg
  · simp
  · simp only [if_true, Bool.true_and, decide_eq_true_eq]
    rcases Int.even_or_odd n with h | h
    · rw [if_neg (by have := Int.even_iff.1 h; omega)]; exact Even.neg_one_zpow h
    · rw [if_pos (Int.odd_iff.1 h)]; exact Odd.neg_one_zpow h

theorem abs_val_pos (a : Dec) : (⟨false, a.coef, a.exp⟩ : Dec).val = |a.val| := by
  rw [abs_val, Dec.val]; simp

theorem IsCD.digits {b : Dec} (hb : IsCD b) {n : ℤ} (hn : b.val = n) : numDigits n.natAbs ≤ 36 := by
  have h := hb.abs_lt
  rw [hn] at h
  have h1 : (n.natAbs : ℚ) < 10 ^ (30:ℤ) := by rw [Nat.cast_natAbs, Int.cast_abs]; exact h
  have h2 : n.natAbs < 10 ^ 30 := by exact_mod_cast h1
  have := (numDigits_le_iff (n := n.natAbs) (k := 30) (by norm_num)).2 h2
  omega

theorem max_cases {w q : ℚ} (h : |w - q| ≤ 10 ^ (-60:ℤ) * max 1 |q|) :
    |w| ≤ 2 * max 1 |q| ∧ (1 ≤ |q| → |q| ≤ 2 * |w|) := by
  have hs : (10:ℚ) ^ (-60:ℤ) ≤ 1 / 2 := le_trans (zp_le (show (-60:ℤ) ≤ -1 by norm_num)) (by norm_num)
  generalize (10:ℚ) ^ (-60:ℤ) = s at h hs
  have h1 := abs_sub_abs_le_abs_sub w q
  have h2 := abs_sub_abs_le_abs_sub q w
  rw [abs_sub_comm q w] at h2
  have hm : (1:ℚ) ≤ max 1 |q| := le_max_left _ _
  have hq : |q| ≤ max 1 |q| := le_max_right _ _
  refine ⟨by nlinarith, fun h1q => ?_⟩
  rw [max_eq_right h1q] at *
  nlinarith

/-- A power with a whole exponent: what `power` returns. -/
theorem power_whole (real : Dec → Dec → Except PyErr Num) {a b : Dec} (ha : IsCD a) (hb : IsCD b) {n : ℤ}
    (hn : b.val = n) (h0 : a.val ≠ 0) :
    (∃ d : Dec, (power real a b = .ok (.fin d) ∧ |d.val| = 1 ∨ power real a b = (fixCtx d).map .fin) ∧
      |d.val - a.val ^ n| ≤ 10 ^ (-60:ℤ) * max 1 |a.val ^ n|) ∨
    ((∃ er, power real a b = .error er) ∧ (10:ℚ) ^ (99:ℤ) < |a.val ^ n|) := by
  have hc : a.coef ≠ 0 := fun h => h0 (val_zero h)
  have hint : isInteger b = true := (isInteger_iff b).2 ⟨n, hn⟩
  have hti := toInt_of_val hn
  have hq := pow_sign a n
  have hqa : |a.val ^ n| = |a.val| ^ n := by rw [abs_zpow]
  have hapos : 0 < |a.val| := abs_pos.2 h0
  have h60 : (0:ℚ) < 10 ^ (-60:ℤ) := zp_pos _
  have hself : ∀ v : ℚ, v = a.val ^ n → |v - a.val ^ n| ≤ 10 ^ (-60:ℤ) * max 1 |a.val ^ n| := by
    intro v hv; rw [hv, sub_self, abs_zero]
    exact mul_nonneg h60.le (le_trans zero_le_one (le_max_left _ _))
  have hsgn : ∀ (s : Bool) (c : ℕ) (e : ℤ), (⟨s, c, e⟩ : Dec).val = (if s = true then (-1:ℚ) else 1) * ((c:ℚ) * 10 ^ e) := by
    intro s c e; simp only [Dec.val]; ring
  have habs1 : ∀ s : Bool, |(if s = true then (-1:ℚ) else 1)| = 1 := by intro s; cases s <;> simp
  unfold power
  dsimp only
  rw [hint, hti, if_neg hc, if_neg (by simp)]
  simp only [Bool.true_and]
  by_cases hb0 : b.coef = 0
  · rw [if_pos hb0]
    left
    have hn0 : n = 0 := by have := val_zero hb0; rw [hn] at this; exact_mod_cast this
    refine ⟨_, Or.inl ⟨rfl, ?_⟩, hself _ ?_⟩
    · rw [hn0]; simp [Dec.val]
    · rw [hn0]; simp [Dec.val]
  · rw [if_neg hb0]
    have hnn : n ≠ 0 := by
      intro h; rw [h] at hn; exact hb0 (val_eq_zero.1 (by simpa using hn))
    have hxv := abs_val_pos a
    have h1v : (⟨false, 1, 0⟩ : Dec).val = 1 := by simp [Dec.val]
    have hmv : mv (a.coef, a.exp) = |a.val| := by rw [abs_val]; rfl
    set sg := (a.neg && decide (n % 2 = 1)) with hsg
    by_cases heq : eqv (⟨false, a.coef, a.exp⟩ : Dec) ⟨false, 1, 0⟩ = true
    · rw [if_pos heq]
      left
      have h1 : |a.val| = 1 := by rw [eqv_iff, hxv, h1v] at heq; exact heq
      refine ⟨_, Or.inl ⟨rfl, ?_⟩, hself _ ?_⟩
      · rw [hsgn, abs_mul, habs1]; simp
      · rw [hsgn, hq, h1]; simp
    · rw [if_neg heq, if_pos trivial]
      have hne : (⟨false, a.coef, a.exp⟩ : Dec).val ≠ 1 := by
        intro h; apply heq; rw [eqv_iff, h1v]; exact h
      obtain ⟨hov, hun⟩ := powBounds_sound (x := ⟨false, a.coef, a.exp⟩) rfl hc hne hnn
      rw [hxv] at hov hun
      cases hB : powBounds (⟨false, a.coef, a.exp⟩ : Dec) n
      · right
        refine ⟨⟨_, rfl⟩, ?_⟩
        rw [hqa]
        refine lt_of_lt_of_le ?_ (hov hB)
        rw [← zpow_natCast]; exact zp_lt (by norm_num)
      · left
        refine ⟨_, Or.inr rfl, ?_⟩
        · rw [hsgn, hq, ← mul_sub, abs_mul, habs1, one_mul, abs_mul, habs1, one_mul, abs_of_pos (zpow_pos hapos n)]
          have h2 := hun hB
          have h3 : ((10:ℚ) ^ 1000)⁻¹ ≤ 10 ^ (-60:ℤ) := by
            rw [← zpow_natCast, ← zpow_neg]; exact zp_le (by norm_num)
          have h4 : ((1:ℕ):ℚ) * 10 ^ (Etiny - 1) ≤ 10 ^ (-60:ℤ) := by
            rw [Nat.cast_one, one_mul]; exact zp_le (by decide)
          have h5 : (0:ℚ) ≤ ((1:ℕ):ℚ) * 10 ^ (Etiny - 1) := by rw [Nat.cast_one, one_mul]; exact (zp_pos _).le
          have h6 := zpow_pos hapos n
          have h7 : (10:ℚ) ^ (-60:ℤ) ≤ 10 ^ (-60:ℤ) * max 1 (|a.val| ^ n) := le_mul_of_one_le_right h60.le (le_max_left _ _)
          have h8 := le_trans h2 h3
          generalize (10:ℚ) ^ (-60:ℤ) * max 1 (|a.val| ^ n) = R at *
          generalize (10:ℚ) ^ (-60:ℤ) = S at *
          rw [abs_le]; constructor <;> linarith
      · dsimp only
        have hspec := powInt_spec (b := (a.coef, a.exp)) hc (by rw [hmv]; exact ha.abs_ge hc) hnn (hb.digits hn)
        rw [hmv] at hspec
        rcases hspec with ⟨m, hm, hnear⟩ | ⟨⟨er, he⟩, hbig⟩
        · left
          rw [hm]
          simp only [bind, Except.bind]
          refine ⟨⟨sg, m.1, m.2⟩, Or.inr rfl, ?_⟩
          · rw [hsgn, hq, ← mul_sub, abs_mul, habs1, one_mul, abs_mul, habs1, one_mul, abs_of_pos (zpow_pos hapos n)]
            exact hnear
        · right
          rw [he]
          exact ⟨⟨er, rfl⟩, by rw [hqa]; exact hbig⟩

/-! ### Powers that fit -/

theorem fixHE_exact {p c : ℕ} {e : ℤ} (hc : c ≠ 0) (hd : numDigits c ≤ p) (he : Emin - p + 1 ≤ e)
    (ht : (numDigits c : ℤ) + e ≤ Emax + 1) : fixHE p c e = .ok (c, e) := by
  unfold fixHE
  rw [if_neg hc]
  dsimp only
  rw [if_neg (by omega), if_neg (by have := max_le (a := (numDigits c : ℤ) + e - p) (b := Emin - p + 1) (c := e) (by omega) he; omega)]

/-- No factor is rounded when the whole power fits sixty digits. -/
theorem powInt_exact {c N : ℕ} {e : ℤ} (hc : c ≠ 0) (hN : 1 ≤ N) (hfit : c ^ N < 10 ^ 60)
    (hlo : (10:ℚ) ^ (-100:ℤ) ≤ ((c:ℚ) * 10 ^ e) ^ N) (hhi : ((c:ℚ) * 10 ^ e) ^ N < 10 ^ (99:ℤ)) :
    powInt (c, e) N = .ok (c ^ N, e * N) := by
  have hval : ∀ i : ℕ, ((c:ℚ) * 10 ^ e) ^ i = ((c ^ i : ℕ) : ℚ) * 10 ^ (e * i) := by
    intro i; rw [mul_pow, ← zpow_natCast ((10:ℚ) ^ e), ← zpow_mul]; push_cast; rfl
  have hc1 : 1 ≤ c := Nat.one_le_iff_ne_zero.2 hc
  have hdig : ∀ i, i ≤ N → numDigits (c ^ i) ≤ 60 := fun i hi =>
    (numDigits_le_iff (by norm_num)).2 (lt_of_le_of_lt (Nat.pow_le_pow_right hc1 hi) hfit)
  have heN : e < 0 → -160 < e * N := by
    intro h
    rw [hval] at hlo
    have h1 : ((c ^ N : ℕ) : ℚ) < 10 ^ (60:ℤ) := by exact_mod_cast hfit
    have h2 : (10:ℚ) ^ (-100:ℤ) < 10 ^ (60 + e * N : ℤ) := by
      rw [zp_add]
      exact lt_of_le_of_lt hlo (mul_lt_mul_of_pos_right h1 (zp_pos _))
    have := zp_lt_iff.1 h2
    omega
  have hmul : ∀ p : ℕ, 62 ≤ p → ∀ (i j k l : ℕ) (x y : Mag), x = (c ^ i, e * i) → y = (c ^ j, e * j) → i + j ≤ N → k + l + 1 ≤ 3 * N →
      (∃ m, mulHE p x y = .ok m ∧ m = (c ^ (i + j), e * (i + j : ℕ))) ∨ ((∃ er, mulHE p x y = .error er) ∧ False) := by
    intro p hp i j k l x y hx hy hij _
    left
    refine ⟨_, ?_, rfl⟩
    subst hx; subst hy
    have e1 : c ^ i * c ^ j = c ^ (i + j) := by rw [pow_add]
    have e2 : e * (i:ℤ) + e * (j:ℤ) = e * ((i + j : ℕ) : ℤ) := by push_cast; ring
    unfold mulHE
    dsimp only
    rw [e1, e2]
    have hcp : c ^ (i + j) ≠ 0 := pow_ne_zero _ hc
    have hd := hdig _ hij
    have hEmin : Emin = -100 := rfl
    have hEmax : Emax = 100 := rfl
    have hmono : e < 0 → e * N ≤ e * ((i + j : ℕ) : ℤ) := fun h =>
      mul_le_mul_of_nonpos_left (by exact_mod_cast hij) h.le
    refine fixHE_exact hcp (by omega) ?_ ?_
    · rcases lt_or_ge e 0 with h | h
      · have := heN h; have := hmono h; omega
      · have : 0 ≤ e * ((i + j : ℕ) : ℤ) := mul_nonneg h (Int.natCast_nonneg _)
        omega
    · rcases lt_or_ge e 0 with h | h
      · have : e * ((i + j : ℕ) : ℤ) ≤ 0 := mul_nonpos_of_nonpos_of_nonneg h.le (Int.natCast_nonneg _)
        omega
      · have hx1 : (1:ℚ) ≤ (c:ℚ) * 10 ^ e := one_le_mul_of_one_le_of_one_le (by exact_mod_cast hc1)
          (by rw [← zpow_zero (10:ℚ)]; exact zp_le h)
        have h1 := lt_of_le_of_lt (pow_le_pow_right₀ hx1 hij) hhi
        rw [hval] at h1
        have h2 := lt_of_le_of_lt (mv_ge_digits hcp (e * ((i + j : ℕ) : ℤ))) h1
        have := zp_lt_iff.1 h2
        omega
  unfold powInt
  dsimp only
  rw [if_neg (by omega), Int.natAbs_natCast]
  have hp : 62 ≤ 60 + numDigits N + 2 := by omega
  generalize 60 + numDigits N + 2 = p at hp
  by_cases hb : N < 2 ^ 64
  · rw [if_pos hb]
    rcases powUint_spec (P := fun i _ m => m = (c ^ i, e * i)) (hmul p hp) (b := (c, e)) (by simp) N hN (le_refl _)
      with ⟨m, hm, hP⟩ | ⟨_, h⟩
    · rw [hm, hP]
    · exact h.elim
  · rw [if_neg hb]
    rcases powMpd_spec (P := fun i _ m => m = (c ^ i, e * i)) (hmul p hp) N (1, 0) (c, e) 0 1 (by simp) (le_refl _)
      (by simp) (by omega) with ⟨m, hm, hP⟩ | ⟨_, h⟩
    · rw [hm, hP]
    · exact h.elim

/-- A power that fits sixty digits and the exponent range is computed exactly. -/
theorem power_exact (real : Dec → Dec → Except PyErr Num) {a b : Dec} {N : ℕ}
    (hn : b.val = N) (hN : 1 ≤ N) (hfit : a.coef ^ N < 10 ^ 60)
    (hlo : (10:ℚ) ^ (-100:ℤ) ≤ |a.val ^ N|) (hhi : |a.val ^ N| < 10 ^ (99:ℤ)) :
    ∃ d : Dec, (power real a b = .ok (.fin d) ∧ |d.val| = 1 ∨ power real a b = (fixCtx d).map .fin) ∧ d.val = a.val ^ N := by
  have hc : a.coef ≠ 0 := by
    intro h
    rw [val_zero h, zero_pow (by omega), abs_zero] at hlo
    exact absurd hlo (not_le.2 (zp_pos _))
  have hn' : b.val = ((N:ℤ) : ℚ) := by rw [hn]; simp
  have hint : isInteger b = true := (isInteger_iff b).2 ⟨_, hn'⟩
  have hti := toInt_of_val hn'
  have hq := pow_sign a N
  rw [zpow_natCast, zpow_natCast] at hq
  have hsgn : ∀ (s : Bool) (c : ℕ) (e : ℤ), (⟨s, c, e⟩ : Dec).val = (if s = true then (-1:ℚ) else 1) * ((c:ℚ) * 10 ^ e) := by
    intro s c e; simp only [Dec.val]; ring
  have habs1 : ∀ s : Bool, |(if s = true then (-1:ℚ) else 1)| = 1 := by intro s; cases s <;> simp
  have hb0 : b.coef ≠ 0 := by
    intro h
    rw [val_zero h] at hn
    have : N = 0 := by exact_mod_cast hn.symm
    omega
  have hxv := abs_val_pos a
  have h1v : (⟨false, 1, 0⟩ : Dec).val = 1 := by simp [Dec.val]
  unfold power
  dsimp only
  rw [hint, hti, if_neg hc, if_neg (by simp)]
  simp only [Bool.true_and]
  rw [if_neg hb0]
  by_cases heq : eqv (⟨false, a.coef, a.exp⟩ : Dec) ⟨false, 1, 0⟩ = true
  · rw [if_pos heq]
    have h1 : |a.val| = 1 := by rw [eqv_iff, hxv, h1v] at heq; exact heq
    refine ⟨_, Or.inl ⟨rfl, ?_⟩, ?_⟩
    · rw [hsgn, abs_mul, habs1]; simp
    · rw [hsgn, hq, h1]; simp
  · rw [if_neg heq, if_pos trivial]
    have hne : (⟨false, a.coef, a.exp⟩ : Dec).val ≠ 1 := by
      intro h; apply heq; rw [eqv_iff, h1v]; exact h
    obtain ⟨hov, hun⟩ := powBounds_sound (x := ⟨false, a.coef, a.exp⟩) rfl hc hne (n := N) (by omega)
    rw [hxv, zpow_natCast] at hov hun
    rw [abs_pow] at hlo hhi
    cases hB : powBounds (⟨false, a.coef, a.exp⟩ : Dec) N
    · exfalso
      refine absurd (lt_of_le_of_lt (hov hB) hhi) (not_lt.2 ?_)
      rw [← zpow_natCast]; exact zp_le (by norm_num)
    · exfalso
      refine absurd (le_trans hlo (hun hB)) (not_le.2 ?_)
      rw [← zpow_natCast, ← zpow_neg]; exact zp_lt (by norm_num)
    · dsimp only
      rw [abs_val] at hlo hhi
      rw [powInt_exact hc hN hfit hlo hhi]
      simp only [bind, Except.bind]
      refine ⟨_, Or.inr rfl, ?_⟩
      rw [hsgn, hq, abs_val, mul_pow, ← zpow_natCast ((10:ℚ) ^ a.exp), ← zpow_mul]
      push_cast
      rfl

/-! ### After the two roundings of the bridge -/

/-- From what `power` returns to what the contract sees. -/
theorem cdPow_agrees {real : Dec → Dec → Except PyErr Num} {a b d : Dec}
    (h : power real a b = .ok (.fin d) ∧ |d.val| = 1 ∨ power real a b = (fixCtx d).map .fin)
    (hb : |d.val| < 10 ^ (100:ℤ)) : Agrees (cdPow real a b) (Spec.fix d.val) := by
  obtain ⟨r, hr, hfr⟩ : ∃ r, power real a b = .ok (.fin r) ∧ Spec.fix r.val = Spec.fix d.val := by
    rcases h with ⟨h, _⟩ | h
    · exact ⟨d, h, rfl⟩
    · obtain ⟨r, h1, h2⟩ := fixCtx_fix hb
      exact ⟨r, by rw [h, h1]; rfl, h2⟩
  have h2 : cdPow real a b = cdOp (fun _ _ => .ok r) a b := by
    unfold cdPow cdOp; rw [hr]; rfl
  rw [h2]
  exact cdOp_agrees rfl hfr

/-- Numbers far out of range do not survive the context. -/
theorem fixCtx_overflow {d : Dec} (h : (10:ℚ) ^ (101:ℤ) ≤ |d.val|) : ∃ er, fixCtx d = .error er := by
  have h0 : d.coef ≠ 0 := by
    intro h0; rw [val_zero h0, abs_zero] at h; exact absurd h (not_le.2 (zp_pos _))
  have h1 := lt_of_le_of_lt h (val_lt_adj d)
  have h2 := zp_lt_iff.1 h1
  unfold adjusted at h2
  unfold fixCtx
  rw [if_neg h0]
  dsimp only
  have hp : prec = 60 := rfl
  have hE : Etop = 41 := rfl
  rw [if_pos (by omega)]
  exact ⟨_, rfl⟩

end Verif
