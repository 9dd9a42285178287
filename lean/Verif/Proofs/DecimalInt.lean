import Verif.Proofs.DecimalCanon
/-!
# Integer-valued operations on contract decimals: `//`, `%`, `int`, `round`, unary signs
-/
namespace Verif
open Dec

theorem IsCD.exp_ge {d : Dec} (h : IsCD d) : -30 ≤ d.exp := by
  rcases h.canon with rfl | h
  · decide
  · exact h.1

theorem IsCD.adj_le {d : Dec} (h : IsCD d) (h0 : d.coef ≠ 0) : adjusted d ≤ 29 := by
  have := zp_lt_iff.1 (lt_of_le_of_lt (val_ge_adj h0) h.abs_lt)
  omega

theorem IsCD.adj_ge {d : Dec} (h : IsCD d) : -30 ≤ adjusted d := by
  have := h.exp_ge
  have := numDigits_pos d.coef
  unfold adjusted; omega

/-- `a.coef` scaled to exponent `e`. -/
theorem abs_scaled {d : Dec} {e : ℤ} (h : e ≤ d.exp) :
    ((d.coef * 10 ^ (d.exp - e).toNat : ℕ) : ℚ) * 10 ^ e = |d.val| := by
  rw [abs_val]
  push_cast
  rw [zp_toNat (by omega), mul_assoc, ← zp_add]
  congr 2; ring

theorem IsCD.coef_scaled_lt {d : Dec} (h : IsCD d) {e : ℤ} (h1 : -30 ≤ e) (h2 : e ≤ d.exp) :
    d.coef * 10 ^ (d.exp - e).toNat < 10 ^ 60 := by
  have h3 := abs_scaled h2
  have h4 := h.abs_lt
  rw [← h3] at h4
  have h5 : ((d.coef * 10 ^ (d.exp - e).toNat : ℕ) : ℚ) < 10 ^ (60:ℤ) := by
    have h6 : (10:ℚ) ^ (30:ℤ) ≤ 10 ^ (60:ℤ) * 10 ^ e := by rw [← zp_add]; exact zp_le (by omega)
    exact lt_of_mul_lt_mul_right (lt_of_lt_of_le h4 h6) (zp_pos e).le
  exact_mod_cast h5

theorem trunc_sign {s : ℚ} {x y : ℕ} (hs : s = 1 ∨ s = -1) :
    Spec.trunc (s * ((x:ℚ) / y)) = (if s = 1 then 1 else -1) * ((x / y : ℕ) : ℤ) := by
  have h0 : (0:ℚ) ≤ (x:ℚ) / y := by positivity
  unfold Spec.trunc
  rcases hs with rfl | rfl
  · simp only [one_mul, h0, if_true, floor_nat_div]
  · have : (-1:ℚ) ≠ 1 := by norm_num
    simp only [this, if_false, neg_one_mul]
    rcases h0.eq_or_lt with h | h
    · rw [← h]
      have hz : x / y = 0 := by
        have : ⌊(x:ℚ) / y⌋ = 0 := by rw [← h]; simp
        rw [floor_nat_div] at this
        exact_mod_cast this
      simp [hz]
    · have : ¬ (0 ≤ -((x:ℚ) / y)) := by linarith
      simp only [this, if_false, Int.ceil_neg, floor_nat_div]

/-- The quotient and the remainder `_divide` computes on contract decimals; it never refuses. -/
theorem divide_eq {a b : Dec} (ha : IsCD a) (hb : IsCD b) (h0 : b.coef ≠ 0) :
    ∃ x y : ℕ, ∃ e : ℤ, 0 < y ∧ -30 ≤ e ∧ x < 10 ^ 60 ∧ (x:ℚ) * 10 ^ e = |a.val| ∧ (y:ℚ) * 10 ^ e = |b.val| ∧
      divide a b = .ok (⟨a.neg != b.neg, x / y, 0⟩, ⟨a.neg, x % y, e⟩) := by
  have hai := ha.exp_ge
  have hbi := hb.exp_ge
  set e := min a.exp b.exp with he
  have e1 : e ≤ a.exp := min_le_left _ _
  have e2 : e ≤ b.exp := min_le_right _ _
  have e3 : -30 ≤ e := by omega
  have hx := abs_scaled e1
  have hy := abs_scaled e2
  have hxl := ha.coef_scaled_lt e3 e1
  set x := a.coef * 10 ^ (a.exp - e).toNat with hxd
  set y := b.coef * 10 ^ (b.exp - e).toNat with hyd
  have hyp : 0 < y := by rw [hyd]; exact Nat.mul_pos (Nat.pos_of_ne_zero h0) (by positivity)
  refine ⟨x, y, e, hyp, e3, hxl, hx, hy, ?_⟩
  unfold divide
  simp only [← he, ← hxd, ← hyd]
  by_cases hsmall : a.coef = 0 ∨ adjusted a - adjusted b ≤ -2
  · simp only [hsmall, if_true]
    have hlt : x < y := by
      rcases hsmall with h | h
      · rw [hxd, h, Nat.zero_mul]; exact hyp
      · have h1 := val_lt_adj a
        have h2 := val_ge_adj h0
        have h3 : |a.val| < |b.val| := lt_of_lt_of_le h1 (le_trans (zp_le (by omega)) h2)
        rw [← hx, ← hy] at h3
        exact_mod_cast lt_of_mul_lt_mul_right h3 (zp_pos e).le
    rw [Nat.div_eq_of_lt hlt, Nat.mod_eq_of_lt hlt]
    have : rescaleFloor a e = ⟨a.neg, x, e⟩ := by
      unfold rescaleFloor
      by_cases hz : a.coef = 0
      · simp [hz, hxd]
      · simp only [hz, if_false, e1, if_true, hxd]
    rw [this]
  · have hz : a.coef ≠ 0 := fun h => hsmall (Or.inl h)
    have h1 := ha.adj_le hz
    have h2 := hb.adj_ge
    have h3 : adjusted a - adjusted b ≤ (prec:ℤ) := by unfold prec; push_cast; omega
    have h4 : x / y < 10 ^ prec := lt_of_le_of_lt (Nat.div_le_self _ _) hxl
    simp only [hsmall, if_false, h3, if_true, h4]

theorem val_sign (d : Dec) : d.val = (if d.neg then -1 else 1) * |d.val| := by
  rw [abs_val, Dec.val, mul_assoc]

theorem divide_trunc {a b : Dec} {x y : ℕ} {e : ℤ} (hyp : 0 < y)
    (hx : (x:ℚ) * 10 ^ e = |a.val|) (hy : (y:ℚ) * 10 ^ e = |b.val|) :
    ((⟨a.neg != b.neg, x / y, 0⟩ : Dec).val = (Spec.trunc (a.val / b.val) : ℚ)) ∧
    ((⟨a.neg, x % y, e⟩ : Dec).val = a.val - b.val * (Spec.trunc (a.val / b.val) : ℚ)) := by
  have hy0 : (y:ℚ) ≠ 0 := by exact_mod_cast hyp.ne'
  have hte : (10:ℚ) ^ e ≠ 0 := (zp_pos e).ne'
  set sa : ℚ := if a.neg then -1 else 1 with hsa
  set sb : ℚ := if b.neg then -1 else 1 with hsb
  have hsa' : sa = 1 ∨ sa = -1 := by rw [hsa]; cases a.neg <;> simp
  have hsb' : sb = 1 ∨ sb = -1 := by rw [hsb]; cases b.neg <;> simp
  have ha : a.val = sa * (x * 10 ^ e) := by rw [hx]; exact val_sign a
  have hb : b.val = sb * (y * 10 ^ e) := by rw [hy]; exact val_sign b
  have hq : a.val / b.val = (sa * sb) * ((x:ℚ) / y) := by
    rw [ha, hb]
    rcases hsb' with h | h <;> rw [h] <;> field_simp
  have hs : sa * sb = 1 ∨ sa * sb = -1 := by
    rcases hsa' with h | h <;> rcases hsb' with h' | h' <;> rw [h, h'] <;> norm_num
  have ht : (Spec.trunc (a.val / b.val) : ℚ) = sa * sb * ((x / y : ℕ) : ℚ) := by
    rw [hq, trunc_sign hs]
    generalize x / y = z
    rcases hs with h | h
    · rw [h]; simp
    · rw [h]; norm_num
  constructor
  · rw [ht]
    unfold Dec.val
    simp only [sign_mul, zpow_zero, mul_one, ← hsa, ← hsb]
  · rw [ht, ha, hb]
    unfold Dec.val
    simp only [← hsa]
    have hdm : (x:ℚ) = y * ((x / y : ℕ) : ℚ) + ((x % y : ℕ) : ℚ) := by exact_mod_cast (Nat.div_add_mod x y).symm
    have hsq : sb * sb = 1 := by rcases hsb' with h | h <;> rw [h] <;> norm_num
    calc sa * ((x % y : ℕ) : ℚ) * 10 ^ e = sa * (x - y * ((x / y : ℕ) : ℚ)) * 10 ^ e := by rw [hdm]; ring
      _ = sa * (x * 10 ^ e) - (sb * sb) * sa * (y * 10 ^ e) * ((x / y : ℕ) : ℚ) := by rw [hsq]; ring
      _ = _ := by ring

theorem floordiv_spec {a b : Dec} (ha : IsCD a) (hb : IsCD b) (h0 : b.coef ≠ 0) :
    ∃ r, Dec.floordiv a b = .ok r ∧ r.val = (Spec.trunc (a.val / b.val) : ℚ) := by
  obtain ⟨x, y, e, hyp, _, _, hx, hy, hd⟩ := divide_eq ha hb h0
  refine ⟨_, ?_, (divide_trunc hyp hx hy).1⟩
  simp [Dec.floordiv, h0, hd, Except.map]

theorem mod_spec {a b : Dec} (ha : IsCD a) (hb : IsCD b) (h0 : b.coef ≠ 0) :
    ∃ r, Dec.mod a b = .ok r ∧ r.val = a.val - b.val * (Spec.trunc (a.val / b.val) : ℚ) ∧
      |r.val| ≤ |a.val| ∧ |r.val| < |b.val| ∧ ∃ n : ℤ, r.val = n / 10 ^ 30 := by
  obtain ⟨x, y, e, hyp, he, hxl, hx, hy, hd⟩ := divide_eq ha hb h0
  have hv := (divide_trunc hyp hx hy).2
  have hle : |(⟨a.neg, x % y, e⟩ : Dec).val| ≤ |a.val| := by
    rw [abs_val, ← hx]
    exact mul_le_mul_of_nonneg_right (by exact_mod_cast Nat.mod_le _ _) (zp_pos e).le
  have hlt : |(⟨a.neg, x % y, e⟩ : Dec).val| < |b.val| := by
    rw [abs_val, ← hy]
    exact mul_lt_mul_of_pos_right (by exact_mod_cast Nat.mod_lt _ hyp) (zp_pos e)
  have hm : ∃ n : ℤ, (⟨a.neg, x % y, e⟩ : Dec).val = n / 10 ^ 30 := by
    refine ⟨(⟨a.neg, x % y, e⟩ : Dec).sc * 10 ^ (e + 30).toNat, ?_⟩
    rw [Dec.val_eq]
    push_cast
    rw [zp_toNat (by omega), zp_add]
    have : (10:ℚ) ^ (30:ℤ) = 10 ^ 30 := by norm_num
    rw [this]
    field_simp
  have hmod : Dec.mod a b = fixCtx ⟨a.neg, x % y, e⟩ := by
    simp [Dec.mod, h0, hd, Except.bind]
  rw [hmod]
  by_cases hz : x % y = 0
  · obtain ⟨r, h1, h2, _, _⟩ := fixCtx_zero (d := ⟨a.neg, x % y, e⟩) hz
    have hz' : (⟨a.neg, x % y, e⟩ : Dec).val = 0 := val_zero hz
    have : r.val = (⟨a.neg, x % y, e⟩ : Dec).val := by rw [h2, hz']
    exact ⟨r, h1, by rw [this, hv], by rw [this]; exact hle, by rw [this]; exact hlt, by rw [this]; exact hm⟩
  · refine ⟨_, fixCtx_id hz ?_ (by show -159 ≤ e; omega) ?_, hv, hle, hlt, hm⟩
    · exact (numDigits_le_iff (by norm_num)).2 (lt_of_le_of_lt (Nat.mod_le _ _) hxl)
    · have h1 := val_ge_adj (d := ⟨a.neg, x % y, e⟩) hz
      have h2 := zp_lt_iff.1 (lt_of_le_of_lt h1 (lt_of_le_of_lt hle ha.abs_lt))
      omega

theorem fix_exact {q : ℚ} (h1 : -10 ^ 30 < q) (h2 : q ≤ 10 ^ 29) (h3 : ∃ n : ℤ, q = n / 10 ^ 30) :
    Spec.fix q = some q := by
  obtain ⟨n, rfl⟩ := h3
  exact fix_some_iff.2 ⟨h1, h2, floor30_mult n⟩

theorem toInt_spec (a : Dec) : cdInt a = Spec.trunc a.val := by
  unfold cdInt Dec.toInt
  have hs : (if a.neg then (-1:ℚ) else 1) = 1 ∨ (if a.neg then (-1:ℚ) else 1) = -1 := by cases a.neg <;> simp
  have hi : (if (if a.neg then (-1:ℚ) else 1) = 1 then (1:ℤ) else -1) = if a.neg then -1 else 1 := by
    cases a.neg <;> norm_num
  by_cases he : 0 ≤ a.exp
  · simp only [he, if_true]
    have : a.val = (if a.neg then (-1:ℚ) else 1) * (((a.coef * 10 ^ a.exp.toNat : ℕ) : ℚ) / ((1:ℕ):ℚ)) := by
      unfold Dec.val
      push_cast
      rw [zp_toNat he]; ring
    rw [this, trunc_sign hs, hi, Nat.div_one]
  · simp only [he, if_false]
    have : a.val = (if a.neg then (-1:ℚ) else 1) * ((a.coef : ℚ) / ((10 ^ (-a.exp).toNat : ℕ):ℚ)) := by
      unfold Dec.val
      push_cast
      rw [zp_toNat (by omega), zpow_neg]
      field_simp
    rw [this, trunc_sign hs, hi]

theorem roundHalfEven_spec {n p : ℕ} (hp : 0 < p) :
    Spec.NearestEven ((n:ℚ) / p) (roundHalfEven n p) := by
  have hp' : (0:ℚ) < p := by exact_mod_cast hp
  have hdm : (n:ℚ) / p = ((n / p : ℕ) : ℚ) + ((n % p : ℕ) : ℚ) / p := by
    rw [eq_comm, ← sub_eq_zero]
    field_simp
    have : (n:ℚ) = p * ((n / p : ℕ) : ℚ) + ((n % p : ℕ) : ℚ) := by exact_mod_cast (Nat.div_add_mod n p).symm
    linarith
  set r : ℚ := ((n % p : ℕ) : ℚ) / p with hr
  have hr0 : 0 ≤ r := by rw [hr]; positivity
  have hr1 : r < 1 := by rw [hr, div_lt_one hp']; exact_mod_cast Nat.mod_lt _ hp
  have hlt : 2 * (n % p) < p ↔ r < 1 / 2 := by
    rw [hr, div_lt_iff₀ hp']
    constructor
    · intro h
      have : (2:ℚ) * ((n % p : ℕ):ℚ) < p := by exact_mod_cast h
      linarith
    · intro h
      have : (2:ℚ) * ((n % p : ℕ):ℚ) < p := by linarith
      exact_mod_cast this
  have heq : 2 * (n % p) = p ↔ r = 1 / 2 := by
    rw [hr, div_eq_iff hp'.ne']
    constructor
    · intro h
      have : (2:ℚ) * ((n % p : ℕ):ℚ) = p := by exact_mod_cast h
      linarith
    · intro h
      have : (2:ℚ) * ((n % p : ℕ):ℚ) = p := by linarith
      exact_mod_cast this
  unfold roundHalfEven
  rw [hdm]
  unfold Spec.NearestEven
  split
  · rename_i h
    rw [hlt, heq] at h
    have : ((n / p : ℕ) : ℚ) + r - (((n / p : ℕ) : ℤ) : ℚ) = r := by generalize n / p = z; push_cast; ring
    rw [this, abs_of_nonneg hr0]
    rcases h with h | ⟨h, h'⟩
    · exact ⟨h.le, fun hc => absurd hc h.ne⟩
    · exact ⟨h.le, fun _ => by omega⟩
  · rename_i h
    rw [hlt, heq] at h
    have : ((n / p : ℕ) : ℚ) + r - (((n / p + 1 : ℕ) : ℤ) : ℚ) = r - 1 := by generalize n / p = z; push_cast; ring
    rw [this, abs_of_neg (by linarith)]
    have hge : 1 / 2 ≤ r := not_lt.1 fun hc => h (Or.inl hc)
    refine ⟨by linarith, fun hc => ?_⟩
    have : r = 1 / 2 := by linarith
    have hodd : ¬ n / p % 2 = 0 := fun hc => h (Or.inr ⟨this, hc⟩)
    omega

theorem NearestEven.neg {q : ℚ} {n : ℤ} (h : Spec.NearestEven q n) : Spec.NearestEven (-q) (-n) := by
  have : |(-q) - ((-n : ℤ) : ℚ)| = |q - n| := by
    rw [← abs_neg]; congr 1; push_cast; ring
  unfold Spec.NearestEven
  rw [this]
  exact ⟨h.1, fun hh => by have := h.2 hh; omega⟩

theorem round_spec (a : Dec) : Spec.NearestEven a.val (cdRound a) := by
  unfold cdRound
  have key : Spec.NearestEven |a.val| ((if 0 ≤ a.exp then a.coef * 10 ^ a.exp.toNat
      else Dec.roundHalfEven a.coef (10 ^ (-a.exp).toNat) : ℕ) : ℤ) := by
    rw [abs_val]
    by_cases he : 0 ≤ a.exp
    · simp only [he, if_true]
      have : (a.coef : ℚ) * 10 ^ a.exp = (((a.coef * 10 ^ a.exp.toNat : ℕ) : ℤ) : ℚ) := by
        push_cast; rw [zp_toNat he]
      rw [this]
      unfold Spec.NearestEven
      simp
    · simp only [he, if_false]
      have : (a.coef : ℚ) * 10 ^ a.exp = (a.coef : ℚ) / ((10 ^ (-a.exp).toNat : ℕ):ℚ) := by
        push_cast
        rw [zp_toNat (by omega), zpow_neg]
        field_simp
      rw [this]
      exact roundHalfEven_spec (by positivity)
  rw [val_sign a]
  generalize (if 0 ≤ a.exp then a.coef * 10 ^ a.exp.toNat
      else Dec.roundHalfEven a.coef (10 ^ (-a.exp).toNat) : ℕ) = z at key ⊢
  cases a.neg
  · simpa using key
  · simpa using NearestEven.neg key

theorem roundTo_spec {a : Dec} (ha : IsCD a) (n : ℤ) :
    (∀ d, cdRoundTo a n = .ok d → d.val = (⌊a.val * 10 ^ n⌋ : ℚ) / 10 ^ n) ∧
    ((∃ d, cdRoundTo a n = .ok d) ↔ -100 ≤ n ∧ n ≤ 159 ∧ |⌊a.val * 10 ^ n⌋| < 10 ^ 60) := by
  unfold cdRoundTo
  by_cases hn : Etiny ≤ -n ∧ -n ≤ Emax
  swap
  · simp only [hn, if_false]
    refine ⟨fun d h => (by cases h), ⟨fun ⟨d, h⟩ => (by cases h), fun h => absurd ?_ hn⟩⟩
    unfold Etiny Emax; omega
  simp only [hn]
  have hnl : -100 ≤ n := by have := hn.2; unfold Emax at this; omega
  have hnu : n ≤ 159 := by have := hn.1; unfold Etiny at this; omega
  simp only [hnl, hnu, true_and]
  by_cases h0 : a.coef = 0
  · have hv : a.val = 0 := val_zero h0
    obtain ⟨r, h1, h2, _, _⟩ := fixCtx_zero (d := ⟨a.neg, 0, -n⟩) rfl
    simp only [quantizeTo, h0, if_true, h1, hv, zero_mul, Int.floor_zero]
    refine ⟨fun d h => ?_, fun _ => by norm_num, fun _ => ⟨r, rfl⟩⟩
    cases h
    rw [h2]; simp
  simp only [quantizeTo, h0, if_false]
  have hfloor : floorTo (-n) a.val = (⌊a.val * 10 ^ n⌋ : ℚ) / 10 ^ n := by
    unfold floorTo
    rw [zpow_neg, div_inv_eq_mul]; rfl
  by_cases hbig : adjusted a > Emax ∨ adjusted a - -n + 1 > (prec:ℤ)
  · rw [if_pos hbig]
    refine ⟨fun d h => (by cases h), ⟨fun ⟨d, h⟩ => (by cases h), fun h => ?_⟩⟩
    exfalso
    have hadj := ha.adj_le h0
    have h60 : 60 ≤ adjusted a + n := by unfold Emax prec at hbig; push_cast at hbig; omega
    have h1 : (10:ℚ) ^ (60:ℤ) ≤ |a.val * 10 ^ n| := by
      rw [abs_mul, abs_of_pos (zp_pos n)]
      calc (10:ℚ) ^ (60:ℤ) ≤ 10 ^ (adjusted a + n) := zp_le h60
        _ = 10 ^ adjusted a * 10 ^ n := zp_add _ _
        _ ≤ _ := mul_le_mul_of_nonneg_right (val_ge_adj h0) (zp_pos n).le
    have h1' : (10:ℚ) ^ 60 ≤ |a.val * 10 ^ n| := by exact_mod_cast h1
    rw [abs_lt] at h
    rcases le_abs.1 h1' with h2 | h2
    · have : (10:ℤ) ^ 60 ≤ ⌊a.val * 10 ^ n⌋ := by rw [Int.le_floor]; push_cast; exact h2
      omega
    · have h3 : ((⌊a.val * 10 ^ n⌋ : ℤ) : ℚ) ≤ ((-(10 ^ 60) : ℤ) : ℚ) := by
        refine le_trans (Int.floor_le _) ?_; push_cast; linarith
      have h3' : ⌊a.val * 10 ^ n⌋ ≤ -(10 ^ 60) := by exact_mod_cast h3
      omega
  · rw [if_neg hbig]
    set r := rescaleFloor a (-n) with hr
    have hrv : r.val = (⌊a.val * 10 ^ n⌋ : ℚ) / 10 ^ n := by rw [hr, rescaleFloor_val, hfloor]
    have hre : r.exp = -n := by rw [hr, rescaleFloor_exp]
    have hcoef : (r.coef : ℤ) = |⌊a.val * 10 ^ n⌋| := by
      have h1 : |r.val| = (r.coef : ℚ) * 10 ^ (-n) := by rw [abs_val, hre]
      rw [hrv, abs_div, abs_of_pos (zp_pos n), zpow_neg, ← div_eq_mul_inv, div_left_inj' (zp_pos n).ne'] at h1
      have : (((r.coef : ℤ) : ℚ)) = ((|⌊a.val * 10 ^ n⌋| : ℤ) : ℚ) := by push_cast; exact h1.symm
      exact_mod_cast this
    have hradj : adjusted r ≤ 100 := by
      by_cases hr0 : r.coef = 0
      · unfold adjusted; rw [hr0, hre]
        have : numDigits 0 = 1 := by decide
        rw [this]; push_cast; omega
      · have h1 := val_ge_adj hr0
        have h2 := floorTo_le (-n) a.val
        have h3 := lt_floorTo (-n) a.val
        rw [hfloor, ← hrv] at h2 h3
        have h4 := (abs_lt.1 ha.abs_lt)
        have h5 : (10:ℚ) ^ (-n) ≤ 10 ^ (100:ℤ) := zp_le (by omega)
        have h6 : |r.val| < 10 ^ (101:ℤ) := by
          have h7 : (10:ℚ) ^ (30:ℤ) + 10 ^ (100:ℤ) < 10 ^ (101:ℤ) := by norm_num
          have h8 := zp_pos 100
          have h9 := zp_pos 30
          rw [abs_lt]
          constructor <;> linarith [h4.1, h4.2]
        have := zp_lt_iff.1 (lt_of_le_of_lt h1 h6)
        omega
    have hno : ¬ adjusted r > Emax := by unfold Emax; omega
    by_cases hd : numDigits r.coef > prec
    · rw [if_pos (Or.inr hd)]
      refine ⟨fun d h => (by cases h), ⟨fun ⟨d, h⟩ => (by cases h), fun h => ?_⟩⟩
      exfalso
      rw [← hcoef] at h
      have : numDigits r.coef ≤ 60 := (numDigits_le_iff (by norm_num)).2 (by exact_mod_cast h)
      unfold prec at hd; omega
    · have hnb : ¬ (adjusted r > Emax ∨ numDigits r.coef > prec) := not_or.2 ⟨hno, hd⟩
      rw [if_neg hnb]
      have hd60 : numDigits r.coef ≤ 60 := by unfold prec at hd; omega
      have hlt : |⌊a.val * 10 ^ n⌋| < 10 ^ 60 := by
        rw [← hcoef]; exact_mod_cast (numDigits_le_iff (by norm_num)).1 hd60
      by_cases hr0 : r.coef = 0
      · obtain ⟨r', h1, h2, _, _⟩ := fixCtx_zero hr0
        rw [h1]
        refine ⟨fun d h => ?_, fun _ => hlt, fun _ => ⟨_, rfl⟩⟩
        cases h
        rw [h2, ← hrv, val_zero hr0]
      · rw [fixCtx_id hr0 hd60 (by omega) hradj]
        refine ⟨fun d h => ?_, fun _ => hlt, fun _ => ⟨_, rfl⟩⟩
        cases h
        exact hrv

end Verif
