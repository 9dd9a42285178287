import Verif.Model.Power
import Verif.Proofs.DecimalOps
import Verif.Proofs.DecimalCanon
import Mathlib.Tactic.Linarith
import Mathlib.Tactic.Ring
import Mathlib.Tactic.Positivity
import Mathlib.Algebra.Order.Ring.Pow
/-!
# Error analysis of `**`
-/
namespace Verif
open Dec

/-- The number a magnitude stands for. -/
def Dec.mv (m : Mag) : ℚ := (m.1 : ℚ) * 10 ^ m.2

theorem mv_nonneg (m : Mag) : 0 ≤ mv m := mul_nonneg (Nat.cast_nonneg _) (zp_pos _).le

/-- Half-even rounding of `n / p` lies between its floor and ceiling, and is exact when it divides. -/
theorem roundHalfEven_bounds (n p : ℕ) (hp : 0 < p) :
    n / p ≤ roundHalfEven n p ∧ roundHalfEven n p ≤ n / p + 1 ∧ (n % p = 0 → roundHalfEven n p = n / p) := by
  unfold roundHalfEven
  split
  · exact ⟨le_refl _, Nat.le_succ _, fun _ => rfl⟩
  · rename_i h
    refine ⟨Nat.le_succ _, le_refl _, fun h0 => ?_⟩
    exfalso; apply h; left; rw [h0]; omega

/-- As a rational: within one of the exact quotient. -/
theorem roundHalfEven_near (n p : ℕ) (hp : 0 < p) : |(roundHalfEven n p : ℚ) * p - n| ≤ p := by
  obtain ⟨h1, h2, h3⟩ := roundHalfEven_bounds n p hp
  have hd : (n:ℚ) = p * (n / p : ℕ) + (n % p : ℕ) := by exact_mod_cast (Nat.div_add_mod n p).symm
  have hm : ((n % p : ℕ) : ℚ) < p := by exact_mod_cast Nat.mod_lt n hp
  have hm0 : (0:ℚ) ≤ ((n % p : ℕ) : ℚ) := Nat.cast_nonneg _
  have h1' : ((n / p : ℕ) : ℚ) ≤ roundHalfEven n p := by exact_mod_cast h1
  have h2' : (roundHalfEven n p : ℚ) ≤ (n / p : ℕ) + 1 := by exact_mod_cast h2
  have hp' : (0:ℚ) < p := by exact_mod_cast hp
  rw [abs_le]
  constructor <;> nlinarith

/-- Every number at least an integer `k` rounds to at least `k`. -/
theorem roundHalfEven_ge {n p k : ℕ} (hp : 0 < p) (h : k * p ≤ n) : k ≤ roundHalfEven n p :=
  le_trans ((Nat.le_div_iff_mul_le hp).2 h) (roundHalfEven_bounds n p hp).1

/-- Every number at most an integer `k` rounds to at most `k`. -/
theorem roundHalfEven_le {n p k : ℕ} (hp : 0 < p) (h : n ≤ k * p) : roundHalfEven n p ≤ k := by
  obtain ⟨_, h2, h3⟩ := roundHalfEven_bounds n p hp
  by_cases h0 : n % p = 0
  · rw [h3 h0]; exact Nat.div_le_of_le_mul (by rwa [Nat.mul_comm] at h)
  · have : n / p < k := by
      rw [Nat.div_lt_iff_lt_mul hp]
      rcases Nat.lt_or_ge n (k * p) with h' | h'
      · exact h'
      · exfalso; apply h0
        have : n = k * p := le_antisymm h h'
        rw [this]; exact Nat.mul_mod_left _ _
    omega

/-- What the rounding of the working context does. -/
structure FixOk (p : ℕ) (v w : ℚ) : Prop where
  near : |w - v| ≤ 10 ^ (1 - p : ℤ) * v + 10 ^ (-99 - p : ℤ)
  rel : 1 ≤ v → |w - v| ≤ 10 ^ (1 - p : ℤ) * v
  ge_one : 1 ≤ v → 1 ≤ w
  le_one : v ≤ 1 → w ≤ 1

theorem FixOk.refl {p : ℕ} {v : ℚ} (h : 0 ≤ v) : FixOk p v v :=
  ⟨by rw [sub_self, abs_zero]; have := zp_pos (1 - p : ℤ); have := zp_pos (-99 - p : ℤ); positivity,
   fun _ => by rw [sub_self, abs_zero]; have := zp_pos (1 - p : ℤ); positivity, id, id⟩

theorem mv_ge_digits {c : ℕ} (h : c ≠ 0) (e : ℤ) : (10:ℚ) ^ ((numDigits c : ℤ) + e - 1) ≤ (c:ℚ) * 10 ^ e := by
  have h1 := pow_numDigits_le h
  have h2 : ((10:ℚ) ^ ((numDigits c : ℤ) - 1)) ≤ c := by
    have h3 : (numDigits c : ℤ) - 1 = ((numDigits c - 1 : ℕ) : ℤ) := by have := numDigits_pos c; omega
    rw [h3, zpow_natCast]; exact_mod_cast h1
  rw [show (numDigits c : ℤ) + e - 1 = ((numDigits c : ℤ) - 1) + e by ring, zp_add]
  exact mul_le_mul_of_nonneg_right h2 (zp_pos _).le

theorem mv_lt_digits (c : ℕ) (e : ℤ) : (c:ℚ) * 10 ^ e < (10:ℚ) ^ ((numDigits c : ℤ) + e) := by
  rw [zp_add]
  refine mul_lt_mul_of_pos_right ?_ (zp_pos _)
  rw [zpow_natCast]; exact_mod_cast lt_pow_numDigits c

/-- `c` scaled down by whole powers of ten. -/
theorem scale_zp {e m : ℤ} (h : e ≤ m) : ((10 ^ (m - e).toNat : ℕ) : ℚ) * 10 ^ e = 10 ^ m := by
  push_cast
  rw [zp_toNat (by omega), ← zp_add]; congr 1; ring

theorem fixHE_spec {p : ℕ} (hp : 1 ≤ p) (hp2 : p ≤ 100) (c : ℕ) (e : ℤ) :
    (∃ m, fixHE p c e = .ok m ∧ FixOk p ((c:ℚ) * 10 ^ e) (mv m)) ∨
    ((∃ er, fixHE p c e = .error er) ∧ (10:ℚ) ^ (100:ℤ) ≤ (c:ℚ) * 10 ^ e) := by
  unfold fixHE
  by_cases h0 : c = 0
  · left
    rw [if_pos h0]
    refine ⟨_, rfl, ?_⟩
    have : mv (0, min (max e (Emin - ↑p + 1)) Emax) = ((c:ℚ) * 10 ^ e) := by simp [mv, h0]
    rw [this]; exact FixOk.refl (by rw [h0]; simp)
  · rw [if_neg h0]
    dsimp only
    have hv0 : (0:ℚ) ≤ (c:ℚ) * 10 ^ e := mul_nonneg (Nat.cast_nonneg _) (zp_pos _).le
    have hge := mv_ge_digits h0 e
    have hlt := mv_lt_digits c e
    split
    · rename_i h1
      right
      refine ⟨⟨_, rfl⟩, le_trans (zp_le ?_) hge⟩
      simp only [Emax] at h1; omega
    · rename_i h1
      have hEmin : Emin = -100 := rfl
      have hEmax : Emax = 100 := rfl
      set em0 : ℤ := (numDigits c : ℤ) + e - p with hem0
      set em : ℤ := max em0 (Emin - p + 1) with hem
      by_cases h2 : e < em
      · rw [if_pos h2]
        set q := 10 ^ (em - e).toNat with hq
        have hqpos : 0 < q := by rw [hq]; positivity
        have hqe : (q:ℚ) * 10 ^ e = 10 ^ em := scale_zp h2.le
        set r := roundHalfEven c q with hr
        have hnear := roundHalfEven_near c q hqpos
        -- the rounded value
        have hval : |(r:ℚ) * 10 ^ em - (c:ℚ) * 10 ^ e| ≤ 10 ^ em := by
          have : (r:ℚ) * 10 ^ em - (c:ℚ) * 10 ^ e = ((r:ℚ) * q - c) * 10 ^ e := by rw [← hqe]; ring
          rw [this, abs_mul, abs_of_pos (zp_pos e), ← hqe]
          exact mul_le_mul_of_nonneg_right hnear (zp_pos e).le
        have hnear' : |(r:ℚ) * 10 ^ em - (c:ℚ) * 10 ^ e| ≤ 10 ^ (1 - p : ℤ) * ((c:ℚ) * 10 ^ e) + 10 ^ (-99 - p : ℤ) := by
          refine le_trans hval ?_
          rcases le_total em0 (Emin - p + 1) with hc | hc
          · rw [hem, max_eq_right hc, show (Emin - p + 1 : ℤ) = -99 - p by rw [hEmin]; ring]
            have := mul_nonneg (zp_pos (1 - p : ℤ)).le hv0
            linarith
          · rw [hem, max_eq_left hc]
            have h3 : (10:ℚ) ^ em0 ≤ 10 ^ (1 - p : ℤ) * ((c:ℚ) * 10 ^ e) := by
              calc (10:ℚ) ^ em0 = 10 ^ (1 - p : ℤ) * 10 ^ ((numDigits c : ℤ) + e - 1) := by rw [← zp_add]; congr 1; rw [hem0]; ring
                _ ≤ _ := mul_le_mul_of_nonneg_left hge (zp_pos _).le
            have := zp_pos (-99 - p : ℤ)
            linarith
        have hrel : 1 ≤ (c:ℚ) * 10 ^ e → |(r:ℚ) * 10 ^ em - (c:ℚ) * 10 ^ e| ≤ 10 ^ (1 - p : ℤ) * ((c:ℚ) * 10 ^ e) := by
          intro h3
          have h4 : (0:ℤ) < (numDigits c : ℤ) + e := by
            rw [← zp_lt_iff]; rw [zpow_zero]; linarith
          have h5 : em = em0 := by rw [hem]; apply max_eq_left; omega
          refine le_trans hval ?_
          rw [h5]
          calc (10:ℚ) ^ em0 = 10 ^ (1 - p : ℤ) * 10 ^ ((numDigits c : ℤ) + e - 1) := by rw [← zp_add]; congr 1; rw [hem0]; ring
            _ ≤ _ := mul_le_mul_of_nonneg_left hge (zp_pos _).le
        have hge1 : 1 ≤ (c:ℚ) * 10 ^ e → 1 ≤ (r:ℚ) * 10 ^ em := by
          intro h3
          rcases le_total em 0 with h4 | h4
          · have h5 : 10 ^ (-em).toNat * q ≤ c := by
              have h6 : ((10 ^ (-em).toNat * q : ℕ) : ℚ) * 10 ^ e = 1 := by
                push_cast
                rw [zp_toNat (by omega), mul_assoc, hqe, ← zp_add, neg_add_cancel, zpow_zero]
              have h7 : ((10 ^ (-em).toNat * q : ℕ) : ℚ) ≤ c := by
                refine le_of_mul_le_mul_right ?_ (zp_pos e)
                rw [h6]; exact h3
              exact_mod_cast h7
            have h8 : 10 ^ (-em).toNat ≤ r := roundHalfEven_ge hqpos h5
            have h9 : ((10:ℚ) ^ (-em)) ≤ r := by
              rw [← zp_toNat (by omega : 0 ≤ -em)]; exact_mod_cast h8
            calc (1:ℚ) = 10 ^ (-em) * 10 ^ em := by rw [← zp_add, neg_add_cancel, zpow_zero]
              _ ≤ _ := mul_le_mul_of_nonneg_right h9 (zp_pos _).le
          · have h5 : 1 * q ≤ c := by
              have h6 : (q:ℚ) ≤ c := by
                refine le_of_mul_le_mul_right ?_ (zp_pos e)
                rw [hqe]
                refine le_trans (zp_le ?_) hge
                have : em = em0 := by rw [hem]; apply max_eq_left; rcases le_total em0 (Emin - p + 1) with h | h
                                      · rw [hem, max_eq_right h] at h4; omega
                                      · exact h
                omega
              rw [one_mul]; exact_mod_cast h6
            have h8 : 1 ≤ r := roundHalfEven_ge hqpos h5
            have h9 : (1:ℚ) ≤ r := by exact_mod_cast h8
            have h10 : (1:ℚ) ≤ 10 ^ em := by rw [← zpow_zero (10:ℚ)]; exact zp_le h4
            nlinarith
        have hle1 : (c:ℚ) * 10 ^ e ≤ 1 → (r:ℚ) * 10 ^ em ≤ 1 := by
          intro h3
          have h4 : (numDigits c : ℤ) + e - 1 ≤ 0 := by
            rw [← zp_le_iff, zpow_zero]; linarith
          have h4' : em ≤ 0 := by rw [hem]; apply max_le <;> omega
          have h5 : c ≤ 10 ^ (-em).toNat * q := by
            have h6 : ((10 ^ (-em).toNat * q : ℕ) : ℚ) * 10 ^ e = 1 := by
              push_cast
              rw [zp_toNat (by omega), mul_assoc, hqe, ← zp_add, neg_add_cancel, zpow_zero]
            have h7 : (c:ℚ) ≤ ((10 ^ (-em).toNat * q : ℕ) : ℚ) := by
              refine le_of_mul_le_mul_right ?_ (zp_pos e)
              rw [h6]; exact h3
            exact_mod_cast h7
          have h8 : r ≤ 10 ^ (-em).toNat := roundHalfEven_le hqpos h5
          have h9 : (r:ℚ) ≤ 10 ^ (-em) := by
            rw [← zp_toNat (by omega : 0 ≤ -em)]; exact_mod_cast h8
          calc (r:ℚ) * 10 ^ em ≤ 10 ^ (-em) * 10 ^ em := mul_le_mul_of_nonneg_right h9 (zp_pos _).le
            _ = 1 := by rw [← zp_add, neg_add_cancel, zpow_zero]
        -- the digit that carries over
        have hcarry : numDigits r > p → r = 10 ^ p := by
          intro h3
          have h4 : 10 ^ p ≤ r := by
            by_contra h5
            have := (numDigits_le_iff (n := r) (k := p) hp).2 (by omega)
            omega
          have h5 : r ≤ 10 ^ p := by
            apply roundHalfEven_le hqpos
            have h6 : (c:ℚ) ≤ ((10 ^ p * q : ℕ) : ℚ) := by
              refine le_of_mul_le_mul_right ?_ (zp_pos e)
              push_cast
              rw [mul_assoc, hqe, ← zpow_natCast, ← zp_add]
              refine le_trans hlt.le (zp_le ?_)
              have := le_max_left em0 (Emin - p + 1)
              rw [← hem] at this
              omega
            exact_mod_cast h6
          omega
        have hm : ∀ m : Mag, m = (if numDigits r > p then (r / 10, em + 1) else (r, em)) → mv m = (r:ℚ) * 10 ^ em := by
          intro m hm
          rw [hm]
          split
          · rename_i h3
            rw [hcarry h3]
            have : 10 ^ p / 10 = 10 ^ (p - 1) := by
              conv_lhs => rw [show p = (p - 1) + 1 by omega, pow_succ]
              simp
            simp only [mv, this]
            push_cast
            rw [zp_add, zpow_one, show p = (p - 1) + 1 by omega, pow_succ]
            simp only [Nat.add_sub_cancel]
            ring
          · rfl
        obtain ⟨m, hmd⟩ : ∃ m : Mag, m = (if numDigits r > p then (r / 10, em + 1) else (r, em)) := ⟨_, rfl⟩
        rw [← hmd]
        by_cases h3 : m.2 > Emax - p + 1
        · rw [if_pos h3]
          right
          refine ⟨⟨_, rfl⟩, ?_⟩
          -- carry and top exponent
          have h4 : numDigits r > p := by
            by_contra h5
            rw [hmd, if_neg h5] at h3
            simp only at h3
            have : em ≤ Emax - p + 1 := by rw [hem]; apply max_le <;> omega
            omega
          have h6 := hcarry h4
          rw [hmd, if_pos h4] at h3
          simp only at h3
          have h7 : em = em0 := by
            rw [hem]; apply max_eq_left
            rcases le_total em0 (Emin - p + 1) with h | h
            · rw [hem, max_eq_right h] at h3; omega
            · exact h
          refine le_trans (zp_le ?_) hge
          omega
        · rw [if_neg h3]
          left
          refine ⟨_, rfl, ?_⟩
          rw [hm _ hmd]
          exact ⟨hnear', hrel, hge1, hle1⟩
      · rw [if_neg h2]
        left
        exact ⟨_, rfl, FixOk.refl hv0⟩

/-! ### Products -/

/-- The loops of the two power functions, for any description `P i k m` of "`m` is the `i`-th power after
`k` roundings" that survives a product. -/
theorem powUint_spec {p N : ℕ} {P : ℕ → ℕ → Mag → Prop} {Err : Prop} {b : Mag}
    (hmul : ∀ i j k l x y, P i k x → P j l y → i + j ≤ N → k + l + 1 ≤ 3 * N →
      (∃ m, mulHE p x y = .ok m ∧ P (i + j) (k + l + 1) m) ∨ ((∃ er, mulHE p x y = .error er) ∧ Err))
    (hb : P 1 2 b) (n : ℕ) (h1 : 1 ≤ n) (hN : n ≤ N) :
    (∃ m, powUint p b n = .ok m ∧ P n (3 * n - 1) m) ∨ ((∃ er, powUint p b n = .error er) ∧ Err) := by
  induction n using Nat.strong_induction_on with
  | _ n ih =>
    rw [powUint.eq_def]
    by_cases hn : n ≤ 1
    · rw [if_pos hn]
      have : n = 1 := by omega
      subst this
      exact Or.inl ⟨b, rfl, hb⟩
    · rw [if_neg hn]
      rcases ih (n / 2) (by omega) (by omega) (by omega) with ⟨r, hr, hPr⟩ | ⟨⟨er, hr⟩, he⟩
      · rw [hr]
        simp only [bind, Except.bind]
        rcases hmul _ _ _ _ r r hPr hPr (by omega) (by omega) with ⟨s, hs, hPs⟩ | ⟨⟨er, hs⟩, he⟩
        · rw [hs]
          simp only
          by_cases ho : n % 2 = 1
          · rw [if_pos ho]
            rcases hmul _ _ _ _ s b hPs hb (by omega) (by omega) with ⟨t, ht, hPt⟩ | ⟨⟨er, ht⟩, he⟩
            · left
              refine ⟨t, ht, ?_⟩
              have e1 : n / 2 + n / 2 + 1 = n := by omega
              have e2 : 3 * (n / 2) - 1 + (3 * (n / 2) - 1) + 1 + 2 + 1 = 3 * n - 1 := by omega
              rw [e1, e2] at hPt
              exact hPt
            · exact Or.inr ⟨⟨er, ht⟩, he⟩
          · rw [if_neg ho]
            left
            refine ⟨s, rfl, ?_⟩
            have e1 : n / 2 + n / 2 = n := by omega
            have e2 : 3 * (n / 2) - 1 + (3 * (n / 2) - 1) + 1 = 3 * n - 1 := by omega
            rw [e1, e2] at hPs
            exact hPs
        · rw [hs]
          exact Or.inr ⟨⟨er, rfl⟩, he⟩
      · rw [hr]
        exact Or.inr ⟨⟨er, rfl⟩, he⟩

theorem powMpd_spec {p N : ℕ} {P : ℕ → ℕ → Mag → Prop} {Err : Prop}
    (hmul : ∀ i j k l x y, P i k x → P j l y → i + j ≤ N → k + l + 1 ≤ 3 * N →
      (∃ m, mulHE p x y = .ok m ∧ P (i + j) (k + l + 1) m) ∨ ((∃ er, mulHE p x y = .error er) ∧ Err))
    (n : ℕ) : ∀ (r b : Mag) (i j : ℕ), P i (3 * i) r → 1 ≤ j → P j (3 * j - 1) b → i + j * n = N →
    (∃ m, powMpd p r b n = .ok m ∧ P N (3 * N) m) ∨ ((∃ er, powMpd p r b n = .error er) ∧ Err) := by
  induction n using Nat.strong_induction_on with
  | _ n ih =>
    intro r b i j hr hj hb hN
    rw [powMpd.eq_def]
    by_cases hn : n = 0
    · rw [if_pos hn]
      subst hn
      have : i = N := by omega
      subst this
      exact Or.inl ⟨r, rfl, hr⟩
    · rw [if_neg hn]
      have hnd : n = 2 * (n / 2) + n % 2 := (Nat.div_add_mod n 2).symm
      generalize hn2 : n / 2 = n2 at hnd ⊢
      have hstep : (∃ r', (if n % 2 = 1 then mulHE p r b else .ok r) = .ok r' ∧
            P (i + j * (n % 2)) (3 * (i + j * (n % 2))) r') ∨
          ((∃ er, (if n % 2 = 1 then mulHE p r b else .ok r) = .error er) ∧ Err) := by
        by_cases ho : n % 2 = 1
        · rw [if_pos ho, ho]
          have hle : i + j ≤ N := by rw [← hN]; exact Nat.add_le_add_left (Nat.le_mul_of_pos_right j (by omega)) i
          rcases hmul _ _ _ _ r b hr hb hle (by omega) with ⟨m, hm, hP⟩ | h
          · left
            refine ⟨m, hm, ?_⟩
            have e2 : 3 * i + (3 * j - 1) + 1 = 3 * (i + j * 1) := by omega
            rw [e2] at hP
            rw [Nat.mul_one]; rw [Nat.mul_one] at hP; exact hP
          · exact Or.inr h
        · rw [if_neg ho]
          have : n % 2 = 0 := by omega
          rw [this]
          exact Or.inl ⟨r, rfl, by simpa using hr⟩
      rcases hstep with ⟨r', hr', hP'⟩ | ⟨⟨er, hr'⟩, he⟩
      · rw [hr']
        simp only [Except.bind]
        by_cases h2 : n2 = 0
        · rw [if_pos h2]
          left
          refine ⟨r', rfl, ?_⟩
          have : i + j * (n % 2) = N := by rw [← hN]; congr 2; omega
          rw [← this]; exact hP'
        · rw [if_neg h2]
          have hNe : i + j * (n % 2) + (j + j) * n2 = N := by
            rw [← hN]; conv_rhs => rw [hnd]
            ring
          have hle : j + j ≤ N := by
            rw [← hNe]
            exact le_trans (Nat.le_mul_of_pos_right _ (by omega)) (Nat.le_add_left _ _)
          rcases hmul _ _ _ _ b b hb hb hle (by omega) with ⟨m, hm, hP⟩ | ⟨⟨er, hm⟩, he⟩
          · rw [hm]
            simp only
            have e2 : 3 * j - 1 + (3 * j - 1) + 1 = 3 * (j + j) - 1 := by omega
            rw [e2] at hP
            exact ih n2 (by omega) r' m _ _ hP' (by omega) hP hNe
          · rw [hm]
            exact Or.inr ⟨⟨er, rfl⟩, he⟩
      · rw [hr']
        exact Or.inr ⟨⟨er, rfl⟩, he⟩

/-- A base of at least one: every factor keeps its relative error. -/
structure Above (p : ℕ) (x : ℚ) (i k : ℕ) (m : Mag) : Prop where
  one : 1 ≤ mv m
  lo : (1 - 10 ^ (1 - p : ℤ)) ^ k * x ^ i ≤ mv m
  hi : mv m ≤ (1 + 10 ^ (1 - p : ℤ)) ^ k * x ^ i

/-- A base of at most one: the absolute errors add up. -/
structure Below (p : ℕ) (x : ℚ) (i k : ℕ) (m : Mag) : Prop where
  one : mv m ≤ 1
  near : |mv m - x ^ i| ≤ k * (10 ^ (1 - p : ℤ) + 10 ^ (-99 - p : ℤ))

theorem mulHE_spec {p : ℕ} (hp : 1 ≤ p) (hp2 : p ≤ 100) (x y : Mag) :
    (∃ m, mulHE p x y = .ok m ∧ FixOk p (mv x * mv y) (mv m)) ∨
    ((∃ er, mulHE p x y = .error er) ∧ (10:ℚ) ^ (100:ℤ) ≤ mv x * mv y) := by
  have h := fixHE_spec hp hp2 (x.1 * y.1) (x.2 + y.2)
  have hv : (((x.1 * y.1 : ℕ) : ℚ)) * 10 ^ (x.2 + y.2) = mv x * mv y := by
    unfold mv; push_cast; rw [zp_add]; ring
  rw [hv] at h
  exact h

theorem ulp_le_one {p : ℕ} (hp : 1 ≤ p) : (10:ℚ) ^ (1 - p : ℤ) ≤ 1 := by
  rw [← zpow_zero (10:ℚ)]; exact zp_le (by omega)

theorem FixOk.bounds {p : ℕ} {v w : ℚ} (h : FixOk p v w) (h1 : 1 ≤ v) :
    (1 - 10 ^ (1 - p : ℤ)) * v ≤ w ∧ w ≤ (1 + 10 ^ (1 - p : ℤ)) * v := by
  have := abs_le.1 (h.rel h1)
  constructor <;> linarith [this.1, this.2]

theorem Above.mul {p N : ℕ} (hp : 1 ≤ p) (hp2 : p ≤ 100) {x : ℚ} (hx : 1 ≤ x) {K : ℕ} (i j k l : ℕ)
    (a b : Mag) (ha : Above p x i k a) (hb : Above p x j l b) (hN : i + j ≤ N) (hK : k + l ≤ K) :
    (∃ m, mulHE p a b = .ok m ∧ Above p x (i + j) (k + l + 1) m) ∨
    ((∃ er, mulHE p a b = .error er) ∧ (10:ℚ) ^ (100:ℤ) ≤ (1 + 10 ^ (1 - p : ℤ)) ^ K * x ^ N) := by
  set u : ℚ := 10 ^ (1 - p : ℤ) with hu
  have hu0 : 0 < u := zp_pos _
  have hu1 : u ≤ 1 := ulp_le_one hp
  have h1 : 1 ≤ mv a * mv b := one_le_mul_of_one_le_of_one_le ha.one hb.one
  have hlo : (1 - u) ^ (k + l) * x ^ (i + j) ≤ mv a * mv b := by
    calc (1 - u) ^ (k + l) * x ^ (i + j) = ((1 - u) ^ k * x ^ i) * ((1 - u) ^ l * x ^ j) := by rw [pow_add, pow_add]; ring
      _ ≤ _ := mul_le_mul ha.lo hb.lo (by have : 0 ≤ 1 - u := by linarith
                                          positivity) (mv_nonneg a)
  have hhi : mv a * mv b ≤ (1 + u) ^ (k + l) * x ^ (i + j) := by
    calc mv a * mv b ≤ ((1 + u) ^ k * x ^ i) * ((1 + u) ^ l * x ^ j) := mul_le_mul ha.hi hb.hi (mv_nonneg b) (by positivity)
      _ = _ := by rw [pow_add, pow_add]; ring
  rcases mulHE_spec hp hp2 a b with ⟨m, hm, hf⟩ | ⟨he, hbig⟩
  · left
    obtain ⟨h2, h3⟩ := hf.bounds h1
    refine ⟨m, hm, hf.ge_one h1, ?_, ?_⟩
    · rw [pow_succ]
      calc (1 - u) ^ (k + l) * (1 - u) * x ^ (i + j) = (1 - u) * ((1 - u) ^ (k + l) * x ^ (i + j)) := by ring
        _ ≤ (1 - u) * (mv a * mv b) := mul_le_mul_of_nonneg_left hlo (by linarith)
        _ ≤ _ := h2
    · rw [pow_succ]
      calc mv m ≤ (1 + u) * (mv a * mv b) := h3
        _ ≤ (1 + u) * ((1 + u) ^ (k + l) * x ^ (i + j)) := mul_le_mul_of_nonneg_left hhi (by linarith)
        _ = _ := by ring
  · right
    refine ⟨he, le_trans hbig (le_trans hhi ?_)⟩
    exact mul_le_mul (pow_le_pow_right₀ (by linarith) hK) (pow_le_pow_right₀ hx hN) (by positivity) (by positivity)

theorem Below.mul {p : ℕ} (hp : 1 ≤ p) (hp2 : p ≤ 100) {x : ℚ} (hx0 : 0 ≤ x) (hx : x ≤ 1) (i j k l : ℕ)
    (a b : Mag) (ha : Below p x i k a) (hb : Below p x j l b) :
    ∃ m, mulHE p a b = .ok m ∧ Below p x (i + j) (k + l + 1) m := by
  set δ : ℚ := 10 ^ (1 - p : ℤ) + 10 ^ (-99 - p : ℤ) with hδ
  have ha0 := mv_nonneg a
  have hb0 := mv_nonneg b
  have h1 : mv a * mv b ≤ 1 := mul_le_one₀ ha.one hb0 hb.one
  have h0 : 0 ≤ mv a * mv b := mul_nonneg ha0 hb0
  rcases mulHE_spec hp hp2 a b with ⟨m, hm, hf⟩ | ⟨_, hbig⟩
  · refine ⟨m, hm, hf.le_one h1, ?_⟩
    have h2 : |mv m - mv a * mv b| ≤ δ := by
      refine le_trans hf.near ?_
      have := mul_le_mul_of_nonneg_left h1 (zp_pos (1 - p : ℤ)).le
      rw [hδ]; linarith
    have h3 : |mv a * mv b - x ^ (i + j)| ≤ (k + l) * δ := by
      have e : mv a * mv b - x ^ (i + j) = (mv a - x ^ i) * mv b + x ^ i * (mv b - x ^ j) := by rw [pow_add]; ring
      rw [e]
      refine le_trans (abs_add_le _ _) ?_
      rw [abs_mul, abs_mul, abs_of_nonneg hb0, abs_of_nonneg (pow_nonneg hx0 i)]
      have hxi : x ^ i ≤ 1 := pow_le_one₀ hx0 hx
      have t1 : |mv a - x ^ i| * mv b ≤ k * δ := le_trans (mul_le_of_le_one_right (abs_nonneg _) hb.one) ha.near
      have t2 : x ^ i * |mv b - x ^ j| ≤ l * δ := le_trans (mul_le_of_le_one_left (abs_nonneg _) hxi) hb.near
      linarith
    have h4 := abs_add_le (mv m - mv a * mv b) (mv a * mv b - x ^ (i + j))
    have e : mv m - mv a * mv b + (mv a * mv b - x ^ (i + j)) = mv m - x ^ (i + j) := by ring
    rw [e] at h4
    push_cast
    linarith
  · exfalso
    have : (1:ℚ) < 10 ^ (100:ℤ) := by rw [← zpow_zero (10:ℚ)]; exact zp_lt (by norm_num)
    linarith

/-! ### The reciprocal -/

/-- `recipHE` first divides to `p` or more digits with a sticky last one, then rounds. -/
theorem recipHE_spec {p : ℕ} (hp : 1 ≤ p) (hp2 : p ≤ 100) {b : Mag} (hb : b.1 ≠ 0) :
    ∃ z : ℚ, 0 ≤ z ∧ |z - (mv b)⁻¹| ≤ 10 ^ (-p : ℤ) * (mv b)⁻¹ ∧ (1 ≤ (mv b)⁻¹ → 1 ≤ z) ∧
      ((mv b)⁻¹ ≤ 1 → z ≤ 1) ∧
      ((∃ m, recipHE p b = .ok m ∧ FixOk p z (mv m)) ∨
       ((∃ er, recipHE p b = .error er) ∧ (10:ℚ) ^ (100:ℤ) ≤ z)) := by
  unfold recipHE
  dsimp only
  set sh := numDigits b.1 + p with hsh
  set n := 10 ^ sh with hn
  set c := n / b.1 with hc
  set e : ℤ := -b.2 - sh with he
  have hb0 : 0 < b.1 := Nat.pos_of_ne_zero hb
  have hbq : (0:ℚ) < (b.1 : ℚ) := by exact_mod_cast hb0
  have hX : (mv b)⁻¹ = (n:ℚ) / b.1 * 10 ^ e := by
    unfold mv
    rw [mul_inv, ← zpow_neg, he, zp_sub, hn]
    push_cast
    rw [zpow_natCast]
    field_simp
  have hdm : (n:ℚ) = b.1 * c + (n % b.1 : ℕ) := by exact_mod_cast (Nat.div_add_mod n b.1).symm
  have hmod : ((n % b.1 : ℕ) : ℚ) < b.1 := by exact_mod_cast Nat.mod_lt n hb0
  have hmod0 : (0:ℚ) ≤ ((n % b.1 : ℕ) : ℚ) := Nat.cast_nonneg _
  have hQlo : (c:ℚ) ≤ (n:ℚ) / b.1 := by rw [le_div_iff₀ hbq]; nlinarith
  have hQhi : (n:ℚ) / b.1 < c + 1 := by rw [div_lt_iff₀ hbq]; nlinarith
  have hbig : (10:ℚ) ^ (p:ℤ) ≤ (n:ℚ) / b.1 := by
    rw [le_div_iff₀ hbq, hn, hsh, zpow_natCast]
    push_cast
    rw [pow_add, mul_comm]
    have : (b.1:ℚ) ≤ 10 ^ numDigits b.1 := by exact_mod_cast (lt_pow_numDigits b.1).le
    exact mul_le_mul_of_nonneg_right this (by positivity)
  -- any whole number next to the quotient will do
  have key : ∀ d : ℕ, ((d:ℚ) = (n:ℚ) / b.1 ∨ (n % b.1 ≠ 0 ∧ (d = c ∨ d = c + 1))) →
      0 ≤ (d:ℚ) * 10 ^ e ∧ |(d:ℚ) * 10 ^ e - (mv b)⁻¹| ≤ 10 ^ (-p : ℤ) * (mv b)⁻¹ ∧
      (1 ≤ (mv b)⁻¹ → 1 ≤ (d:ℚ) * 10 ^ e) ∧ ((mv b)⁻¹ ≤ 1 → (d:ℚ) * 10 ^ e ≤ 1) := by
    intro d hd
    have hnear : |(d:ℚ) - (n:ℚ) / b.1| ≤ 1 := by
      rcases hd with hd | ⟨_, hd | hd⟩
      · rw [hd]; simp
      · rw [hd, abs_le]; constructor <;> linarith
      · rw [hd, abs_le]; push_cast; constructor <;> linarith
    refine ⟨mul_nonneg (Nat.cast_nonneg _) (zp_pos _).le, ?_, ?_, ?_⟩
    · rw [hX, ← sub_mul, abs_mul, abs_of_pos (zp_pos e), ← mul_assoc]
      refine mul_le_mul_of_nonneg_right (le_trans hnear ?_) (zp_pos _).le
      calc (1:ℚ) = 10 ^ (-p:ℤ) * 10 ^ (p:ℤ) := by rw [← zp_add, neg_add_cancel, zpow_zero]
        _ ≤ _ := mul_le_mul_of_nonneg_left hbig (zp_pos _).le
    · intro h1
      rcases hd with hd | ⟨_, hd⟩
      · rw [hd, ← hX]; exact h1
      · have hcd : (c:ℚ) ≤ d := by rcases hd with hd | hd <;> rw [hd] <;> push_cast <;> linarith
        refine le_trans ?_ (mul_le_mul_of_nonneg_right hcd (zp_pos e).le)
        rcases le_total e 0 with h0 | h0
        · have h2 : ((10 ^ (-e).toNat : ℕ) : ℚ) ≤ (n:ℚ) / b.1 := by
            push_cast
            rw [zp_toNat (by omega)]
            refine le_of_mul_le_mul_right ?_ (zp_pos e)
            rw [← zp_add, neg_add_cancel, zpow_zero, ← hX]; exact h1
          have h3 : 10 ^ (-e).toNat ≤ c := by
            have : ((10 ^ (-e).toNat : ℕ) : ℚ) < ((c + 1 : ℕ) : ℚ) := by push_cast; push_cast at h2; linarith
            have : 10 ^ (-e).toNat < c + 1 := by exact_mod_cast this
            omega
          have h4 : ((10:ℚ) ^ (-e)) ≤ c := by
            rw [← zp_toNat (by omega : 0 ≤ -e)]; exact_mod_cast h3
          calc (1:ℚ) = 10 ^ (-e) * 10 ^ e := by rw [← zp_add, neg_add_cancel, zpow_zero]
            _ ≤ _ := mul_le_mul_of_nonneg_right h4 (zp_pos _).le
        · have h2 : 1 ≤ c := by
            by_contra h3
            have : c = 0 := Nat.eq_zero_of_not_pos h3
            rw [this] at hQhi
            have h4 : (1:ℚ) ≤ 10 ^ (p:ℤ) := by rw [← zpow_zero (10:ℚ)]; exact zp_le (by omega)
            norm_num at hQhi
            linarith
          have h3 : (1:ℚ) ≤ c := by exact_mod_cast h2
          have h4 : (1:ℚ) ≤ 10 ^ e := by rw [← zpow_zero (10:ℚ)]; exact zp_le h0
          exact one_le_mul_of_one_le_of_one_le h3 h4
    · intro h1
      rcases hd with hd | ⟨hne, hd⟩
      · rw [hd, ← hX]; exact h1
      · have hcd : (d:ℚ) ≤ ((c + 1 : ℕ) : ℚ) := by rcases hd with hd | hd <;> rw [hd] <;> push_cast <;> linarith
        refine le_trans (mul_le_mul_of_nonneg_right hcd (zp_pos e).le) ?_
        have hlt : (c:ℚ) < (n:ℚ) / b.1 := by
          rw [lt_div_iff₀ hbq]
          have : (0:ℚ) < ((n % b.1 : ℕ) : ℚ) := by exact_mod_cast Nat.pos_of_ne_zero hne
          nlinarith
        have hpe : (p:ℤ) + e ≤ 0 := by
          rw [← zp_le_iff, zpow_zero, zp_add]
          refine le_trans (mul_le_mul_of_nonneg_right hbig (zp_pos e).le) ?_
          rw [← hX]; exact h1
        have h0 : e ≤ 0 := by omega
        have h2 : (n:ℚ) / b.1 ≤ 10 ^ (-e) := by
          refine le_of_mul_le_mul_right ?_ (zp_pos e)
          rw [← zp_add, neg_add_cancel, zpow_zero, ← hX]; exact h1
        have h3 : c < 10 ^ (-e).toNat := by
          have : (c:ℚ) < ((10 ^ (-e).toNat : ℕ) : ℚ) := by
            push_cast; rw [zp_toNat (by omega)]; linarith
          exact_mod_cast this
        have h4 : ((c + 1 : ℕ) : ℚ) ≤ 10 ^ (-e) := by
          rw [← zp_toNat (by omega : 0 ≤ -e)]; exact_mod_cast h3
        calc ((c + 1 : ℕ) : ℚ) * 10 ^ e ≤ 10 ^ (-e) * 10 ^ e := mul_le_mul_of_nonneg_right h4 (zp_pos _).le
          _ = 1 := by rw [← zp_add, neg_add_cancel, zpow_zero]
  by_cases hr : n % b.1 ≠ 0
  · rw [if_pos hr]
    obtain ⟨k0, k1, k2, k3⟩ := key (if c % 5 = 0 then c + 1 else c) (Or.inr ⟨hr, by split <;> simp⟩)
    exact ⟨_, k0, k1, k2, k3, fixHE_spec hp hp2 _ _⟩
  · rw [if_neg hr]
    have h0 : n % b.1 = 0 := by simpa using hr
    have hcq : (c:ℚ) = (n:ℚ) / b.1 := by
      rw [eq_div_iff hbq.ne', hdm, h0]; push_cast; ring
    obtain ⟨k0, k1, k2, k3⟩ := key c (Or.inl hcq)
    have hs := stripZeros_val (numDigits c) c e (-b.2)
    have hf := fixHE_spec hp hp2 (stripZeros (numDigits c) c e (-b.2)).1 (stripZeros (numDigits c) c e (-b.2)).2
    rw [hs] at hf
    exact ⟨_, k0, k1, k2, k3, hf⟩

/-! ### All factors together -/

theorem Above.mono {p : ℕ} (hp : 1 ≤ p) {x : ℚ} (hx : 0 ≤ x) {i k l : ℕ} {m : Mag} (h : Above p x i k m) (hkl : k ≤ l) :
    Above p x i l m := by
  have hu0 : (0:ℚ) < 10 ^ (1 - p : ℤ) := zp_pos _
  have hu1 := ulp_le_one hp
  refine ⟨h.one, le_trans ?_ h.lo, le_trans h.hi ?_⟩
  · exact mul_le_mul_of_nonneg_right (pow_le_pow_of_le_one (by linarith) (by linarith) hkl) (by positivity)
  · exact mul_le_mul_of_nonneg_right (pow_le_pow_right₀ (by linarith) hkl) (by positivity)

theorem Below.mono {p : ℕ} {x : ℚ} {i k l : ℕ} {m : Mag} (h : Below p x i k m) (hkl : k ≤ l) :
    Below p x i l m := by
  refine ⟨h.one, le_trans h.near ?_⟩
  have := zp_pos (1 - p : ℤ)
  have := zp_pos (-99 - p : ℤ)
  exact mul_le_mul_of_nonneg_right (by exact_mod_cast hkl) (by positivity)

theorem one_add_pow_le {u : ℚ} (h0 : 0 ≤ u) (h1 : u ≤ 1) (k : ℕ) (h : (k:ℚ) * u ≤ 1 / 2) :
    (1 + u) ^ k ≤ 1 + 2 * (k * u) := by
  have hB : 1 - (k:ℚ) * u ≤ (1 - u) ^ k := by
    have := one_add_mul_le_pow (a := -u) (by linarith) k
    have e : (1:ℚ) + -u = 1 - u := by ring
    rw [e] at this; linarith
  have hprod : (1 + u) ^ k * (1 - u) ^ k ≤ 1 := by
    rw [← mul_pow]
    exact pow_le_one₀ (by nlinarith) (by nlinarith)
  have hpos : (0:ℚ) < (1 + u) ^ k := by positivity
  set y := (1 + u) ^ k with hy
  set z := (k:ℚ) * u with hz
  have hz0 : 0 ≤ z := by rw [hz]; positivity
  have h2 : y * (1 - z) ≤ 1 := le_trans (mul_le_mul_of_nonneg_left hB hpos.le) hprod
  nlinarith

theorem one_sub_pow_ge {u : ℚ} (h1 : u ≤ 1) (k : ℕ) : 1 - (k:ℚ) * u ≤ (1 - u) ^ k := by
  have := one_add_mul_le_pow (a := -u) (by linarith) k
  have e : (1:ℚ) + -u = 1 - u := by ring
  rw [e] at this; linarith

/-- The power loop on a base that is close to `x`. -/
theorem loop_spec {p N : ℕ} (hp : 62 ≤ p) (hp2 : p ≤ 100) (hN : 1 ≤ N) (hNu : (N:ℚ) * 10 ^ (1 - p : ℤ) ≤ 10 ^ (-61 : ℤ))
    {x : ℚ} (hx0 : 0 < x) {t : Mag} (hA : 1 ≤ x → Above p x 1 2 t) (hB : x ≤ 1 → Below p x 1 2 t) :
    (∃ m, (if N < 2 ^ 64 then powUint p t N else powMpd p (1, 0) t N) = .ok m ∧
      |mv m - x ^ N| ≤ 10 ^ (-60:ℤ) * max 1 (x ^ N)) ∨
    ((∃ er, (if N < 2 ^ 64 then powUint p t N else powMpd p (1, 0) t N) = .error er) ∧ (10:ℚ) ^ (99:ℤ) < x ^ N) := by
  have hp1 : 1 ≤ p := by omega
  set u : ℚ := 10 ^ (1 - p : ℤ) with hu
  have hu0 : 0 < u := zp_pos _
  have hu1 : u ≤ 1 := ulp_le_one hp1
  have h61 : (10:ℚ) ^ (-60:ℤ) = 10 * 10 ^ (-61:ℤ) := by
    rw [show (-60:ℤ) = 1 + -61 by norm_num, zp_add, zpow_one]
  have hsmall : (10:ℚ) ^ (-61:ℤ) ≤ 1 / 100 := by
    have : (10:ℚ) ^ (-61:ℤ) ≤ 10 ^ (-2:ℤ) := zp_le (by norm_num)
    exact le_trans this (by norm_num)
  have h61p := zp_pos (-61)
  have h99 : (10:ℚ) ^ (100:ℤ) = 10 * 10 ^ (99:ℤ) := by
    rw [show (100:ℤ) = 1 + 99 by norm_num, zp_add, zpow_one]
  have h99p := zp_pos 99
  rw [h61]
  generalize (10:ℚ) ^ (-61:ℤ) = s at *
  have hmvone : mv (1, 0) = 1 := by simp [mv]
  have hxN : 0 < x ^ N := by positivity
  rcases le_total 1 x with hx | hx
  · -- a base of at least one
    have hK : (1 + u) ^ (3 * N) ≤ 1 + 6 * s := by
      have := one_add_pow_le hu0.le hu1 (3 * N) (by push_cast; linarith)
      push_cast at this
      linarith
    have hL : 1 - 3 * s ≤ (1 - u) ^ (3 * N) := by
      have := one_sub_pow_ge hu1 (3 * N)
      push_cast at this
      linarith
    have hmul : ∀ i j k l a b, Above p x i k a → Above p x j l b → i + j ≤ N → k + l + 1 ≤ 3 * N →
        (∃ m, mulHE p a b = .ok m ∧ Above p x (i + j) (k + l + 1) m) ∨
        ((∃ er, mulHE p a b = .error er) ∧ (10:ℚ) ^ (100:ℤ) ≤ (1 + u) ^ (3 * N) * x ^ N) :=
      fun i j k l a b ha hb h1 h2 => Above.mul hp1 hp2 hx i j k l a b ha hb h1 (by omega)
    have hall : (∃ m, (if N < 2 ^ 64 then powUint p t N else powMpd p (1, 0) t N) = .ok m ∧ Above p x N (3 * N) m) ∨
        ((∃ er, (if N < 2 ^ 64 then powUint p t N else powMpd p (1, 0) t N) = .error er) ∧
          (10:ℚ) ^ (100:ℤ) ≤ (1 + u) ^ (3 * N) * x ^ N) := by
      by_cases hb : N < 2 ^ 64
      · rw [if_pos hb]
        rcases powUint_spec hmul (hA hx) N hN (le_refl _) with ⟨m, hm, hP⟩ | h
        · exact Or.inl ⟨m, hm, hP.mono hp1 hx0.le (by omega)⟩
        · exact Or.inr h
      · rw [if_neg hb]
        refine powMpd_spec hmul N (1, 0) t 0 1 ⟨by rw [hmvone], ?_, ?_⟩ (le_refl _) (hA hx) (by omega)
        · rw [hmvone]; norm_num
        · rw [hmvone]; norm_num
    have hq1 : 1 ≤ x ^ N := one_le_pow₀ hx
    rcases hall with ⟨m, hm, hP⟩ | ⟨he, hbig⟩
    · left
      refine ⟨m, hm, ?_⟩
      rw [max_eq_right hq1, abs_le]
      have := hP.lo
      have := hP.hi
      have := mul_le_mul_of_nonneg_right hK hxN.le
      have := mul_le_mul_of_nonneg_right hL hxN.le
      have := mul_pos h61p hxN
      constructor <;> nlinarith
    · right
      refine ⟨he, ?_⟩
      have h1 : (1 + u) ^ (3 * N) * x ^ N ≤ 2 * x ^ N :=
        mul_le_mul_of_nonneg_right (by linarith) hxN.le
      rw [h99] at hbig
      generalize (10:ℚ) ^ (99:ℤ) = w at *
      linarith
  · -- a base of at most one
    left
    have hmul : ∀ i j k l a b, Below p x i k a → Below p x j l b → i + j ≤ N → k + l + 1 ≤ 3 * N →
        (∃ m, mulHE p a b = .ok m ∧ Below p x (i + j) (k + l + 1) m) ∨
        ((∃ er, mulHE p a b = .error er) ∧ False) :=
      fun i j k l a b ha hb _ _ => Or.inl (Below.mul hp1 hp2 hx0.le hx i j k l a b ha hb)
    have hall : ∃ m, (if N < 2 ^ 64 then powUint p t N else powMpd p (1, 0) t N) = .ok m ∧ Below p x N (3 * N) m := by
      by_cases hb : N < 2 ^ 64
      · rw [if_pos hb]
        rcases powUint_spec hmul (hB hx) N hN (le_refl _) with ⟨m, hm, hP⟩ | ⟨_, h⟩
        · exact ⟨m, hm, hP.mono (by omega)⟩
        · exact h.elim
      · rw [if_neg hb]
        rcases powMpd_spec hmul N (1, 0) t 0 1 ⟨by rw [hmvone], by rw [hmvone]; simp⟩ (le_refl _) (hB hx) (by omega) with h | ⟨_, h⟩
        · exact h
        · exact h.elim
    obtain ⟨m, hm, hP⟩ := hall
    refine ⟨m, hm, le_trans hP.near ?_⟩
    have hq1 : x ^ N ≤ 1 := pow_le_one₀ hx0.le hx
    rw [max_eq_left hq1, mul_one]
    have hη : (10:ℚ) ^ (-99 - p : ℤ) ≤ u := zp_le (by omega)
    have hN0 : (0:ℚ) ≤ N := Nat.cast_nonneg _
    have := mul_le_mul_of_nonneg_left hη hN0
    push_cast
    nlinarith

theorem recip_above {p : ℕ} (hp : 62 ≤ p) (hp2 : p ≤ 100) {b : Mag} (hb : b.1 ≠ 0) (hlo : (10:ℚ) ^ (-30:ℤ) ≤ mv b) :
    ∃ t, recipHE p b = .ok t ∧ (1 ≤ (mv b)⁻¹ → Above p (mv b)⁻¹ 1 2 t) ∧ ((mv b)⁻¹ ≤ 1 → Below p (mv b)⁻¹ 1 2 t) := by
  have hp1 : 1 ≤ p := by omega
  obtain ⟨z, hz0, hz1, hz2, hz3, hz4⟩ := recipHE_spec hp1 hp2 hb
  have hX0 : 0 < (mv b)⁻¹ := inv_pos.2 (lt_of_lt_of_le (zp_pos _) hlo)
  have hXhi : (mv b)⁻¹ ≤ 10 ^ (30:ℤ) := by
    rw [inv_le_comm₀ (lt_of_lt_of_le (zp_pos _) hlo) (zp_pos _), ← zpow_neg]; exact hlo
  set X := (mv b)⁻¹ with hX
  set u : ℚ := 10 ^ (1 - p : ℤ) with hu
  have hu0 : 0 < u := zp_pos _
  have hu1 : u ≤ 1 := ulp_le_one hp1
  have hpu : (10:ℚ) ^ (-p : ℤ) ≤ u := zp_le (by omega)
  have hz1' : |z - X| ≤ u * X := le_trans hz1 (mul_le_mul_of_nonneg_right hpu hX0.le)
  have hzz := abs_le.1 hz1'
  rcases hz4 with ⟨m, hm, hf⟩ | ⟨_, hbig⟩
  · refine ⟨m, hm, fun h1 => ?_, fun h1 => ?_⟩
    · obtain ⟨f1, f2⟩ := hf.bounds (hz2 h1)
      refine ⟨hf.ge_one (hz2 h1), ?_, ?_⟩
      · rw [pow_one]
        calc (1 - u) ^ 2 * X = (1 - u) * ((1 - u) * X) := by ring
          _ ≤ (1 - u) * z := mul_le_mul_of_nonneg_left (by linarith [hzz.1]) (by linarith)
          _ ≤ _ := f1
      · rw [pow_one]
        calc mv m ≤ (1 + u) * z := f2
          _ ≤ (1 + u) * ((1 + u) * X) := mul_le_mul_of_nonneg_left (by linarith [hzz.2]) (by linarith)
          _ = _ := by ring
    · refine ⟨hf.le_one (hz3 h1), ?_⟩
      rw [pow_one]
      have h2 := hf.near
      have h3 : u * z ≤ u := mul_le_of_le_one_right hu0.le (hz3 h1)
      have h4 : u * X ≤ u := mul_le_of_le_one_right hu0.le h1
      have h5 := abs_add_le (mv m - z) (z - X)
      have e : mv m - z + (z - X) = mv m - X := by ring
      rw [e] at h5
      have := zp_pos (-99 - p : ℤ)
      push_cast
      rw [← hu] at h2 ⊢
      linarith
  · exfalso
    have h1 : z ≤ 2 * X := by nlinarith [hzz.2]
    have h2 : (10:ℚ) ^ (100:ℤ) = 10 ^ (70:ℤ) * 10 ^ (30:ℤ) := by rw [← zp_add]; norm_num
    have h3 : (10:ℚ) ^ (1:ℤ) ≤ 10 ^ (70:ℤ) := zp_le (by norm_num)
    rw [zpow_one] at h3
    have := zp_pos 30
    nlinarith

/-- A power to a whole exponent is right to sixty places, relative to one or to itself. -/
theorem powInt_spec {b : Mag} (hb : b.1 ≠ 0) (hlo : (10:ℚ) ^ (-30:ℤ) ≤ mv b) {n : ℤ} (hn : n ≠ 0)
    (hd : numDigits n.natAbs ≤ 36) :
    (∃ m, powInt b n = .ok m ∧ |mv m - mv b ^ n| ≤ 10 ^ (-60:ℤ) * max 1 (mv b ^ n)) ∨
    ((∃ er, powInt b n = .error er) ∧ (10:ℚ) ^ (99:ℤ) < mv b ^ n) := by
  have hb0 : 0 < mv b := lt_of_lt_of_le (zp_pos _) hlo
  have hN : 1 ≤ n.natAbs := by omega
  have hNd := lt_pow_numDigits n.natAbs
  have hNq : (n.natAbs : ℚ) < 10 ^ (numDigits n.natAbs : ℤ) := by
    rw [zpow_natCast]; exact_mod_cast hNd
  unfold powInt
  dsimp only
  generalize numDigits n.natAbs = d at hd hNq
  have hbound : ∀ p : ℕ, 62 + d ≤ p → (n.natAbs : ℚ) * 10 ^ (1 - p : ℤ) ≤ 10 ^ (-61 : ℤ) := by
    intro p hp
    calc (n.natAbs : ℚ) * 10 ^ (1 - p : ℤ) ≤ 10 ^ (d:ℤ) * 10 ^ (1 - p : ℤ) := mul_le_mul_of_nonneg_right hNq.le (zp_pos _).le
      _ = 10 ^ (d + (1 - p) : ℤ) := by rw [zp_add]
      _ ≤ _ := zp_le (by omega)
  by_cases hneg : n < 0
  · rw [if_pos hneg]
    have hq : mv b ^ n = (mv b)⁻¹ ^ n.natAbs := by
      rw [inv_pow, ← zpow_natCast, ← zpow_neg]; congr 1; omega
    obtain ⟨t, ht, hA, hB⟩ := recip_above (p := 60 + d + 2 + 1) (by omega) (by omega) hb hlo
    rw [ht, hq]
    exact loop_spec (by omega) (by omega) hN (hbound _ (by omega)) (inv_pos.2 hb0) hA hB
  · rw [if_neg hneg]
    have hq : mv b ^ n = mv b ^ n.natAbs := by rw [← zpow_natCast]; congr 1; omega
    rw [hq]
    have hu := zp_pos (1 - (60 + d + 2 : ℕ) : ℤ)
    have hu1 := ulp_le_one (p := 60 + d + 2) (by omega)
    have hη := zp_pos (-99 - (60 + d + 2 : ℕ) : ℤ)
    refine loop_spec (by omega) (by omega) hN (hbound _ (by omega)) hb0 (fun h => ⟨h, ?_, ?_⟩) (fun h => ⟨h, ?_⟩)
    · rw [pow_one]
      refine mul_le_of_le_one_left hb0.le (pow_le_one₀ (by linarith) (by linarith))
    · rw [pow_one]
      refine le_mul_of_one_le_left hb0.le (one_le_pow₀ (by linarith))
    · rw [pow_one, sub_self, abs_zero]; positivity

end Verif
