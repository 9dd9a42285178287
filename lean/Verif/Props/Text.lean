import Verif.Spec.Text
import Verif.Props.Decimal
import Verif.Model.Keys
/-! # C81: how decimals are printed -/
namespace Verif
open Dec

/-- The digits with the point put anywhere are the plain text of the number they then denote. -/
theorem strBody_plain {c : ℕ} (hc : c % 10 ≠ 0) (dp : ℤ) :
    Spec.PlainText (strBody (natToStr c) dp) ((c : ℚ) * 10 ^ (dp - numDigits c)) := by
  have hc0 : 0 < c := by omega
  have hdd := natToStr_all_digits c
  have hne := natToStr_ne_nil c
  have hlast : (natToStr c).getLast? ≠ some '0' := by
    by_cases h : 10 ≤ c
    · rw [natToStr_step h, List.getLast?_append]
      have : c % 10 < 10 := Nat.mod_lt _ (by omega)
      simp only [List.getLast?_singleton, Option.some_or, ne_eq, Option.some.injEq]
      intro h1
      generalize c % 10 = r at *
      have := digitVal_digitChar this
      rw [h1] at this
      simp [digitVal?] at this
      omega
    · rw [natToStr_small (by omega)]
      simp only [List.getLast?_singleton, ne_eq, Option.some.injEq]
      intro h1
      have := digitVal_digitChar (n := c) (by omega)
      rw [h1] at this
      simp [digitVal?] at this
      omega
  unfold strBody
  by_cases h1 : dp ≤ 0
  · rw [if_pos h1]
    refine ⟨0, List.replicate (-dp).toNat '0' ++ natToStr c, ?_, ?_, ?_, ?_⟩
    · intro x hx
      rcases List.mem_append.1 hx with h | h
      · exact zeros_digit _ x h
      · exact hdd x h
    · rw [List.getLast?_append]
      obtain ⟨l, hl⟩ : ∃ l, (natToStr c).getLast? = some l := ⟨_, List.getLast?_eq_some_getLast hne⟩
      rw [hl] at hlast ⊢
      simpa using hlast
    · rw [strToNat_append, strToNat_replicate_zero, strToNat_natToStr]
      simp only [Nat.zero_mul, Nat.zero_add, Nat.cast_zero, zero_add, List.length_append, List.length_replicate]
      rw [div_eq_mul_inv, ← zpow_natCast, ← zpow_neg]
      congr 2
      simp only [numDigits]
      push_cast
      omega
    · rw [if_neg (by simp [hne])]
      rfl
  · rw [if_neg h1]
    by_cases h2 : dp ≥ (natToStr c).length
    · rw [if_pos h2]
      refine ⟨c * 10 ^ (dp - (natToStr c).length).toNat, [], by simp, by simp, ?_, ?_⟩
      · simp only [strToNat, List.foldl_nil, Nat.cast_zero, zero_div, add_zero]
        push_cast
        rw [zp_toNat (by omega)]
        rfl
      · simp only [if_true, List.append_nil]
        have e1 : strToNat (natToStr c ++ List.replicate (dp - (natToStr c).length).toNat '0')
            = c * 10 ^ (dp - (natToStr c).length).toNat := by
          rw [strToNat_append, strToNat_replicate_zero, strToNat_natToStr]; simp
        rw [← e1, natToStr_strToNat (by simp [hne])]
        · intro x hx
          rcases List.mem_append.1 hx with h | h
          · exact hdd x h
          · exact zeros_digit _ x h
        · left
          rw [head?_append_ne hne]
          exact natToStr_head hc0
    · rw [if_neg h2]
      have hdp : 0 < dp.toNat := by omega
      have hlt : dp.toNat < (natToStr c).length := by omega
      have hdrop : (natToStr c).drop dp.toNat ≠ [] := by
        intro h
        have := congrArg List.length h
        simp only [List.length_drop, List.length_nil] at this
        omega
      have htake : (natToStr c).take dp.toNat ≠ [] := by
        intro h
        have := congrArg List.length h
        simp only [List.length_take, List.length_nil] at this
        omega
      refine ⟨strToNat ((natToStr c).take dp.toNat), (natToStr c).drop dp.toNat,
        fun x hx => hdd x (List.mem_of_mem_drop hx), ?_, ?_, ?_⟩
      · rw [List.getLast?_drop, if_neg (by omega)]
        exact hlast
      · have e1 : (c : ℚ) = strToNat ((natToStr c).take dp.toNat) * 10 ^ ((natToStr c).drop dp.toNat).length +
            strToNat ((natToStr c).drop dp.toNat) := by
          have := strToNat_append ((natToStr c).take dp.toNat) ((natToStr c).drop dp.toNat)
          rw [List.take_append_drop, strToNat_natToStr] at this
          rw [this]
          rw [← this]
          exact_mod_cast this
        have e2 : (10 : ℚ) ^ (dp - numDigits c) = 1 / 10 ^ ((natToStr c).drop dp.toNat).length := by
          rw [one_div, ← zpow_natCast, ← zpow_neg]
          congr 1
          simp only [List.length_drop, numDigits]
          omega
        rw [e2, e1]
        have : (10 : ℚ) ^ ((natToStr c).drop dp.toNat).length ≠ 0 := pow_ne_zero _ (by norm_num)
        generalize (10 : ℚ) ^ ((natToStr c).drop dp.toNat).length = p at *
        field_simp
      · rw [if_neg hdrop]
        rw [natToStr_strToNat htake (fun x hx => hdd x (List.mem_of_mem_take hx))]
        left
        have : (List.take dp.toNat (natToStr c)).head? = (natToStr c).head? := by
          rw [List.head?_take, if_neg (by omega)]
        rw [this]
        exact natToStr_head hc0

theorem signedStr_spec (i : ℤ) : signedStr i = Spec.signedText i := by
  unfold signedStr Spec.signedText
  cases i with
  | ofNat n =>
    have h : ¬ ((Int.ofNat n : ℤ) < 0) := by simp
    rw [if_neg h, if_neg h]; rfl
  | negSucc n =>
    have h : (Int.negSucc n : ℤ) < 0 := Int.negSucc_lt_zero n
    rw [if_pos h, if_pos h]; rfl

/-- The magnitude lies between the powers of ten given by its number of digits before the point. -/
theorem abs_val_bounds {d : Dec} (h0 : d.coef ≠ 0) :
    (10 : ℚ) ^ (d.exp + numDigits d.coef - 1) ≤ |d.val| ∧ |d.val| < 10 ^ (d.exp + numDigits d.coef) := by
  rw [abs_val]
  have h1 := lt_pow_length d.coef
  have h2 := pow_le_of_pos (Nat.pos_of_ne_zero h0)
  have h3 := natToStr_length_pos d.coef
  have e1 : (10 : ℚ) ^ (d.exp + numDigits d.coef - 1) = 10 ^ ((natToStr d.coef).length - 1) * 10 ^ d.exp := by
    rw [← zpow_natCast, ← zp_add]
    congr 1
    simp only [numDigits]
    omega
  have e2 : (10 : ℚ) ^ (d.exp + numDigits d.coef) = 10 ^ ((natToStr d.coef).length) * 10 ^ d.exp := by
    rw [← zpow_natCast, ← zp_add]
    congr 1
    simp only [numDigits]
    omega
  rw [e1, e2]
  constructor
  · apply mul_le_mul_of_nonneg_right _ (zp_pos _).le
    exact_mod_cast h2
  · apply mul_lt_mul_of_pos_right _ (zp_pos _)
    exact_mod_cast h1

/-- C81: the text of every contract decimal: a minus sign if it is negative (or the negative zero), then the magnitude,
plain or with an exponent as `Spec.Exponential` says. The only other text is that of the object produced by
clamping, which prints in plain digits. -/
theorem C81_text {d : Dec} (h : IsCD d) :
    (∃ u, cdStr d = (if d.neg then ['-'] else []) ++ u ∧ (0 < d.val → d.neg = false) ∧ (d.val < 0 → d.neg = true) ∧
      Spec.Magnitude u d.val) ∨
    (d.val = 10 ^ 29 ∧ cdStr d = '1' :: List.replicate 29 '0') := by
  rcases h.canon with rfl | hc
  · exact Or.inr ⟨maxDecimal_val, by decide +kernel⟩
  left
  refine ⟨_, by rw [cdStr, toStr, List.append_assoc], ?_, ?_, ?_⟩
  · intro h
    cases hn : d.neg
    · rfl
    · rw [Dec.val, hn] at h
      have := mul_nonneg (Nat.cast_nonneg (α := ℚ) d.coef) (zp_pos d.exp).le
      simp only [if_true] at h
      linarith
  · intro h
    cases hn : d.neg
    · rw [Dec.val, hn] at h
      have := mul_nonneg (Nat.cast_nonneg (α := ℚ) d.coef) (zp_pos d.exp).le
      simp only [Bool.false_eq_true, if_false] at h
      linarith
    · rfl
  obtain ⟨hc1, hc2, hc3⟩ := hc
  by_cases h0 : d.coef = 0
  · have he := hc2 h0
    have hv : d.val = 0 := val_zero h0
    left
    refine ⟨?_, 0, [], by simp, by simp, by rw [hv]; simp [strToNat], ?_⟩
    · rw [hv]; unfold Spec.Exponential
      rintro (⟨h, _⟩ | ⟨h, _⟩) <;> norm_num at h
    · rw [h0]
      have hd : dotPlace true d = 1 := by unfold dotPlace; rw [h0, he]; decide
      rw [hd, he]
      decide
  have h10 := hc3 h0
  obtain ⟨hlo, hhi⟩ := abs_val_bounds h0
  have hpl := strBody_plain h10 (dotPlace true d)
  have hcpos : (0 : ℚ) < d.coef := by exact_mod_cast Nat.pos_of_ne_zero h0
  have hnd := numDigits_pos d.coef
  have habs := abs_val d
  generalize hL : d.exp + (numDigits d.coef : ℤ) = L at *
  have mono : ∀ {a b : ℤ}, a ≤ b → (10 : ℚ) ^ a ≤ 10 ^ b := fun h => zpow_le_zpow_right₀ (by norm_num) h
  have six : (1 : ℚ) / 10 ^ 6 = 10 ^ (-6 : ℤ) := by norm_num
  have thousand : (1000 : ℚ) = 10 ^ (3 : ℤ) := by norm_num
  by_cases hplain : d.exp ≤ 0 ∧ L > -6
  · left
    have hd : dotPlace true d = L := by
      unfold dotPlace
      rw [hL]
      simp only [if_pos hplain]
    rw [hd] at hpl ⊢
    constructor
    · rintro (⟨_, h⟩ | ⟨_, z, hz⟩)
      · have := mono (show (-6 : ℤ) ≤ L - 1 by omega)
        rw [six] at h
        linarith
      · have e1 : (d.coef : ℚ) = 10 * (z.natAbs * 10 ^ (-d.exp).toNat) := by
          rw [zp_toNat (by omega), ← mul_assoc, zpow_neg, ← div_eq_mul_inv, eq_div_iff (zp_pos _).ne', ← habs, hz, abs_mul]
          rw [Nat.cast_natAbs]
          simp
        have e2 : d.coef = 10 * (z.natAbs * 10 ^ (-d.exp).toNat) := by exact_mod_cast e1
        omega
    · rw [show L - L = 0 by omega, show expPart 0 = [] from rfl, List.append_nil, habs]
      have : d.exp = L - numDigits d.coef := by omega
      rw [this]
      exact hpl
  · have hd : dotPlace true d = (L - 1) % 3 + 1 := by
      unfold dotPlace
      rw [hL]
      simp only [if_neg hplain, h0, Bool.true_eq_false, if_false]
    rw [hd] at hpl ⊢
    have hval : |d.val| = (d.coef : ℚ) * 10 ^ ((L - 1) % 3 + 1 - numDigits d.coef) * 10 ^ (3 * ((L - 1) / 3)) := by
      rw [mul_assoc, ← zp_add, habs]
      congr 2
      omega
    by_cases hE : (L - 1) / 3 = 0
    · left
      constructor
      · rintro (⟨_, h⟩ | ⟨h, _⟩)
        · have := mono (show (-6 : ℤ) ≤ L - 1 by omega)
          rw [six] at h
          linarith
        · have := mono (show L ≤ 3 by omega)
          rw [thousand] at h
          linarith
      · rw [show L - ((L - 1) % 3 + 1) = 0 by omega, show expPart 0 = [] from rfl, List.append_nil, hval, hE]
        simpa using hpl
    · right
      refine ⟨?_, _, (L - 1) / 3, _, ?_, hE, hpl, ?_, ?_, hval⟩
      · by_cases hs : L ≤ -6
        · left
          refine ⟨lt_of_lt_of_le (zp_pos _) hlo, lt_of_lt_of_le hhi ?_⟩
          rw [six]
          exact mono hs
        · right
          have hexp : 0 < d.exp := by
            by_contra h
            exact hplain ⟨by omega, by omega⟩
          constructor
          · refine le_trans ?_ hlo
            rw [thousand]
            exact mono (by omega)
          · refine ⟨(if d.neg then -1 else 1) * d.coef * 10 ^ (d.exp - 1).toNat, ?_⟩
            unfold Dec.val
            have : (10 : ℚ) ^ d.exp = 10 * 10 ^ (d.exp - 1).toNat := by
              rw [zp_toNat (by omega), ← zpow_one_add₀ (by norm_num)]
              congr 1
              omega
            rw [this]
            push_cast
            split <;> ring
      · rw [show L - ((L - 1) % 3 + 1) = 3 * ((L - 1) / 3) by omega]
        unfold expPart
        rw [if_neg (by omega), signedStr_spec]
      all_goals
        have e : (d.coef : ℚ) * 10 ^ ((L - 1) % 3 + 1 - numDigits d.coef) = |d.val| * 10 ^ (-(3 * ((L - 1) / 3))) := by
          rw [hval, mul_assoc _ ((10 : ℚ) ^ _), ← zp_add]
          simp
        rw [e]
      · have h1 := mul_le_mul_of_nonneg_right hlo (zp_pos (-(3 * ((L - 1) / 3)))).le
        refine le_trans ?_ h1
        rw [← zp_add, show (1 : ℚ) = 10 ^ (0 : ℤ) by norm_num]
        exact mono (by omega)
      · have h1 := mul_lt_mul_of_pos_right hhi (zp_pos (-(3 * ((L - 1) / 3))))
        refine lt_of_lt_of_le h1 ?_
        rw [← zp_add, thousand]
        exact mono (by omega)

/-- The plain text of a whole number has no point. -/
theorem Spec.PlainText.whole {s : Str} {n : ℕ} (h : Spec.PlainText s (n : ℚ)) : s = natToStr n := by
  obtain ⟨m, f, hf, hl, hq, rfl⟩ := h
  have hp : (0 : ℚ) < 10 ^ f.length := by positivity
  have hlt : strToNat f < 10 ^ f.length := by
    clear hl hq
    induction f using List.reverseRecOn with
    | nil => simp [strToNat]
    | append_singleton t c ih =>
      obtain ⟨k, hk, rfl⟩ := isDigit_iff.1 (hf c (by simp))
      rw [strToNat_append_digit, digitVal_digitChar hk, List.length_append, List.length_singleton, pow_succ]
      have := ih (fun c hc => hf c (by simp [hc]))
        (by positivity)
      simp only [Option.getD_some]
      omega
  have e1 : (n : ℚ) * 10 ^ f.length = m * 10 ^ f.length + strToNat f := by rw [hq]; field_simp
  have e2 : n * 10 ^ f.length = m * 10 ^ f.length + strToNat f := by exact_mod_cast e1
  have hnm : n = m := by
    rcases lt_trichotomy n m with h | h | h
    · have := Nat.mul_le_mul_right (10 ^ f.length) (show n + 1 ≤ m from h)
      rw [Nat.add_mul] at this
      omega
    · exact h
    · have := Nat.mul_le_mul_right (10 ^ f.length) (show m + 1 ≤ n from h)
      rw [Nat.add_mul] at this
      omega
  subst hnm
  have hz : strToNat f = 0 := by omega
  by_cases hfe : f = []
  · rw [if_pos hfe, List.append_nil]
  · obtain ⟨t, c, rfl⟩ : ∃ t c, f = t ++ [c] := ⟨f.dropLast, f.getLast hfe, (List.dropLast_concat_getLast hfe).symm⟩
    obtain ⟨k, hk, rfl⟩ := isDigit_iff.1 (hf c (by simp))
    rw [strToNat_append_digit, digitVal_digitChar hk] at hz
    have : k = 0 := by simp only [Option.getD_some] at hz; omega
    subst this
    simp [digitChar] at hl

/-- C81, whole numbers: below a thousand, or not divisible by ten, they print like Python's ints. -/
theorem C81_whole {d : Dec} (h : IsCD d) {z : ℤ} (hv : d.val = z) (h0 : z ≠ 0) (hz : |z| < 1000 ∨ z % 10 ≠ 0) :
    cdStr d = intToStr z := by
  have hq0 : (d.val : ℚ) ≠ 0 := by rw [hv]; exact_mod_cast h0
  have hne : ¬ Spec.Exponential d.val := by
    rw [hv]
    rintro (⟨_, h⟩ | ⟨h, w, hw⟩)
    · have : (1 : ℚ) ≤ |(z : ℚ)| := by exact_mod_cast Int.one_le_abs h0
      norm_num at h
      linarith
    · have hw' : z = 10 * w := by exact_mod_cast hw
      have h' : 1000 ≤ |z| := by exact_mod_cast h
      omega
  rcases C81_text h with ⟨u, h1, h2, h3, h4⟩ | ⟨h1, _⟩
  · rcases h4 with ⟨_, h5⟩ | ⟨h5, _⟩
    · rw [hv, show |(z : ℚ)| = ((z.natAbs : ℕ) : ℚ) by rw [Nat.cast_natAbs]; simp] at h5
      rw [h1, h5.whole]
      rw [hv] at h2 h3
      cases z with
      | ofNat n =>
        have : d.neg = false := h2 (by
          have : 0 < n := Nat.pos_of_ne_zero (by rintro rfl; exact h0 rfl)
          simpa using this)
        rw [this]; rfl
      | negSucc n =>
        have : d.neg = true := h3 (by exact_mod_cast Int.negSucc_lt_zero n)
        rw [this]; rfl
    · exact absurd h5 hne
  · exfalso
    apply hne
    right
    rw [h1]
    refine ⟨by norm_num, 10 ^ 28, by norm_num⟩

/-- C81, what one might expect fails: whole decimals do not always print like ints, so `h[decimal('1000')]` and
`h[1000]` are different entries although `h[decimal('100')]` and `h[100]` are the same; equal decimals can print
differently; and a decimal with a fraction is not accepted as an index. -/
theorem C81_refuted :
    (∃ d, cdOfStr (py! "1000") = .ok d ∧ cdStr d = py! "1E+3" ∧
      validateKey (.one (.other (cdStr d))) = .ok (py! "1E+3") ∧ validateKey (.one (.int 1000)) = .ok (py! "1000")) ∧
    (∃ d, cdOfStr (py! "100") = .ok d ∧ validateKey (.one (.other (cdStr d))) = validateKey (.one (.int 100))) ∧
    (∃ a b, cdOfStr (py! "1E29") = .ok a ∧ cdOfStr (py! "1E40") = .ok b ∧ cdEq a b = true ∧ cdStr a ≠ cdStr b) ∧
    (∃ d, cdOfStr (py! "1.5") = .ok d ∧ validateKey (.one (.other (cdStr d))) = .error .assertion) :=
  ⟨⟨⟨false, 1, 3⟩, by decide +kernel⟩, ⟨⟨false, 1, 2⟩, by decide +kernel⟩,
    ⟨⟨false, 1, 29⟩, maxDecimal, by decide +kernel⟩, ⟨⟨false, 15, -1⟩, by decide +kernel⟩⟩

/-- Each form occurs. -/
example : (∃ d, cdOfStr (py! "-1234.5") = .ok d ∧ cdStr d = py! "-1234.5") ∧
    (∃ d, cdOfStr (py! "0.000001") = .ok d ∧ cdStr d = py! "0.000001") ∧
    (∃ d, cdOfStr (py! "0.00000099") = .ok d ∧ cdStr d = py! "990E-9") ∧
    (∃ d, cdOfStr (py! "1230") = .ok d ∧ cdStr d = py! "1.23E+3") ∧
    (∃ d, cdOfStr (py! "1231") = .ok d ∧ cdStr d = py! "1231") ∧
    (∃ d, cdOfStr (py! "-0") = .ok d ∧ cdStr d = py! "-0") :=
  ⟨⟨⟨true, 12345, -1⟩, by decide +kernel⟩, ⟨⟨false, 1, -6⟩, by decide +kernel⟩, ⟨⟨false, 99, -8⟩, by decide +kernel⟩,
    ⟨⟨false, 123, 1⟩, by decide +kernel⟩, ⟨⟨false, 1231, 0⟩, by decide +kernel⟩, ⟨⟨true, 0, 0⟩, by decide +kernel⟩⟩

end Verif
