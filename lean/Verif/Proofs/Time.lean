import Mathlib.Tactic
import Verif.Spec.Time
/-! # Calendar lemmas -/
namespace Verif

theorem isLeap_iff (y : ℕ) : isLeap y = true ↔ Spec.leap y := by
  unfold isLeap Spec.leap
  simp only [Bool.and_eq_true, Bool.or_eq_true, beq_iff_eq, bne_iff_ne]
  omega

theorem yearLen_eq (y : ℕ) : Spec.yearLen y = if isLeap y then 366 else 365 := by
  unfold Spec.yearLen
  by_cases h : Spec.leap y
  · rw [if_pos h, if_pos ((isLeap_iff y).2 h)]
  · rw [if_neg h, if_neg (fun g => h ((isLeap_iff y).1 g))]

theorem monthLen_eq {y m : ℕ} (h1 : 1 ≤ m) (h2 : m ≤ 12) : Spec.monthLen y m = daysInMonth y m := by
  classical
  unfold Spec.monthLen
  have hl : (if Spec.leap y then (29:ℕ) else 28) = if isLeap y then 29 else 28 := by
    by_cases h : Spec.leap y
    · rw [if_pos h, if_pos ((isLeap_iff y).2 h)]
    · rw [if_neg h, if_neg (fun g => h ((isLeap_iff y).1 g))]
  interval_cases m <;> simp [daysInMonth]
  convert hl

/-- Closed form of the day count in the 400/100/4/1-year decomposition. -/
theorem dby_dec (a b c e : ℕ) (hb : b < 4) (hc : c < 25) (he : e < 4) :
    daysBeforeYear (400 * a + 100 * b + 4 * c + e + 1) = 146097 * a + 36524 * b + 1461 * c + 365 * e := by
  unfold daysBeforeYear
  rw [Nat.add_sub_cancel]
  have h1 : (400 * a + 100 * b + 4 * c + e) / 4 = 100 * a + 25 * b + c := by omega
  have h2 : (400 * a + 100 * b + 4 * c + e) / 100 = 4 * a + b := by omega
  have h3 : (400 * a + 100 * b + 4 * c + e) / 400 = a := by omega
  rw [h1, h2, h3]
  omega

theorem isLeap_dec (a b c e : ℕ) (hb : b < 4) (hc : c < 25) (he : e < 4) :
    isLeap (400 * a + 100 * b + 4 * c + e + 1) = decide (e = 3 ∧ (c ≠ 24 ∨ b = 3)) := by
  rw [Bool.eq_iff_iff]
  unfold isLeap
  simp only [Bool.and_eq_true, Bool.or_eq_true, beq_iff_eq, bne_iff_ne, decide_eq_true_eq]
  have h1 : (400 * a + 100 * b + 4 * c + e + 1) % 4 = 0 ↔ e = 3 := by omega
  have h2 : (400 * a + 100 * b + 4 * c + e + 1) % 100 = 0 ↔ (e = 3 ∧ c = 24) := by omega
  have h3 : (400 * a + 100 * b + 4 * c + e + 1) % 400 = 0 ↔ (e = 3 ∧ c = 24 ∧ b = 3) := by omega
  rw [ne_eq, h1, h2, h3]
  omega

theorem dec_exists (z : ℕ) : ∃ a b c e, b < 4 ∧ c < 25 ∧ e < 4 ∧ z = 400 * a + 100 * b + 4 * c + e :=
  ⟨z / 400, z % 400 / 100, z % 100 / 4, z % 4, by omega, by omega, by omega, by omega⟩

theorem dby_succ {y : ℕ} (h : 1 ≤ y) :
    daysBeforeYear (y + 1) = daysBeforeYear y + if isLeap y then 366 else 365 := by
  obtain ⟨z, rfl⟩ : ∃ z, y = z + 1 := ⟨y - 1, by omega⟩
  obtain ⟨a, b, c, e, hb, hc, he, rfl⟩ := dec_exists z
  rw [isLeap_dec a b c e hb hc he, dby_dec a b c e hb hc he]
  simp only [decide_eq_true_eq]
  by_cases h3 : e = 3
  · subst h3
    by_cases h24 : c = 24
    · subst h24
      by_cases hb3 : b = 3
      · subst hb3
        have := dby_dec (a + 1) 0 0 0 (by omega) (by omega) (by omega)
        rw [if_pos (by omega), show 400 * a + 100 * 3 + 4 * 24 + 3 + 1 + 1 = 400 * (a + 1) + 100 * 0 + 4 * 0 + 0 + 1 by ring, this]
        ring
      · have := dby_dec a (b + 1) 0 0 (by omega) (by omega) (by omega)
        rw [if_neg (by omega), show 400 * a + 100 * b + 4 * 24 + 3 + 1 + 1 = 400 * a + 100 * (b + 1) + 4 * 0 + 0 + 1 by ring, this]
        ring
    · have := dby_dec a b (c + 1) 0 (by omega) (by omega) (by omega)
      rw [if_pos (by omega), show 400 * a + 100 * b + 4 * c + 3 + 1 + 1 = 400 * a + 100 * b + 4 * (c + 1) + 0 + 1 by ring, this]
      ring
  · have := dby_dec a b c (e + 1) (by omega) (by omega) (by omega)
    rw [if_neg (by omega), show 400 * a + 100 * b + 4 * c + e + 1 + 1 = 400 * a + 100 * b + 4 * c + (e + 1) + 1 by ring, this]
    ring

theorem dby_sum {y : ℕ} (h : 1 ≤ y) : ∑ k ∈ Finset.Ico 1 y, Spec.yearLen k = daysBeforeYear y := by
  induction y, h using Nat.le_induction with
  | base => rfl
  | succ y hy ih => rw [Finset.sum_Ico_succ_top hy, ih, dby_succ hy, yearLen_eq]

theorem dbm_succ (y : ℕ) {m : ℕ} (h1 : 1 ≤ m) (h2 : m < 12) :
    daysBeforeMonth y (m + 1) = daysBeforeMonth y m + daysInMonth y m := by
  unfold daysBeforeMonth
  interval_cases m <;> simp [daysBeforeMonth0, daysInMonth] <;> (split <;> rfl)

theorem dbm_sum (y : ℕ) {m : ℕ} (h1 : 1 ≤ m) (h2 : m ≤ 12) :
    ∑ k ∈ Finset.Ico 1 m, Spec.monthLen y k = daysBeforeMonth y m := by
  induction m, h1 using Nat.le_induction with
  | base => simp [daysBeforeMonth, daysBeforeMonth0]
  | succ m hm ih =>
    rw [Finset.sum_Ico_succ_top hm, ih (by omega), dbm_succ y hm (by omega), monthLen_eq hm (by omega)]

theorem dayNumber_eq {y m : ℕ} (d : ℕ) (hy : 1 ≤ y) (h1 : 1 ≤ m) (h2 : m ≤ 12) :
    Spec.dayNumber y m d = ymd2ord y m d := by
  unfold Spec.dayNumber ymd2ord
  rw [dby_sum hy, dbm_sum y h1 h2]

theorem validTime_iff (t : DateTime) : Spec.ValidTime t ↔ t.Valid := by
  unfold Spec.ValidTime DateTime.Valid
  constructor
  · rintro ⟨h1, h2, h3, h4, h5, h6, h7⟩
    rw [monthLen_eq h3 h4] at h6
    omega
  · rintro ⟨h1, h2, h3, h4, h5, h6, h7⟩
    rw [monthLen_eq h3 h4]
    omega

/-- Month and day from the day of the year, for both kinds of year (every day of a year). -/
theorem ordMonth_spec : ∀ l : Bool, ∀ n, n < 366 → (l = true ∨ n < 365) →
    1 ≤ (ordMonth n l).1 ∧ (ordMonth n l).1 ≤ 12 ∧ 1 ≤ (ordMonth n l).2 ∧
    (ordMonth n l).2 ≤ (if (ordMonth n l).1 = 2 ∧ l = true then 29 else daysInMonth 1 (ordMonth n l).1) ∧
    daysBeforeMonth0 (ordMonth n l).1 + (if (ordMonth n l).1 > 2 ∧ l = true then 1 else 0) + (ordMonth n l).2 = n + 1 := by
  decide +kernel

theorem daysInMonth_leap (y m : ℕ) : daysInMonth y m = if m = 2 ∧ isLeap y = true then 29 else daysInMonth 1 m := by
  by_cases hm : m = 2
  · subst hm; simp [daysInMonth, show isLeap 1 = false by decide]
  · simp only [hm, false_and, if_false]
    unfold daysInMonth
    split <;> first | rfl | exact absurd rfl hm

/-- `_ord2ymd` returns a real date with that day number. -/
theorem ord2ymd_spec {n : ℕ} (hn : 1 ≤ n) :
    let r := ord2ymd n
    1 ≤ r.1 ∧ 1 ≤ r.2.1 ∧ r.2.1 ≤ 12 ∧ 1 ≤ r.2.2 ∧ r.2.2 ≤ daysInMonth r.1 r.2.1 ∧ ymd2ord r.1 r.2.1 r.2.2 = n := by
  intro r
  set N := n - 1 with hN
  set a := N / 146097 with ha
  set b := N % 146097 / 36524 with hb
  set c := N % 146097 % 36524 / 1461 with hc
  set e := N % 146097 % 36524 % 1461 / 365 with he
  set x := N % 146097 % 36524 % 1461 % 365 with hx
  have hr : r = if e = 4 ∨ b = 4 then (a * 400 + 1 + b * 100 + c * 4 + e - 1, 12, 31)
      else (a * 400 + 1 + b * 100 + c * 4 + e, ordMonth x (decide (e = 3 ∧ (c ≠ 24 ∨ b = 3)))) := rfl
  have hbb : b ≤ 4 := by omega
  have hcb : c ≤ 24 := by omega
  have heb : e ≤ 4 := by omega
  have hxb : x < 365 := by omega
  have hdec : N = 146097 * a + 36524 * b + 1461 * c + 365 * e + x := by omega
  have hb4 : b = 4 → c = 0 ∧ e = 0 ∧ x = 0 := by omega
  have he4 : e = 4 → x = 0 := by omega
  have hcx : b < 4 → c = 24 → b ≠ 3 → e ≤ 3 := by omega
  clear_value a b c e x
  by_cases hcase : e = 4 ∨ b = 4
  · rw [if_pos hcase] at hr
    rw [hr]
    simp only
    have hdim : daysInMonth (a * 400 + 1 + b * 100 + c * 4 + e - 1) 12 = 31 := rfl
    refine ⟨by omega, by omega, by omega, by omega, by rw [hdim], ?_⟩
    -- the 31st of December of a leap year
    have key : ∀ a b c, b < 4 → c < 25 → (c ≠ 24 ∨ b = 3) →
        ymd2ord (400 * a + 100 * b + 4 * c + 3 + 1) 12 31 = 146097 * a + 36524 * b + 1461 * c + 1461 := by
      intro a b c hb hc hl
      unfold ymd2ord daysBeforeMonth
      rw [dby_dec a b c 3 hb hc (by omega), isLeap_dec a b c 3 hb hc (by omega)]
      simp only [daysBeforeMonth0, decide_eq_true_eq]
      rw [if_pos ⟨by omega, trivial, hl⟩]
    by_cases hb' : b = 4
    · obtain ⟨rfl, rfl, rfl⟩ := hb4 hb'
      subst hb'
      rw [show a * 400 + 1 + 4 * 100 + 0 * 4 + 0 - 1 = 400 * a + 100 * 3 + 4 * 24 + 3 + 1 by omega,
        key a 3 24 (by omega) (by omega) (by omega)]
      omega
    · have he' : e = 4 := by omega
      have := he4 he'
      subst he'
      have h24 : c = 24 → b = 3 := by
        intro h1; by_contra h3
        have := hcx (by omega) h1 h3
        omega
      rw [show a * 400 + 1 + b * 100 + c * 4 + 4 - 1 = 400 * a + 100 * b + 4 * c + 3 + 1 by omega,
        key a b c (by omega) (by omega) (by omega)]
      omega
  · rw [if_neg hcase] at hr
    push Not at hcase
    rw [hr]
    simp only
    rw [show a * 400 + 1 + b * 100 + c * 4 + e = 400 * a + 100 * b + 4 * c + e + 1 by omega]
    have hl := isLeap_dec a b c e (by omega) (by omega) (by omega)
    have hy := dby_dec a b c e (by omega) (by omega) (by omega)
    obtain ⟨s1, s2, s3, s4, s5⟩ := ordMonth_spec (decide (e = 3 ∧ (c ≠ 24 ∨ b = 3))) x (by omega) (Or.inr hxb)
    rw [← hl] at s1 s2 s3 s4 s5 ⊢
    refine ⟨by omega, s1, s2, s3, by rw [daysInMonth_leap]; exact s4, ?_⟩
    unfold ymd2ord daysBeforeMonth
    rw [Nat.add_assoc, s5, hy]
    omega

theorem dby_mono {y z : ℕ} (h1 : 1 ≤ y) (h2 : y ≤ z) : daysBeforeYear y ≤ daysBeforeYear z := by
  induction z, h2 using Nat.le_induction with
  | base => exact le_rfl
  | succ z hz ih => rw [dby_succ (by omega)]; omega

theorem dbm_mono (y : ℕ) {m k : ℕ} (h1 : 1 ≤ m) (h2 : m < k) (h3 : k ≤ 12) :
    daysBeforeMonth y m + daysInMonth y m ≤ daysBeforeMonth y k := by
  induction k, (Nat.succ_le_of_lt h2) using Nat.le_induction with
  | base => rw [dbm_succ y h1 (by omega)]
  | succ k hk ih => rw [dbm_succ y (by omega) (by omega)]; have := ih (by omega) (by omega); omega

theorem dbm_lt_year (y : ℕ) {m d : ℕ} (h1 : 1 ≤ m) (h2 : m ≤ 12) (hd : d ≤ daysInMonth y m) :
    daysBeforeMonth y m + d ≤ if isLeap y then 366 else 365 := by
  have h12 : daysBeforeMonth y 12 + 31 = if isLeap y then 366 else 365 := by
    unfold daysBeforeMonth; simp [daysBeforeMonth0]; split <;> rfl
  rcases Nat.lt_or_ge m 12 with h | h
  · have := dbm_mono y h1 h (by omega)
    omega
  · have : m = 12 := by omega
    subst this
    have : daysInMonth y 12 = 31 := rfl
    omega

/-- The day number orders dates lexicographically. -/
theorem ymd2ord_lt {y m d y' m' d' : ℕ} (hy : 1 ≤ y) (hm : 1 ≤ m) (hm2 : m ≤ 12) (hd2 : d ≤ daysInMonth y m)
    (hm' : 1 ≤ m') (hm2' : m' ≤ 12) (hd' : 1 ≤ d')
    (h : y < y' ∨ (y = y' ∧ (m < m' ∨ (m = m' ∧ d < d')))) : ymd2ord y m d < ymd2ord y' m' d' := by
  unfold ymd2ord
  rcases h with h | ⟨rfl, h | ⟨rfl, h⟩⟩
  · have h1 := dby_mono (y := y + 1) (z := y') (by omega) h
    rw [dby_succ hy] at h1
    have h2 := dbm_lt_year y hm hm2 hd2
    omega
  · have := dbm_mono y hm h hm2'
    omega
  · omega

end Verif
