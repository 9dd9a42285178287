import Verif.Model.Digits
import Mathlib.Tactic.Ring
import Mathlib.Tactic.Linarith
/-! # Lemmas about digit strings -/
namespace Verif

theorem log2_div10 {n : Nat} (h : ¬ n < 10) : (n / 10).log2 + 1 ≤ n.log2 := by
  have h2 : n / 10 ≠ 0 := by omega
  have hn : n ≠ 0 := by omega
  have : (n/10).log2 < n.log2 := by
    rw [Nat.log2_lt h2]
    have := Nat.log2_self_le h2
    have h3 : n < 2 ^ (n.log2 + 1) := Nat.lt_log2_self
    rw [Nat.pow_succ] at h3
    omega
  omega

theorem digitsFuel_stable (f g n : Nat) (hf : n.log2 + 1 ≤ f) (hg : n.log2 + 1 ≤ g) :
    digitsFuel f n = digitsFuel g n := by
  induction f generalizing g n with
  | zero => omega
  | succ f ih =>
    cases g with
    | zero => omega
    | succ g =>
      simp only [digitsFuel]
      split
      · rfl
      · rename_i h
        have := log2_div10 h
        rw [ih g (n/10) (by omega) (by omega)]

/-- The defining equation of `digits10`. -/
theorem digits10_unfold (n : Nat) :
    digits10 n = if n < 10 then [n] else (n % 10) :: digits10 (n / 10) := by
  by_cases h : n < 10
  · simp [digits10, digitsFuel, h]
  · simp only [digits10, digitsFuel, h, if_false]
    have := log2_div10 h
    rw [digitsFuel_stable _ ((n/10).log2 + 1) (n/10) (by omega) (by omega)]
    simp [digitsFuel]

/-- Induction along the digits. -/
theorem digits_induction {P : Nat → Prop} (small : ∀ n, n < 10 → P n)
    (step : ∀ n, 10 ≤ n → P (n / 10) → P n) (n : Nat) : P n := by
  induction n using Nat.strongRecOn with
  | _ n ih =>
    by_cases h : n < 10
    · exact small n h
    · exact step n (by omega) (ih _ (by omega))

theorem head?_append_ne {s t : Str} (h : s ≠ []) : (s ++ t).head? = s.head? := by
  cases s with
  | nil => exact absurd rfl h
  | cons => rfl

theorem natToStr_small {n : Nat} (h : n < 10) : natToStr n = [digitChar n] := by
  simp [natToStr, digits10_unfold n, h]

theorem natToStr_step {n : Nat} (h : 10 ≤ n) :
    natToStr n = natToStr (n / 10) ++ [digitChar (n % 10)] := by
  have : ¬ n < 10 := by omega
  rw [natToStr, digits10_unfold n]
  simp [this, natToStr]

theorem digitVal_digitChar {n : Nat} (h : n < 10) : digitVal? (digitChar n) = some n := by
  match n, h with
  | 0, _ | 1, _ | 2, _ | 3, _ | 4, _ | 5, _ | 6, _ | 7, _ | 8, _ | 9, _ => rfl

theorem isDigit_digitChar (n : Nat) : isDigit (digitChar n) = true := by
  unfold digitChar; split <;> rfl

theorem digitVal?_eq_some {c : Char} {n : Nat} (h : digitVal? c = some n) :
    c = digitChar n ∧ n < 10 := by
  unfold digitVal? at h
  split at h <;> simp at h <;> subst h <;> simp [digitChar]

theorem isDigit_iff {c : Char} : isDigit c = true ↔ ∃ n, n < 10 ∧ c = digitChar n := by
  constructor
  · intro h
    unfold isDigit at h
    obtain ⟨n, hn⟩ := Option.isSome_iff_exists.1 h
    exact ⟨n, (digitVal?_eq_some hn).2, (digitVal?_eq_some hn).1⟩
  · rintro ⟨n, _, rfl⟩; exact isDigit_digitChar n

theorem natToStr_all_digits (n : Nat) : ∀ c ∈ natToStr n, isDigit c = true := by
  induction n using digits_induction with
  | small n h => simp [natToStr_small h, isDigit_digitChar]
  | step n h ih =>
    rw [natToStr_step h]
    intro c hc
    rcases List.mem_append.1 hc with hc | hc
    · exact ih c hc
    · simp at hc; subst hc; exact isDigit_digitChar _

theorem natToStr_ne_nil (n : Nat) : natToStr n ≠ [] := by
  by_cases h : n < 10
  · simp [natToStr_small h]
  · simp [natToStr_step (Nat.le_of_not_lt h)]

theorem strToNat_append_digit (s : Str) (c : Char) :
    strToNat (s ++ [c]) = 10 * strToNat s + (digitVal? c).getD 0 := by
  simp [strToNat]

theorem foldl_digits (s : Str) (a : Nat) :
    s.foldl (fun a c => 10 * a + (digitVal? c).getD 0) a = a * 10 ^ s.length + strToNat s := by
  induction s generalizing a with
  | nil => simp [strToNat]
  | cons c s ih =>
    simp only [List.foldl_cons, strToNat, List.length_cons]
    rw [ih, ih (10 * 0 + _)]
    ring

theorem strToNat_append (s t : Str) : strToNat (s ++ t) = strToNat s * 10 ^ t.length + strToNat t := by
  conv_lhs => unfold strToNat
  rw [List.foldl_append, foldl_digits]; rfl

theorem strToNat_natToStr (n : Nat) : strToNat (natToStr n) = n := by
  induction n using digits_induction with
  | small n h => simp [natToStr_small h, strToNat, digitVal_digitChar h]
  | step n h ih =>
    rw [natToStr_step h, strToNat_append_digit, ih, digitVal_digitChar (by omega)]
    simp; omega

theorem strToNat_replicate_zero (k : Nat) : strToNat (List.replicate k '0') = 0 := by
  induction k with
  | zero => rfl
  | succ k ih =>
    rw [List.replicate_succ', strToNat_append_digit, ih]; rfl

theorem natToStr_injective {a b : Nat} (h : natToStr a = natToStr b) : a = b := by
  rw [← strToNat_natToStr a, h, strToNat_natToStr]

theorem natToStr_length_pos (n : Nat) : 0 < (natToStr n).length :=
  List.length_pos_iff.2 (natToStr_ne_nil n)

theorem lt_pow_length (n : Nat) : n < 10 ^ (natToStr n).length := by
  induction n using digits_induction with
  | small n h => simp [natToStr_small h, h]
  | step n h ih =>
    rw [natToStr_step h, List.length_append, List.length_singleton, Nat.pow_succ]
    omega

theorem pow_le_of_pos {n : Nat} (h0 : 0 < n) : 10 ^ ((natToStr n).length - 1) ≤ n := by
  induction n using digits_induction with
  | small n h => simp [natToStr_small h]; omega
  | step n h ih =>
    have := ih (by omega)
    rw [natToStr_step h, List.length_append, List.length_singleton]
    have hp := natToStr_length_pos (n/10)
    have e : (natToStr (n/10)).length + 1 - 1 = ((natToStr (n/10)).length - 1) + 1 := by omega
    rw [e, Nat.pow_succ]
    omega

/-- No leading zero unless the number is zero. -/
theorem natToStr_head {n : Nat} (h0 : 0 < n) : (natToStr n).head? ≠ some '0' := by
  induction n using digits_induction with
  | small n h =>
    rw [natToStr_small h]
    match n, h0, h with
    | 1, _, _ | 2, _, _ | 3, _, _ | 4, _, _ | 5, _, _ | 6, _, _ | 7, _, _ | 8, _, _ | 9, _, _ =>
      decide
  | step n h ih =>
    rw [natToStr_step h, head?_append_ne (natToStr_ne_nil _)]
    exact ih (by omega)

/-- A digit string without leading zero is the printed form of its value. -/
theorem natToStr_strToNat {s : Str} (hs : s ≠ []) (hd : ∀ c ∈ s, isDigit c = true)
    (hh : s.head? ≠ some '0' ∨ s = ['0']) : natToStr (strToNat s) = s := by
  have aux : ∀ (k : Nat) (s : Str), s.length = k → s ≠ [] → (∀ c ∈ s, isDigit c = true) →
      (s.head? ≠ some '0') → natToStr (strToNat s) = s ∧ 0 < strToNat s := by
    intro k
    induction k with
    | zero => intro s h1 h2; simp at h1; exact absurd h1 h2
    | succ k ih =>
      intro s h1 h2 h3 h4
      obtain ⟨t, c, rfl⟩ : ∃ t c, s = t ++ [c] := ⟨s.dropLast, s.getLast h2, (List.dropLast_concat_getLast h2).symm⟩
      obtain ⟨d, hd10, rfl⟩ := isDigit_iff.1 (h3 c (by simp))
      rw [strToNat_append_digit, digitVal_digitChar hd10]
      simp only [Option.getD_some]
      by_cases ht : t = []
      · subst ht
        have : d ≠ 0 := by rintro rfl; simp [digitChar] at h4
        have e : 10 * strToNat [] + d = d := by simp [strToNat]
        simp only [e, natToStr_small hd10, List.nil_append, true_and]; omega
      · have ⟨i1, i2⟩ := ih t (by simpa using h1) ht (fun c hc => h3 c (by simp [hc]))
          (by rwa [head?_append_ne ht] at h4)
        constructor
        · rw [natToStr_step (by omega)]
          have : (10 * strToNat t + d) / 10 = strToNat t := by omega
          have : (10 * strToNat t + d) % 10 = d := by omega
          simp [*]
        · omega
  rcases hh with hh | rfl
  · exact (aux _ s rfl hs hd hh).1
  · rfl

end Verif
