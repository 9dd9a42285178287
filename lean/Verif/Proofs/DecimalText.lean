import Verif.Proofs.DecimalOps
/-! # Printing and parsing decimals -/
namespace Verif
open Dec

theorem span_append {s t : Str} (hs : ∀ c ∈ s, isDigit c = true) (ht : ∀ c, t.head? = some c → isDigit c = false) :
    spanDigits (s ++ t) = (s, t) := by
  unfold spanDigits
  rw [List.span_eq_takeWhile_dropWhile]
  have h1 : (s ++ t).takeWhile isDigit = s := by
    rw [List.takeWhile_append_of_pos hs]
    cases t with
    | nil => simp
    | cons c t => simp [List.takeWhile, ht c rfl]
  have h2 : (s ++ t).dropWhile isDigit = t := by
    rw [List.dropWhile_append_of_pos hs]
    cases t with
    | nil => simp
    | cons c t => simp [List.dropWhile, ht c rfl]
  rw [h1, h2]

theorem isDigit_not_space {c : Char} (h : isDigit c = true) : isSpace c = false := by
  obtain ⟨n, hn, rfl⟩ := isDigit_iff.1 h
  match n, hn with
  | 0, _ | 1, _ | 2, _ | 3, _ | 4, _ | 5, _ | 6, _ | 7, _ | 8, _ | 9, _ => decide

theorem isDigit_ne {c d : Char} (h : isDigit c = true) (hd : isDigit d = false) : c ≠ d := by
  rintro rfl; rw [h] at hd; cases hd

/-- The plain characters of printed numbers. -/
def numChar (c : Char) : Bool := isDigit c || c == '.' || c == '-' || c == '+' || c == 'E'

theorem numChar_not_space {c : Char} (h : numChar c = true) : isSpace c = false := by
  simp only [numChar, Bool.or_eq_true, beq_iff_eq] at h
  rcases h with (((h | h) | h) | h) | h
  · exact isDigit_not_space h
  all_goals subst h; decide

theorem numChar_ne_us {c : Char} (h : numChar c = true) : c ≠ '_' := by
  rintro rfl; revert h; decide

theorem numChar_ne_e {c : Char} (h : numChar c = true) : c ≠ 'e' := by
  rintro rfl; revert h; decide

theorem dropWhile_space {s : Str} (h : ∀ c ∈ s, numChar c = true) : s.dropWhile isSpace = s := by
  cases s with
  | nil => rfl
  | cons c s => simp [List.dropWhile, numChar_not_space (h c (by simp))]

theorem strip_num {s : Str} (h : ∀ c ∈ s, numChar c = true) : strip s = s := by
  unfold strip
  rw [dropWhile_space h, dropWhile_space, List.reverse_reverse]
  intro c hc; exact h c (List.mem_reverse.1 hc)

theorem filter_num {s : Str} (h : ∀ c ∈ s, numChar c = true) : s.filter (· ≠ '_') = s := by
  rw [List.filter_eq_self]
  intro c hc; simpa using numChar_ne_us (h c hc)

theorem parse_num {s : Str} (h : ∀ c ∈ s, numChar c = true) : parse s = parseSigned s := by
  unfold parse
  rw [strip_num h, filter_num h]

theorem intToStr_chars (i : ℤ) : ∀ c ∈ intToStr i, isDigit c = true ∨ c = '-' := by
  intro c hc
  cases i with
  | ofNat n => exact Or.inl (natToStr_all_digits n c hc)
  | negSucc n =>
    simp only [intToStr, List.mem_cons] at hc
    rcases hc with h | h
    · exact Or.inr h
    · exact Or.inl (natToStr_all_digits _ c h)

theorem parseExp_signed (i : ℤ) : parseExp ('E' :: signedStr i) = some i := by
  unfold signedStr
  cases i with
  | ofNat n =>
    have hn : ¬ ((Int.ofNat n : ℤ) < 0) := by simp
    simp only [hn, if_false, intToStr, parseExp]
    have hd : (natToStr n).all isDigit = true := by
      rw [List.all_eq_true]; exact natToStr_all_digits n
    simp [natToStr_ne_nil, hd, strToNat_natToStr]
  | negSucc n =>
    have hn : ((Int.negSucc n : ℤ) < 0) := Int.negSucc_lt_zero n
    simp only [hn, if_true, intToStr, parseExp]
    have hd : (natToStr (n+1)).all isDigit = true := by
      rw [List.all_eq_true]; exact natToStr_all_digits _
    simp [natToStr_ne_nil, hd, strToNat_natToStr, Int.negSucc_eq]

/-- Unsigned literal: integer digits, fraction digits, exponent part. -/
theorem parseUnsigned_lit (neg : Bool) (ip fp ex : Str) (e : ℤ)
    (hip : ∀ c ∈ ip, isDigit c = true) (hne : ip ≠ []) (hfp : ∀ c ∈ fp, isDigit c = true)
    (hex : parseExp ex = some e) (hx0 : ∀ c, ex.head? = some c → isDigit c = false) :
    parseUnsigned neg (ip ++ '.' :: (fp ++ ex)) =
      some (.fin ⟨neg, strToNat (ip ++ fp), e - fp.length⟩) := by
  unfold parseUnsigned
  rw [span_append hip (by intro c hc; simp at hc; subst hc; decide)]
  simp only [splitFrac, if_true]
  rw [span_append hfp hx0]
  simp [hne, hex]

theorem parseUnsigned_int (neg : Bool) (ip ex : Str) (e : ℤ)
    (hip : ∀ c ∈ ip, isDigit c = true) (hne : ip ≠ [])
    (hex : parseExp ex = some e) (hx0 : ∀ c, ex.head? = some c → isDigit c = false ∧ c ≠ '.') :
    parseUnsigned neg (ip ++ ex) = some (.fin ⟨neg, strToNat ip, e⟩) := by
  unfold parseUnsigned
  rw [span_append hip (fun c hc => (hx0 c hc).1)]
  cases ex with
  | nil => simp [hne, splitFrac, hex]
  | cons c t => simp [hne, splitFrac, (hx0 c rfl).2, hex]

theorem expPart_head (i : ℤ) : ∀ c, (expPart i).head? = some c → isDigit c = false ∧ c ≠ '.' := by
  rintro c hc
  unfold expPart at hc
  split at hc
  · cases hc
  · simp at hc; subst hc; decide

theorem parseExp_expPart (i : ℤ) : parseExp (expPart i) = some i := by
  unfold expPart; split
  · rename_i h; simp [parseExp, h]
  · exact parseExp_signed _

theorem digit_numChar {c : Char} (h : isDigit c = true) : numChar c = true := by simp [numChar, h]

theorem zeros_digit (k : ℕ) : ∀ c ∈ List.replicate k '0', isDigit c = true := by
  intro c hc; rw [List.eq_of_mem_replicate hc]; decide

theorem expPart_chars (i : ℤ) : ∀ c ∈ expPart i, numChar c = true := by
  have hi : ∀ c ∈ intToStr i, numChar c = true := by
    intro c hc
    rcases intToStr_chars i c hc with h | rfl
    · exact digit_numChar h
    · decide
  intro c h
  unfold expPart at h
  split at h
  · cases h
  · simp only [List.mem_cons, signedStr] at h
    rcases h with rfl | h
    · decide
    · split at h
      · exact hi c h
      · simp only [List.mem_cons] at h
        rcases h with rfl | h
        · decide
        · exact hi c h

theorem strBody_chars (n : ℕ) (dp : ℤ) : ∀ c ∈ strBody (natToStr n) dp, numChar c = true := by
  have hd := natToStr_all_digits n
  intro c h
  unfold strBody at h
  split at h
  · simp only [List.mem_cons, List.mem_append] at h
    rcases h with rfl | rfl | h | h
    · decide
    · decide
    · exact digit_numChar (zeros_digit _ c h)
    · exact digit_numChar (hd c h)
  · split at h
    · rcases List.mem_append.1 h with h | h
      · exact digit_numChar (hd c h)
      · exact digit_numChar (zeros_digit _ c h)
    · simp only [List.mem_append, List.mem_cons] at h
      rcases h with h | rfl | h
      · exact digit_numChar (hd c (List.mem_of_mem_take h))
      · decide
      · exact digit_numChar (hd c (List.mem_of_mem_drop h))

theorem strBody_head (n : ℕ) (dp : ℤ) : ∃ c t, strBody (natToStr n) dp = c :: t ∧ isDigit c = true := by
  obtain ⟨c, t, hct⟩ := List.exists_cons_of_ne_nil (natToStr_ne_nil n)
  have hcd := natToStr_all_digits n c (by rw [hct]; simp)
  unfold strBody
  split
  · exact ⟨'0', _, rfl, by decide⟩
  · split
    · rw [hct]; exact ⟨c, _, rfl, hcd⟩
    · rename_i h1 h2
      obtain ⟨k, hk⟩ : ∃ k, dp.toNat = k + 1 := ⟨dp.toNat - 1, by omega⟩
      rw [hct, hk]; exact ⟨c, _, rfl, hcd⟩

theorem toStr_chars (eng : Bool) (d : Dec) : ∀ c ∈ toStr eng d, numChar c = true := by
  intro c hc
  unfold toStr at hc
  simp only [List.mem_append] at hc
  rcases hc with (h | h) | h
  · split at h
    · simp at h; subst h; decide
    · cases h
  · exact strBody_chars _ _ c h
  · exact expPart_chars _ c h

/-- The printed digits, point and exponent denote the number, wherever the point is put. -/
theorem strBody_parse (neg : Bool) (n : ℕ) (e dp : ℤ) :
    ∃ d' : Dec, parseUnsigned neg (strBody (natToStr n) dp ++ expPart (e + numDigits n - dp)) = some (.fin d') ∧
      d'.neg = neg ∧ (d'.coef : ℚ) * 10 ^ d'.exp = (n : ℚ) * 10 ^ e := by
  have hdd := natToStr_all_digits n
  have hlen : ((natToStr n).length : ℤ) = numDigits n := rfl
  have hlen0 := numDigits_pos n
  have hexp := parseExp_expPart (e + numDigits n - dp)
  have hexh := expPart_head (e + numDigits n - dp)
  unfold strBody
  by_cases h1 : dp ≤ 0
  · rw [if_pos h1]
    have hb : '0' :: '.' :: (List.replicate (-dp).toNat '0' ++ natToStr n) ++ expPart (e + numDigits n - dp)
        = ['0'] ++ '.' :: ((List.replicate (-dp).toNat '0' ++ natToStr n) ++ expPart (e + numDigits n - dp)) := by
      simp
    rw [hb, parseUnsigned_lit neg _ _ _ _ (by decide) (by simp) ?_ hexp (fun c hc => (hexh c hc).1)]
    · refine ⟨_, rfl, rfl, ?_⟩
      have e1 : strToNat (['0'] ++ (List.replicate (-dp).toNat '0' ++ natToStr n)) = n := by
        rw [strToNat_append, strToNat_append, strToNat_replicate_zero, strToNat_natToStr]
        simp [strToNat, digitVal?]
      simp only [e1]
      congr 2
      simp only [List.length_append, List.length_replicate]; omega
    · intro c hc
      rcases List.mem_append.1 hc with h | h
      · exact zeros_digit _ c h
      · exact hdd c h
  · rw [if_neg h1]
    by_cases h2 : dp ≥ (natToStr n).length
    · rw [if_pos h2]
      rw [parseUnsigned_int neg _ _ _ ?_ (by simp [natToStr_ne_nil]) hexp hexh]
      · refine ⟨_, rfl, rfl, ?_⟩
        have e1 : strToNat (natToStr n ++ List.replicate (dp - (natToStr n).length).toNat '0')
            = n * 10 ^ (dp - (natToStr n).length).toNat := by
          rw [strToNat_append, strToNat_replicate_zero, strToNat_natToStr]; simp
        simp only [e1]
        push_cast
        rw [zp_toNat (by omega), mul_assoc, ← zp_add]
        congr 2; omega
      · intro c hc
        rcases List.mem_append.1 hc with h | h
        · exact hdd c h
        · exact zeros_digit _ c h
    · rw [if_neg h2]
      have hb : (natToStr n).take dp.toNat ++ '.' :: (natToStr n).drop dp.toNat ++ expPart (e + numDigits n - dp)
        = (natToStr n).take dp.toNat ++ '.' :: ((natToStr n).drop dp.toNat ++ expPart (e + numDigits n - dp)) := by
        simp
      rw [hb, parseUnsigned_lit neg _ _ _ _ (fun c hc => hdd c (List.mem_of_mem_take hc)) ?_
        (fun c hc => hdd c (List.mem_of_mem_drop hc)) hexp (fun c hc => (hexh c hc).1)]
      · refine ⟨_, rfl, rfl, ?_⟩
        simp only [List.take_append_drop, strToNat_natToStr]
        congr 2
        simp only [List.length_drop]; omega
      · intro hnil
        have := congrArg List.length hnil
        simp only [List.length_take, List.length_nil] at this
        omega

/-- `Decimal(str(d))` and `Decimal(d.to_eng_string())` denote the same number as `d`. -/
theorem toStr_parse (eng : Bool) (d : Dec) :
    ∃ d' : Dec, parse (toStr eng d) = some (.fin d') ∧ d'.val = d.val ∧ d'.neg = d.neg := by
  rw [parse_num (toStr_chars eng d)]
  obtain ⟨d', h1, h2, h3⟩ := strBody_parse d.neg d.coef d.exp (dotPlace eng d)
  refine ⟨d', ?_, ?_, h2⟩
  · rw [← h1]
    unfold toStr
    cases hn : d.neg
    · obtain ⟨c, t, hct, hcd⟩ := strBody_head d.coef (dotPlace eng d)
      have c1 : c ≠ '-' := isDigit_ne hcd (by decide)
      have c2 : c ≠ '+' := isDigit_ne hcd (by decide)
      rw [hct]
      simp [parseSigned, c1, c2]
    · simp [parseSigned]
  · unfold Dec.val; rw [h2, mul_assoc, mul_assoc, h3]

theorem split2_no (s : Str) (h : ∀ c ∈ s, c ≠ 'e') : split2 'e' '-' s = [s] := by
  induction s with
  | nil => rfl
  | cons c s ih =>
    cases s with
    | nil => rfl
    | cons d t =>
      have hc : c ≠ 'e' := h c (by simp)
      rw [split2, if_neg (by simp [hc]), ih (fun x hx => h x (by simp [hx]))]

theorem negSciNot_id {s : Str} (h : ∀ c ∈ s, c ≠ 'e') : negSciNot s = s := by
  unfold negSciNot; rw [split2_no s h]

theorem toStr_no_e (eng : Bool) (d : Dec) : ∀ c ∈ toStr eng d, c ≠ 'e' :=
  fun c hc => numChar_ne_e (toStr_chars eng d c hc)

/-- Re-reading any printed contract decimal. -/
theorem cdOfStr_toStr (eng : Bool) {d : Dec} (h : IsCD d) :
    ∃ d', cdOfStr (toStr eng d) = .ok d' ∧ d'.val = d.val := by
  obtain ⟨p, hp, hv, _⟩ := toStr_parse eng d
  unfold cdOfStr
  rw [negSciNot_id (toStr_no_e eng d), hp]
  have := fixPrecision_agrees p
  rw [hv, h.fix] at this
  exact this

end Verif
