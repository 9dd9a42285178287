import Verif.Proofs.DecimalText
/-! # Canonical representation and negative-exponent notation -/
namespace Verif
open Dec

theorem canonical_unique {a b : Dec} (ha : Canonical a) (hb : Canonical b) (hv : a.val = b.val)
    (hn : a.val = 0 → a.neg = b.neg) : a = b := by
  have hc : (a.coef : ℚ) * 10 ^ a.exp = (b.coef : ℚ) * 10 ^ b.exp := by
    rw [← abs_val, ← abs_val, hv]
  have aux : ∀ {m n : ℕ} {e f : ℤ}, e ≤ f → (m : ℚ) * 10 ^ e = n * 10 ^ f → m = n * 10 ^ (f - e).toNat := by
    intro m n e f hef h
    have : (m:ℚ) = (n:ℚ) * 10 ^ (f - e) := by
      rw [zp_sub, mul_div_assoc', eq_div_iff (zp_pos e).ne', h]
    rw [← zp_toNat (by omega)] at this
    exact_mod_cast this
  by_cases h0 : a.val = 0
  · have a0 := val_eq_zero.1 h0
    have b0 := val_eq_zero.1 (hv ▸ h0)
    have := ha.2.1 a0
    have := hb.2.1 b0
    cases a; cases b; simp_all
  · have a0 : a.coef ≠ 0 := fun h => h0 (val_zero h)
    have b0 : b.coef ≠ 0 := fun h => h0 (hv.trans (val_zero h))
    have ha10 := ha.2.2 a0
    have hb10 := hb.2.2 b0
    have he : a.exp = b.exp := by
      rcases lt_trichotomy a.exp b.exp with h | h | h
      · exfalso
        have := aux h.le hc
        have h10 : 10 ∣ 10 ^ (b.exp - a.exp).toNat := dvd_pow_self 10 (by omega)
        have : 10 ∣ a.coef := by rw [this]; exact Dvd.dvd.mul_left h10 _
        omega
      · exact h
      · exfalso
        have := aux h.le hc.symm
        have h10 : 10 ∣ 10 ^ (a.exp - b.exp).toNat := dvd_pow_self 10 (by omega)
        have : 10 ∣ b.coef := by rw [this]; exact Dvd.dvd.mul_left h10 _
        omega
    have hcoef : a.coef = b.coef := by
      rw [he] at hc
      exact_mod_cast mul_right_cancel₀ (zp_pos _).ne' hc
    have hneg : a.neg = b.neg := by
      by_contra hne
      apply h0
      have h1 : a.val = - b.val := by
        unfold Dec.val
        rw [hcoef, he]
        cases hx : a.neg <;> cases hy : b.neg <;> simp_all
      linarith
    cases a; cases b; simp_all

theorem IsCD.canon {d : Dec} (h : IsCD d) : d = maxDecimal ∨ Canonical d := by
  obtain ⟨x, hx⟩ := h
  rcases fixPrecision_full x with ⟨_, h2⟩ | ⟨_, _, d', h3, _, h5, _⟩ | ⟨_, _, h3⟩
  · rw [hx] at h2; cases h2; exact Or.inl rfl
  · rw [hx] at h3; cases h3; exact Or.inr h5
  · rw [hx] at h3; cases h3

/-- The canonical form of the cap. -/
def capCanonical : Dec := ⟨false, 1, 29⟩

theorem capCanonical_val : capCanonical.val = 10 ^ 29 := by
  unfold capCanonical Dec.val; norm_num

theorem capCanonical_canonical : Canonical capCanonical := by unfold capCanonical Canonical; decide

/-- Re-normalising a contract decimal. -/
theorem fixPrecision_cd {d : Dec} (h : IsCD d) :
    ∃ d', fixPrecision d = .ok d' ∧ d'.val = d.val ∧ d'.neg = d.neg ∧ Canonical d' ∧ (Canonical d → d' = d) := by
  obtain ⟨h1, h2, h3⟩ := fix_some_iff.1 h.fix
  rcases fixPrecision_full d with ⟨h4, _⟩ | ⟨_, _, d', h5, h6, h7, h8⟩ | ⟨_, h4, _⟩
  · linarith
  · rw [h3] at h6
    exact ⟨d', h5, h6, h8, h7, fun hc => canonical_unique h7 hc h6 (fun _ => h8)⟩
  · rw [h3] at h4; linarith

/-- Re-reading a printed canonical contract decimal gives the very same object. -/
theorem cdOfStr_toStr_canonical (eng : Bool) {d : Dec} (h : IsCD d) (hc : Canonical d) :
    cdOfStr (toStr eng d) = .ok d := by
  obtain ⟨p, hp, hv, hn⟩ := toStr_parse eng d
  unfold cdOfStr
  rw [negSciNot_id (toStr_no_e eng d), hp]
  show fixPrecision p = .ok d
  obtain ⟨h1, h2, h3⟩ := fix_some_iff.1 h.fix
  rcases fixPrecision_full p with ⟨h4, _⟩ | ⟨_, _, d', h5, h6, h7, h8⟩ | ⟨_, h4, _⟩
  · rw [hv] at h4; linarith
  · rw [hv, h3] at h6
    rw [h5, canonical_unique h7 hc h6 (fun _ => h8.trans hn)]
  · rw [hv, h3] at h4; linarith

/-! ### `neg_sci_not` -/

theorem split2_append (s t : Str) (hs : ∀ c ∈ s, c ≠ 'e') (ht : ∀ c ∈ t, c ≠ 'e') :
    split2 'e' '-' (s ++ 'e' :: '-' :: t) = [s, t] := by
  induction s with
  | nil => simp [split2, split2_no t ht]
  | cons c s ih =>
    have hc : c ≠ 'e' := hs c (by simp)
    have ih' := ih (fun x hx => hs x (by simp [hx]))
    cases s with
    | nil =>
      simp only [List.nil_append] at ih'
      simp [split2, hc, split2_no t ht]
    | cons d s =>
      simp only [List.cons_append] at ih' ⊢
      rw [split2, if_neg (by simp [hc]), ih']

/-- Number denoted by `d.fs e-es`. -/
def sciVal (d : Char) (fs es : Str) : ℚ :=
  (strToNat (d :: fs) : ℚ) * 10 ^ (-(fs.length : ℤ) - (strToNat es : ℤ))

theorem digits_filter_dot {s : Str} (h : ∀ c ∈ s, isDigit c = true) : s.filter (· ≠ '.') = s := by
  rw [List.filter_eq_self]
  intro c hc; simpa using isDigit_ne (h c hc) (by decide)

theorem parse_sci (d : Char) (fs es : Str) (dot : Bool) (hd : isDigit d = true)
    (hfs : ∀ c ∈ fs, isDigit c = true) (hdot : dot = false → fs = [])
    (hes : ∀ c ∈ es, isDigit c = true) (hne : es ≠ []) :
    ∃ p : Dec, parse ((d :: (if dot then '.' :: fs else [])) ++ 'e' :: '-' :: es) = some (.fin p) ∧
      p.val = sciVal d fs es := by
  have hsp : ∀ c ∈ ((d :: (if dot then '.' :: fs else [])) ++ 'e' :: '-' :: es), isSpace c = false ∧ c ≠ '_' := by
    intro c hc
    have hdig : ∀ c, isDigit c = true → isSpace c = false ∧ c ≠ '_' :=
      fun c h => ⟨isDigit_not_space h, isDigit_ne h (by decide)⟩
    simp only [List.mem_append, List.mem_cons] at hc
    rcases hc with (rfl | hc) | rfl | rfl | hc
    · exact hdig _ hd
    · cases dot
      · simp at hc
      · simp only [if_true, List.mem_cons] at hc
        rcases hc with rfl | hc
        · decide
        · exact hdig _ (hfs c hc)
    · decide
    · decide
    · exact hdig _ (hes c hc)
  set s := ((d :: (if dot then '.' :: fs else [])) ++ 'e' :: '-' :: es) with hs
  have hdw : ∀ t : Str, (∀ c ∈ t, isSpace c = false) → t.dropWhile isSpace = t := by
    intro t ht
    cases t with
    | nil => rfl
    | cons c t => simp [List.dropWhile, ht c (by simp)]
  have hstrip : strip s = s := by
    unfold strip
    rw [hdw s (fun c hc => (hsp c hc).1), hdw, List.reverse_reverse]
    intro c hc; exact (hsp c (List.mem_reverse.1 hc)).1
  have hfil : s.filter (· ≠ '_') = s := by
    rw [List.filter_eq_self]; intro c hc; simpa using (hsp c hc).2
  have c1 : d ≠ '-' := isDigit_ne hd (by decide)
  have c2 : d ≠ '+' := isDigit_ne hd (by decide)
  have hpe : parseExp ('e' :: '-' :: es) = some (-(strToNat es : ℤ)) := by
    have : es.all isDigit = true := by rw [List.all_eq_true]; exact hes
    simp [parseExp, hne, this]
  have hfin : parse s = some (.fin ⟨false, strToNat (d :: fs), -(strToNat es : ℤ) - fs.length⟩) := by
    unfold parse
    rw [hstrip, hfil, hs]
    simp only [List.cons_append, parseSigned, if_neg c1, if_neg c2]
    cases dot
    · rw [hdot rfl]
      have := parseUnsigned_int false [d] ('e' :: '-' :: es) _ (by simpa using hd) (by simp) hpe
        (by intro c hc; simp at hc; subst hc; decide)
      simpa using this
    · have := parseUnsigned_lit false [d] fs ('e' :: '-' :: es) _ (by simpa using hd) (by simp) hfs hpe
        (by intro c hc; simp at hc; subst hc; decide)
      simpa using this
  refine ⟨_, hfin, ?_⟩
  unfold Dec.val sciVal
  simp only [Bool.false_eq_true, if_false, one_mul]
  congr 2; ring

/-- One digit before the point, positive exponent: the rewriting keeps the number. -/
theorem negSciNot_val (d : Char) (fs es : Str) (dot : Bool) (hd : isDigit d = true)
    (hfs : ∀ c ∈ fs, isDigit c = true) (hdot : dot = false → fs = [])
    (hes : ∀ c ∈ es, isDigit c = true) (hne : es ≠ []) (hpos : 0 < strToNat es) :
    ∃ p : Dec, parse (negSciNot ((d :: (if dot then '.' :: fs else [])) ++ 'e' :: '-' :: es)) = some (.fin p) ∧
      p.val = sciVal d fs es := by
  set base := (d :: (if dot then '.' :: fs else [])) with hbase
  have hbe : ∀ c ∈ base, c ≠ 'e' := by
    intro c hc
    simp only [hbase, List.mem_cons] at hc
    rcases hc with rfl | hc
    · exact isDigit_ne hd (by decide)
    · cases dot
      · simp at hc
      · simp only [if_true, List.mem_cons] at hc
        rcases hc with rfl | hc
        · decide
        · exact isDigit_ne (hfs c hc) (by decide)
  have hse : ∀ c ∈ es, c ≠ 'e' := fun c hc => isDigit_ne (hes c hc) (by decide)
  have hint : pyInt es = some (strToNat es : ℤ) := by
    obtain ⟨c, t, rfl⟩ := List.exists_cons_of_ne_nil hne
    have hall : (c :: t).all isDigit = true := by rw [List.all_eq_true]; exact hes
    have hcd := hes c (by simp)
    unfold pyInt
    rw [strip_num (fun x hx => digit_numChar (hes x hx))]
    split
    · rename_i heq; injection heq with h _; subst h; exact absurd hcd (by decide)
    · rename_i heq; injection heq with h _; subst h; exact absurd hcd (by decide)
    · simp only [ne_eq, reduceCtorEq, not_false_eq_true, hall, and_self, if_true]
  unfold negSciNot
  rw [split2_append base es hbe hse]
  simp only []
  cases hf : floatGt9 base with
  | none => exact parse_sci d fs es dot hd hfs hdot hes hne
  | some b =>
    cases b with
    | true => exact parse_sci d fs es dot hd hfs hdot hes hne
    | false =>
      simp only [hint]
      have hfb : base.filter (· ≠ '.') = d :: fs := by
        have hdd : d ≠ '.' := isDigit_ne hd (by decide)
        have hdd2 : fs.filter (· ≠ '.') = fs := digits_filter_dot hfs
        rw [hbase]
        cases dot
        · rw [hdot rfl]; simp [hdd]
        · simp only [if_true, List.filter_cons, ne_eq, hdd, not_false_eq_true, decide_true, decide_false,
            not_true_eq_false, Bool.false_eq_true, if_false]
          rw [hdd2]
      have hfb' : base.filter (fun x => decide (x ≠ '.')) = d :: fs := hfb
      rw [hfb', if_pos (by omega)]
      set k := ((strToNat es : ℤ) - 1).toNat with hk
      have hall : ∀ c ∈ List.replicate k '0' ++ d :: fs, isDigit c = true := by
        intro c hc
        simp only [List.mem_append, List.mem_cons] at hc
        rcases hc with h | rfl | h
        · exact zeros_digit _ c h
        · exact hd
        · exact hfs c h
      have hnum : ∀ c ∈ '0' :: '.' :: (List.replicate k '0' ++ d :: fs), numChar c = true := by
        intro c hc
        simp only [List.mem_cons] at hc
        rcases hc with rfl | rfl | hc
        · decide
        · decide
        · exact digit_numChar (hall c hc)
      have := parseUnsigned_lit false ['0'] (List.replicate k '0' ++ d :: fs) [] 0 (by decide) (by simp) hall
        (by simp [parseExp]) (by simp)
      refine ⟨⟨false, strToNat (['0'] ++ (List.replicate k '0' ++ d :: fs)), 0 - (List.replicate k '0' ++ d :: fs).length⟩, ?_, ?_⟩
      · rw [parse_num hnum, parseSigned, if_neg (by decide), if_neg (by decide), ← this]
        simp
      · have e1 : strToNat (['0'] ++ (List.replicate k '0' ++ d :: fs)) = strToNat (d :: fs) := by
          rw [strToNat_append, strToNat_append, strToNat_replicate_zero]
          simp [strToNat, digitVal?]
        unfold Dec.val sciVal
        simp only [Bool.false_eq_true, if_false, one_mul, e1]
        congr 2
        simp only [List.length_append, List.length_replicate, List.length_cons]
        omega

end Verif
