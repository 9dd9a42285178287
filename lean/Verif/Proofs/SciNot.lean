import Verif.Proofs.DecimalCanon
/-!
# `neg_sci_not` on every number text
-/
namespace Verif
open Dec

/-- Integer digits, then a point and fraction digits if there is a point. -/
def mant (ip fs : Str) (dot : Bool) : Str := ip ++ (if dot then '.' :: fs else [])

/-- A sign text: none, `+` or `-`. -/
def IsSign (sgn : Str) : Prop := sgn = [] ∨ sgn = ['+'] ∨ sgn = ['-']

theorem mant_chars {ip fs : Str} {dot : Bool} (hip : ∀ c ∈ ip, isDigit c = true) (hfs : ∀ c ∈ fs, isDigit c = true) :
    ∀ c ∈ mant ip fs dot, isDigit c = true ∨ c = '.' := by
  intro c hc
  unfold mant at hc
  rcases List.mem_append.1 hc with h | h
  · exact .inl (hip c h)
  · cases dot
    · cases h
    · rcases List.mem_cons.1 h with rfl | h
      · exact .inr rfl
      · exact .inl (hfs c h)

theorem parseUnsigned_mant (neg : Bool) {ip fs ex : Str} {dot : Bool} {e : ℤ} (hip : ∀ c ∈ ip, isDigit c = true)
    (hfs : ∀ c ∈ fs, isDigit c = true) (hdot : dot = false → fs = []) (hne : ip ++ fs ≠ [])
    (hex : parseExp ex = some e) (hx0 : ∀ c, ex.head? = some c → isDigit c = false ∧ c ≠ '.') :
    parseUnsigned neg (mant ip fs dot ++ ex) = some (.fin ⟨neg, strToNat (ip ++ fs), e - fs.length⟩) := by
  cases dot with
  | false =>
    have := hdot rfl
    subst this
    rw [List.append_nil] at hne
    have := parseUnsigned_int neg ip ex e hip hne hex hx0
    simpa [mant] using this
  | true =>
    unfold mant parseUnsigned
    have h1 : spanDigits ((ip ++ if true then '.' :: fs else []) ++ ex) = (ip, '.' :: (fs ++ ex)) := by
      rw [if_pos rfl, List.append_assoc, List.cons_append]
      exact span_append hip (by intro c hc; simp at hc; subst hc; decide)
    have h2 : spanDigits (fs ++ ex) = (fs, ex) := span_append hfs (fun c hc => (hx0 c hc).1)
    rw [h1]
    simp only [splitFrac, if_true, h2, hex]
    rw [if_neg (by
      rintro ⟨a, b⟩
      exact hne (by rw [a, b]; rfl))]

/-- `Decimal(text)` of a number text. -/
theorem parse_text {sgn ip fs ex : Str} {dot : Bool} {e : ℤ} (hsgn : IsSign sgn) (hip : ∀ c ∈ ip, isDigit c = true)
    (hfs : ∀ c ∈ fs, isDigit c = true) (hdot : dot = false → fs = []) (hne : ip ++ fs ≠ [])
    (hex : parseExp ex = some e) (hx0 : ∀ c, ex.head? = some c → isDigit c = false ∧ c ≠ '.')
    (hxs : ∀ c ∈ ex, isSpace c = false ∧ c ≠ '_') :
    parse (sgn ++ (mant ip fs dot ++ ex)) = some (.fin ⟨decide (sgn = ['-']), strToNat (ip ++ fs), e - fs.length⟩) := by
  have hm := mant_chars (dot := dot) hip hfs
  have hsp : ∀ c ∈ sgn ++ (mant ip fs dot ++ ex), isSpace c = false ∧ c ≠ '_' := by
    intro c hc
    rcases List.mem_append.1 hc with h | h
    · rcases hsgn with rfl | rfl | rfl
      · cases h
      · rw [List.mem_singleton.1 h]; decide
      · rw [List.mem_singleton.1 h]; decide
    · rcases List.mem_append.1 h with h | h
      · rcases hm c h with h | rfl
        · exact ⟨isDigit_not_space h, isDigit_ne h (by decide)⟩
        · decide
      · exact hxs c h
  have hdw : ∀ t : Str, (∀ c ∈ t, isSpace c = false) → t.dropWhile isSpace = t := by
    intro t ht
    cases t with
    | nil => rfl
    | cons c t => simp [List.dropWhile, ht c (by simp)]
  have hstrip : strip (sgn ++ (mant ip fs dot ++ ex)) = sgn ++ (mant ip fs dot ++ ex) := by
    unfold strip
    rw [hdw _ (fun c hc => (hsp c hc).1), hdw, List.reverse_reverse]
    intro c hc; exact (hsp c (List.mem_reverse.1 hc)).1
  have hfil : (sgn ++ (mant ip fs dot ++ ex)).filter (· ≠ '_') = sgn ++ (mant ip fs dot ++ ex) := by
    rw [List.filter_eq_self]; intro c hc; simpa using (hsp c hc).2
  unfold parse
  rw [hstrip, hfil]
  have hpu := fun neg => parseUnsigned_mant neg hip hfs hdot hne hex hx0
  rcases hsgn with rfl | rfl | rfl
  · obtain ⟨c, t, hct⟩ : ∃ c t, mant ip fs dot = c :: t := by
      apply List.exists_cons_of_ne_nil
      intro h0
      unfold mant at h0
      have h1 := (List.append_eq_nil_iff.1 h0).1
      have h2 := (List.append_eq_nil_iff.1 h0).2
      cases dot
      · rw [h1, hdot rfl] at hne; exact hne rfl
      · cases h2
    have h3 := hm c (by rw [hct]; exact List.mem_cons_self)
    have c1 : c ≠ '-' := by
      rcases h3 with h | rfl
      · exact isDigit_ne h (by decide)
      · decide
    have c2 : c ≠ '+' := by
      rcases h3 with h | rfl
      · exact isDigit_ne h (by decide)
      · decide
    have := hpu false
    rw [hct] at this ⊢
    rw [List.nil_append, List.cons_append, parseSigned, if_neg c1, if_neg c2]
    exact this
  · exact hpu false
  · exact hpu true

theorem pyInt_digits {es : Str} (hes : ∀ c ∈ es, isDigit c = true) (hne : es ≠ []) : pyInt es = some (strToNat es : ℤ) := by
  obtain ⟨c, t, rfl⟩ := List.exists_cons_of_ne_nil hne
  have hall : (c :: t).all isDigit = true := by rw [List.all_eq_true]; exact hes
  have hcd := hes c (by simp)
  unfold pyInt
  rw [strip_num (fun x hx => digit_numChar (hes x hx))]
  split
  · rename_i heq; injection heq with h _; subst h; exact absurd hcd (by decide)
  · rename_i heq; injection heq with h _; subst h; exact absurd hcd (by decide)
  · simp only [ne_eq, reduceCtorEq, not_false_eq_true, hall, and_self, if_true]

theorem floatGt9_mant {sgn ip fs : Str} {dot : Bool} (hsgn : IsSign sgn) (hip : ∀ c ∈ ip, isDigit c = true)
    (hfs : ∀ c ∈ fs, isDigit c = true) (hdot : dot = false → fs = []) (hne : ip ++ fs ≠ []) :
    floatGt9 (sgn ++ mant ip fs dot) =
      some (decide (sgn ≠ ['-'] ∧ (9 + 1 / 2 ^ 50 : ℚ) < (strToNat (ip ++ fs) : ℚ) / 10 ^ fs.length)) := by
  have hp := parse_text hsgn hip hfs hdot hne (ex := []) (e := 0) rfl (by simp) (by simp)
  rw [List.append_nil] at hp
  have hus : (sgn ++ mant ip fs dot).contains '_' = false := by
    rw [Bool.eq_false_iff]; intro hc
    rw [List.contains_iff_mem] at hc
    rcases List.mem_append.1 hc with h | h
    · rcases hsgn with rfl | rfl | rfl
      · cases h
      · simp at h
      · simp at h
    · rcases mant_chars (dot := dot) hip hfs _ h with h | h
      · exact absurd h (by decide)
      · exact absurd h (by decide)
  unfold floatGt9
  rw [hus, hp]
  simp only [Bool.false_eq_true, if_false, Option.some.injEq]
  rw [Bool.eq_iff_iff, lt_iff, decide_eq_true_eq]
  have e1 : (⟨false, 9 * 10 ^ 50 + 5 ^ 50, -50⟩ : Dec).val = 9 + 1 / 2 ^ 50 := by
    simp only [Dec.val]; norm_num
  have e2 : (⟨decide (sgn = ['-']), strToNat (ip ++ fs), 0 - (fs.length : ℤ)⟩ : Dec).val =
      (if sgn = ['-'] then -1 else 1) * ((strToNat (ip ++ fs) : ℚ) / 10 ^ fs.length) := by
    simp only [Dec.val, zero_sub, zpow_neg, zpow_natCast, div_eq_mul_inv, decide_eq_true_eq]
    ring
  rw [e1, e2]
  have hpos : (0 : ℚ) ≤ (strToNat (ip ++ fs) : ℚ) / 10 ^ fs.length := by positivity
  by_cases hs : sgn = ['-']
  · rw [if_pos hs]
    constructor
    · intro h
      exfalso
      have : (0 : ℚ) < 9 + 1 / 2 ^ 50 := by positivity
      linarith
    · rintro ⟨h, _⟩; exact absurd hs h
  · rw [if_neg hs, one_mul]
    exact ⟨fun h => ⟨hs, h⟩, fun h => h.2⟩

theorem parseExp_text {x : Char} {sg es : Str} (hx : x = 'e' ∨ x = 'E') (hsg : IsSign sg) (hes : ∀ c ∈ es, isDigit c = true) (hes0 : es ≠ []) :
    parseExp (x :: (sg ++ es)) = some (if sg = ['-'] then -(strToNat es : ℤ) else strToNat es) := by
  have hall : es.all isDigit = true := by rw [List.all_eq_true]; exact hes
  rcases hsg with rfl | rfl | rfl
  · obtain ⟨c, t, rfl⟩ := List.exists_cons_of_ne_nil hes0
    have c1 : c ≠ '-' := isDigit_ne (hes c List.mem_cons_self) (by decide)
    have c2 : c ≠ '+' := isDigit_ne (hes c List.mem_cons_self) (by decide)
    unfold parseExp
    split
    · rename_i heq; cases heq
    · rename_i heq
      injection heq with h1 h2
      subst h1 h2
      rw [if_pos hx]
      split
      rename_i heq
      split at heq
      · rename_i heq2; injection heq2 with h1 _; exact absurd h1 c1
      · rename_i heq2; injection heq2 with h1 _; exact absurd h1 c2
      · cases heq
        rw [List.nil_append, if_pos ⟨hes0, hall⟩]
        simp
  · rcases hx with rfl | rfl <;> simp [parseExp, hes0, hall]
  · rcases hx with rfl | rfl <;> simp [parseExp, hes0, hall]

theorem split2_single (a t : Str) (ha : ∀ c ∈ a, c ≠ 'e') (ht : ∀ c ∈ t, c ≠ 'e') (hm : t.head? ≠ some '-') :
    split2 'e' '-' (a ++ 'e' :: t) = [a ++ 'e' :: t] := by
  induction a with
  | nil =>
    cases t with
    | nil => rfl
    | cons d t =>
      have : d ≠ '-' := fun h => hm (by rw [h]; rfl)
      rw [List.nil_append, split2, if_neg (by simp [this]), split2_no _ ht]
  | cons c a ih =>
    have hc : c ≠ 'e' := ha c List.mem_cons_self
    have ih' := ih (fun x hx => ha x (List.mem_cons_of_mem _ hx))
    cases a with
    | nil =>
      simp only [List.nil_append] at ih'
      rw [List.cons_append, List.nil_append, split2, if_neg (by simp [hc]), ih']
    | cons d a =>
      simp only [List.cons_append] at ih' ⊢
      rw [split2, if_neg (by simp [hc]), ih']

end Verif
