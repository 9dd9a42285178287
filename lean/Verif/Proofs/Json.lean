import Verif.Model.Encoder
import Verif.Proofs.DecimalText
import Verif.Spec.Value
/-! # JSON text round trip -/
namespace Verif
open Dec

theorem hexVal_hexChar : ∀ {n : ℕ}, n < 16 → hexVal? (hexChar n) = some n := by
  decide

theorem hex4_spec {n : ℕ} (h : n < 65536) (t : Str) :
    hex4 (hexChar (n / 4096 % 16) :: hexChar (n / 256 % 16) :: hexChar (n / 16 % 16) :: hexChar (n % 16) :: t)
      = some (n, t) := by
  simp only [hex4, hexVal_hexChar (Nat.mod_lt _ (by norm_num : 0 < 16))]
  simp only [bind, Option.bind, pure]
  congr 2
  omega

theorem char_range (c : Char) : c.toNat < 0xd800 ∨ (0xdfff < c.toNat ∧ c.toNat < 0x110000) := by
  have := c.valid
  unfold UInt32.isValidChar Nat.isValidChar at this
  exact this

theorem parseU_bmp (c : Char) (t : Str) (h : c.toNat < 0x10000) :
    parseU (hexChar (c.toNat / 4096 % 16) :: hexChar (c.toNat / 256 % 16) ::
        hexChar (c.toNat / 16 % 16) :: hexChar (c.toNat % 16) :: t) = some (c, t) := by
  have hc := char_range c
  unfold parseU
  rw [hex4_spec (by omega)]
  have a1 : ¬ (0xd800 ≤ c.toNat ∧ c.toNat ≤ 0xdbff) := by omega
  have a2 : ¬ (0xdc00 ≤ c.toNat ∧ c.toNat ≤ 0xdfff) := by omega
  simp only [if_neg a1, if_neg a2, Char.ofNat_toNat]

theorem parseU_pair (c : Char) (t : Str) (h : 0x10000 ≤ c.toNat) (hi lo : ℕ)
    (hhi : hi = 0xd800 + (c.toNat - 0x10000) / 1024) (hlo : lo = 0xdc00 + (c.toNat - 0x10000) % 1024) :
    parseU (hexChar (hi / 4096 % 16) :: hexChar (hi / 256 % 16) ::
        hexChar (hi / 16 % 16) :: hexChar (hi % 16) :: '\\' :: 'u' :: hexChar (lo / 4096 % 16) ::
        hexChar (lo / 256 % 16) :: hexChar (lo / 16 % 16) :: hexChar (lo % 16) :: t) = some (c, t) := by
  have hc := char_range c
  unfold parseU
  rw [hex4_spec (by omega)]
  have a1 : (0xd800 ≤ hi ∧ hi ≤ 0xdbff) := by omega
  have a2 : (0xdc00 ≤ lo ∧ lo ≤ 0xdfff) := by omega
  simp only [if_pos a1, and_self, if_true]
  rw [hex4_spec (by omega)]
  simp only [if_pos a2]
  have : 0x10000 + (hi - 0xd800) * 1024 + (lo - 0xdc00) = c.toNat := by omega
  rw [this, Char.ofNat_toNat]

theorem parseStrTail_u (f : ℕ) (s : Str) : parseStrTail (f + 1) ('\\' :: 'u' :: s) =
    match parseU s with
    | none => none
    | some (c, s) => (parseStrTail f s).map fun (t, r) => (c :: t, r) := by
  rw [parseStrTail]
  simp only [show ('\\' : Char) ≠ '"' by decide, if_false, if_true]
  cases parseU s <;> rfl

theorem parseStrTail_esc (f : ℕ) (c : Char) (t : Str) :
    parseStrTail (f + 1) (escChar c ++ t) = (parseStrTail f t).map fun (s, r) => (c :: s, r) := by
  unfold escChar
  by_cases h1 : c = '"'
  · subst h1; simp [parseStrTail, backslash]
  by_cases h2 : c = '\\'
  · subst h2; simp [parseStrTail, backslash]
  by_cases h3 : c = '\n'
  · subst h3; simp [parseStrTail, backslash]
  by_cases h4 : c = '\r'
  · subst h4; simp [parseStrTail, backslash]
  by_cases h5 : c = '\t'
  · subst h5; simp [parseStrTail, backslash]
  by_cases h6 : c = '\x0c'
  · subst h6; simp [parseStrTail, backslash]
  by_cases h7 : c = '\x08'
  · subst h7; simp [parseStrTail, backslash]
  rw [if_neg h1, if_neg h2, if_neg h3, if_neg h4, if_neg h5, if_neg h6, if_neg h7]
  by_cases h8 : 0x20 ≤ c.toNat ∧ c.toNat ≤ 0x7e
  · have h9 : ¬ c.toNat < 0x20 := Nat.not_lt.2 h8.1
    rw [if_pos h8]
    show parseStrTail (f + 1) (c :: t) = _
    rw [parseStrTail.eq_def]
    simp only [if_neg h1, if_neg h2, if_neg h9]
  rw [if_neg h8]
  by_cases h9 : c.toNat < 0x10000
  · rw [if_pos h9]
    simp only [uEsc, List.cons_append, List.nil_append]
    rw [parseStrTail_u, parseU_bmp c t h9]
  · rw [if_neg h9]
    simp only [uEsc, List.cons_append, List.nil_append]
    rw [parseStrTail_u, parseU_pair c t (Nat.le_of_not_lt h9) _ _ rfl rfl]

theorem parseStrTail_print (s : Str) (f : ℕ) (hf : s.length + 1 ≤ f) (t : Str) :
    parseStrTail f (escTail s ++ t) = some (s, t) := by
  unfold escTail
  induction s generalizing f with
  | nil =>
    obtain ⟨g, rfl⟩ : ∃ g, f = g + 1 := ⟨f - 1, by simp at hf; omega⟩
    simp [parseStrTail]
  | cons c s ih =>
    obtain ⟨g, rfl⟩ : ∃ g, f = g + 1 := ⟨f - 1, by simp at hf; omega⟩
    simp only [List.flatMap_cons, List.append_assoc] at ih ⊢
    rw [parseStrTail_esc, ih g (by simp at hf; omega)]
    rfl

theorem escTail_length (s : Str) : s.length + 1 ≤ (escTail s).length := by
  unfold escTail
  induction s with
  | nil => simp
  | cons c s ih =>
    simp only [List.flatMap_cons, List.length_append, List.length_cons, List.length_nil] at ih ⊢
    have : 1 ≤ (escChar c).length := by
      unfold escChar uEsc
      repeat' split
      all_goals simp
    omega

/-- What may follow a number without being swallowed by it. -/
def RestOk (r : Str) : Prop := ∀ c, r.head? = some c → isDigit c = false ∧ c ≠ '.' ∧ c ≠ 'e' ∧ c ≠ 'E'

theorem RestOk.nil : RestOk [] := by intro c h; cases h
theorem RestOk.cons {c : Char} {r : Str} (h : isDigit c = false) (h1 : c ≠ '.') (h2 : c ≠ 'e') (h3 : c ≠ 'E') :
    RestOk (c :: r) := by
  intro d hd; simp at hd; subst hd; exact ⟨h, h1, h2, h3⟩

theorem parseFrac_none {r : Str} (h : ∀ c, r.head? = some c → c ≠ '.') : parseFrac r = ([], r) := by
  cases r with
  | nil => rfl
  | cons c t => simp [parseFrac, h c rfl]

theorem parseExpo_none {r : Str} (h : ∀ c, r.head? = some c → c ≠ 'e' ∧ c ≠ 'E') : parseExpo r = (none, r) := by
  cases r with
  | nil => rfl
  | cons c t => simp [parseExpo, h c rfl]

/-- Integer part of a printed number. -/
theorem intPart (n : ℕ) {r : Str} (hr : ∀ c, r.head? = some c → isDigit c = false) :
    parseIntPart (natToStr n ++ r) = (natToStr n, r) := by
  by_cases h0 : n = 0
  · subst h0; rfl
  · have hh := natToStr_head (Nat.pos_of_ne_zero h0)
    have hs := span_append (natToStr_all_digits n) hr
    obtain ⟨c, t, hct⟩ := List.exists_cons_of_ne_nil (natToStr_ne_nil n)
    rw [hct] at hh hs ⊢
    simp only [List.head?_cons] at hh
    have : c ≠ '0' := fun h => hh (by rw [h])
    simp only [List.cons_append] at hs ⊢
    rw [parseIntPart, if_neg this, hs]

theorem parseNumU_int (neg : Bool) (n : ℕ) {r : Str} (hr : RestOk r) :
    parseNumU neg (natToStr n ++ r) = some (.int (if neg then -(n : ℤ) else n), r) := by
  unfold parseNumU
  rw [intPart n (fun c h => (hr c h).1)]
  simp only [natToStr_ne_nil, if_false, parseFrac_none (fun c h => (hr c h).2.1),
    parseExpo_none (fun c h => (hr c h).2.2), and_self, if_true, strToNat_natToStr]

theorem parseSign_spec {sg ds r : Str} (hsg : sg = [] ∨ sg = ['+'] ∨ sg = ['-']) (hne : ds ≠ [])
    (hds : ∀ c ∈ ds, isDigit c = true) : parseSign (sg ++ (ds ++ r)) = (sg, ds ++ r) := by
  rcases hsg with rfl | rfl | rfl
  · obtain ⟨c, t, rfl⟩ := List.exists_cons_of_ne_nil hne
    have hc := hds c (by simp)
    have c1 : c ≠ '-' := isDigit_ne hc (by decide)
    have c2 : c ≠ '+' := isDigit_ne hc (by decide)
    simp [parseSign, c1, c2]
  · simp [parseSign]
  · simp [parseSign]

theorem parseExpo_some {sg ds : Str} {r : Str} (hsg : sg = [] ∨ sg = ['+'] ∨ sg = ['-']) (hne : ds ≠ [])
    (hds : ∀ c ∈ ds, isDigit c = true) (hr : RestOk r) :
    parseExpo ('e' :: (sg ++ ds) ++ r) = (some (sg, ds), r) := by
  have hsp := span_append hds (fun c h => (hr c h).1)
  rw [List.cons_append, List.append_assoc, parseExpo, parseSign_spec hsg hne hds, hsp]
  simp [hne]

theorem parseFrac_some {fr : Str} {r : Str} (hne : fr ≠ []) (hds : ∀ c ∈ fr, isDigit c = true)
    (hr : ∀ c, r.head? = some c → isDigit c = false) : parseFrac ('.' :: (fr ++ r)) = (fr, r) := by
  rw [parseFrac, span_append hds hr]; simp [hne]

/-- Exponent text. -/
def expText (exp : Option (Str × Str)) : Str := (match exp with | none => [] | some p => 'e' :: (p.1 ++ p.2))

/-- Text after the integer part of a float. -/
def floatTail (frac : Str) (exp : Option (Str × Str)) : Str :=
  (if frac = [] then [] else '.' :: frac) ++ expText exp

theorem parseNumU_flt (neg : Bool) (n : ℕ) (frac : Str) (exp : Option (Str × Str)) {r : Str} (hr : RestOk r)
    (hw : (FloatTok.lit neg n frac exp).WF) :
    parseNumU neg (natToStr n ++ (floatTail frac exp ++ r)) = some (.flt (.lit neg n frac exp), r) := by
  obtain ⟨h1, h2, h3⟩ := hw
  have hex : parseExpo (expText exp ++ r) = (exp, r) := by
    cases exp with
    | none => simpa [expText] using parseExpo_none (fun c h => (hr c h).2.2)
    | some p =>
      obtain ⟨a, b, c⟩ := h3 p rfl
      exact parseExpo_some a b c hr
  have heth : ∀ c, (expText exp ++ r).head? = some c → isDigit c = false ∧ c ≠ '.' := by
    cases exp with
    | none => intro c h; exact ⟨(hr c h).1, (hr c h).2.1⟩
    | some p => intro c h; simp [expText] at h; subst h; decide
  have hfr : parseFrac (floatTail frac exp ++ r) = (frac, expText exp ++ r) := by
    unfold floatTail
    by_cases hf : frac = []
    · subst hf
      simpa using parseFrac_none (fun c h => (heth c h).2)
    · rw [if_neg hf]
      simp only [List.append_assoc, List.cons_append]
      exact parseFrac_some hf h1 (fun c h => (heth c h).1)
  have hhead : ∀ c, (floatTail frac exp ++ r).head? = some c → isDigit c = false := by
    unfold floatTail
    by_cases hf : frac = []
    · subst hf; intro c h; exact (heth c (by simpa using h)).1
    · rw [if_neg hf]; intro c h; simp at h; subst h; decide
  unfold parseNumU
  rw [intPart n hhead]
  simp only [natToStr_ne_nil, if_false, hfr, hex, strToNat_natToStr]
  rw [if_neg]
  rintro ⟨a, b⟩
  rcases h2 with h2 | h2
  · exact h2 a
  · exact h2 b

theorem startsWith_append (w r : Str) : startsWith (w ++ r) w = true := by
  unfold startsWith
  rw [List.isPrefixOf_iff_prefix]; exact List.prefix_append w r

theorem word_append (w r : Str) : word w (w ++ r) = some r := by
  unfold word; rw [startsWith_append]; simp

theorem digit_not_letter {c : Char} (h : isDigit c = true) :
    c ≠ 'n' ∧ c ≠ 't' ∧ c ≠ 'f' ∧ c ≠ 'N' ∧ c ≠ 'I' ∧ c ≠ '-' ∧ c ≠ '"' ∧ c ≠ '[' ∧ c ≠ '{' ∧ c ≠ ']' ∧ isWs c = false := by
  obtain ⟨n, hn, rfl⟩ := isDigit_iff.1 h
  match n, hn with
  | 0, _ | 1, _ | 2, _ | 3, _ | 4, _ | 5, _ | 6, _ | 7, _ | 8, _ | 9, _ => decide

theorem parseAtom_digits {neg : Bool} {n : ℕ} {t : Str} {x : JVal × Str}
    (h : parseNumU neg (natToStr n ++ t) = some x) :
    parseAtom ((if neg then ['-'] else []) ++ (natToStr n ++ t)) = some x := by
  cases neg with
  | true => simp [parseAtom, h]
  | false =>
    obtain ⟨c, u, hcu⟩ := List.exists_cons_of_ne_nil (natToStr_ne_nil n)
    have hc : isDigit c = true := natToStr_all_digits n c (by rw [hcu]; simp)
    obtain ⟨h1, h2, h3, h4, h5, h6, _⟩ := digit_not_letter hc
    simp only [Bool.false_eq_true, if_false, List.nil_append]
    rw [hcu] at h ⊢
    simp only [List.cons_append] at h ⊢
    simp only [parseAtom, h1, h2, h3, h4, h5, h6, if_false, h]

/-- First character of a number text. -/
theorem numText_head (neg : Bool) (n : ℕ) (t : Str) : ∃ c u, (if neg then ['-'] else []) ++ (natToStr n ++ t) = c :: u ∧
    c ≠ '"' ∧ c ≠ '[' ∧ c ≠ '{' ∧ c ≠ ']' ∧ isWs c = false := by
  cases neg with
  | true => exact ⟨'-', natToStr n ++ t, rfl, by decide⟩
  | false =>
    obtain ⟨c, u, hcu⟩ := List.exists_cons_of_ne_nil (natToStr_ne_nil n)
    have hc : isDigit c = true := natToStr_all_digits n c (by rw [hcu]; simp)
    obtain ⟨_, _, _, _, _, _, h⟩ := digit_not_letter hc
    exact ⟨c, u ++ t, by simp [hcu], h⟩

theorem intToStr_eq (i : ℤ) : ∃ (neg : Bool) (n : ℕ), intToStr i = (if neg then ['-'] else []) ++ natToStr n ∧
    i = (if neg then -(n : ℤ) else n) := by
  cases i with
  | ofNat n => exact ⟨false, n, rfl, rfl⟩
  | negSucc n => exact ⟨true, n + 1, rfl, by simp [Int.negSucc_eq]⟩

theorem FloatTok.text_lit (neg : Bool) (n : ℕ) (frac : Str) (exp : Option (Str × Str)) :
    (FloatTok.lit neg n frac exp).text = (if neg then ['-'] else []) ++ (natToStr n ++ floatTail frac exp) := by
  simp only [FloatTok.text, floatTail, expText, List.append_assoc]
  cases exp <;> rfl

mutual
/-- Trees whose floats are well-formed texts. -/
def JVal.WF : JVal → Prop
  | .flt t => t.WF
  | .arr xs => JVal.WFList xs
  | .obj kvs => JVal.WFItems kvs
  | _ => True
/-- Elements. -/
def JVal.WFList : List JVal → Prop
  | [] => True
  | x :: xs => JVal.WF x ∧ JVal.WFList xs
/-- Members. -/
def JVal.WFItems : List (Str × JVal) → Prop
  | [] => True
  | (_, v) :: kvs => JVal.WF v ∧ JVal.WFItems kvs
end

mutual
/-- Fuel needed by the parser. -/
def JVal.sz : JVal → ℕ
  | .arr xs => 1 + JVal.szList xs
  | .obj kvs => 1 + JVal.szItems kvs
  | _ => 1
/-- Elements. -/
def JVal.szList : List JVal → ℕ
  | [] => 0
  | x :: xs => 1 + JVal.sz x + JVal.szList xs
/-- Members. -/
def JVal.szItems : List (Str × JVal) → ℕ
  | [] => 0
  | (_, v) :: kvs => 1 + JVal.sz v + JVal.szItems kvs
end

/-- First character of a printed value. -/
theorem print_head (j : JVal) (r : Str) : ∃ c u, j.print ++ r = c :: u ∧ c ≠ ']' ∧ isWs c = false := by
  cases j with
  | null => exact ⟨'n', _, rfl, by decide⟩
  | bool b => cases b <;> [exact ⟨'f', _, rfl, by decide⟩; exact ⟨'t', _, rfl, by decide⟩]
  | int i =>
    obtain ⟨neg, n, h, _⟩ := intToStr_eq i
    obtain ⟨c, u, h1, _, _, _, h2⟩ := numText_head neg n r
    refine ⟨c, u, ?_, h2⟩
    rw [JVal.print, h, List.append_assoc, h1]
  | flt t =>
    cases t with
    | lit neg n frac exp =>
      obtain ⟨c, u, h1, _, _, _, h2⟩ := numText_head neg n (floatTail frac exp ++ r)
      refine ⟨c, u, ?_, h2⟩
      rw [JVal.print, FloatTok.text_lit, List.append_assoc, List.append_assoc, h1]
    | nan => exact ⟨'N', _, rfl, by decide⟩
    | inf b => cases b <;> [exact ⟨'I', _, rfl, by decide⟩; exact ⟨'-', _, rfl, by decide⟩]
  | str s => exact ⟨'"', _, rfl, by decide⟩
  | arr xs => exact ⟨'[', _, rfl, by decide⟩
  | obj kvs => exact ⟨'{', _, rfl, by decide⟩

theorem skipWs_cons {c : Char} {s : Str} (h : isWs c = false) : skipWs (c :: s) = c :: s := by
  simp [skipWs, List.dropWhile, h]

theorem parseVal_atom {f : ℕ} {s : Str} {c : Char} {u : Str} (hs : s = c :: u) (h1 : c ≠ '"') (h2 : c ≠ '[') (h3 : c ≠ '{') :
    parseVal (f + 1) s = parseAtom s := by
  subst hs
  simp [parseVal, h1, h2, h3]

mutual
theorem parse_print (j : JVal) (hw : j.WF) (f : ℕ) (hf : j.sz ≤ f) (r : Str) (hr : RestOk r) :
    parseVal f (j.print ++ r) = some (j, r) := by
  match j with
  | .null =>
    obtain ⟨g, rfl⟩ : ∃ g, f = g + 1 := ⟨f - 1, by simp [JVal.sz] at hf; omega⟩
    rw [JVal.print, List.cons_append, parseVal_atom (c := 'n') rfl (by decide) (by decide) (by decide)]
    have := word_append (py! "null") r
    simp only [List.cons_append, List.nil_append] at this ⊢
    simp [parseAtom, this]
  | .bool true =>
    obtain ⟨g, rfl⟩ : ∃ g, f = g + 1 := ⟨f - 1, by simp [JVal.sz] at hf; omega⟩
    rw [JVal.print, List.cons_append, parseVal_atom (c := 't') rfl (by decide) (by decide) (by decide)]
    have := word_append (py! "true") r
    simp only [List.cons_append, List.nil_append] at this ⊢
    simp [parseAtom, this]
  | .bool false =>
    obtain ⟨g, rfl⟩ : ∃ g, f = g + 1 := ⟨f - 1, by simp [JVal.sz] at hf; omega⟩
    rw [JVal.print, List.cons_append, parseVal_atom (c := 'f') rfl (by decide) (by decide) (by decide)]
    have := word_append (py! "false") r
    simp only [List.cons_append, List.nil_append] at this ⊢
    simp [parseAtom, this]
  | .int i =>
    obtain ⟨g, rfl⟩ : ∃ g, f = g + 1 := ⟨f - 1, by simp [JVal.sz] at hf; omega⟩
    obtain ⟨neg, n, h, hi⟩ := intToStr_eq i
    obtain ⟨c, u, h1, a1, a2, a3, _⟩ := numText_head neg n r
    rw [JVal.print, h, List.append_assoc, parseVal_atom h1 a1 a2 a3,
      parseAtom_digits (parseNumU_int neg n hr), ← hi]
  | .flt (.lit neg n frac exp) =>
    obtain ⟨g, rfl⟩ : ∃ g, f = g + 1 := ⟨f - 1, by simp [JVal.sz] at hf; omega⟩
    obtain ⟨c, u, h1, a1, a2, a3, _⟩ := numText_head neg n (floatTail frac exp ++ r)
    rw [JVal.print, FloatTok.text_lit, List.append_assoc, List.append_assoc, parseVal_atom h1 a1 a2 a3,
      parseAtom_digits (parseNumU_flt neg n frac exp hr (by simpa [JVal.WF] using hw))]
  | .flt .nan =>
    obtain ⟨g, rfl⟩ : ∃ g, f = g + 1 := ⟨f - 1, by simp [JVal.sz] at hf; omega⟩
    rw [JVal.print, FloatTok.text, List.cons_append, parseVal_atom (c := 'N') rfl (by decide) (by decide) (by decide)]
    have := word_append (py! "NaN") r
    simp only [List.cons_append, List.nil_append] at this ⊢
    simp [parseAtom, this]
  | .flt (.inf false) =>
    obtain ⟨g, rfl⟩ : ∃ g, f = g + 1 := ⟨f - 1, by simp [JVal.sz] at hf; omega⟩
    rw [JVal.print, FloatTok.text, List.cons_append, parseVal_atom (c := 'I') rfl (by decide) (by decide) (by decide)]
    have := word_append (py! "Infinity") r
    simp only [List.cons_append, List.nil_append] at this ⊢
    simp [parseAtom, this]
  | .flt (.inf true) =>
    obtain ⟨g, rfl⟩ : ∃ g, f = g + 1 := ⟨f - 1, by simp [JVal.sz] at hf; omega⟩
    rw [JVal.print, FloatTok.text, List.cons_append, parseVal_atom (c := '-') rfl (by decide) (by decide) (by decide)]
    have := word_append (py! "Infinity") r
    have hn : ∀ t, parseNumU true ('I' :: t) = none := by
      intro t
      have hd : spanDigits ('I' :: t) = ([], 'I' :: t) := by
        unfold spanDigits
        rw [List.span_eq_takeWhile_dropWhile]
        simp [show isDigit 'I' = false by decide]
      simp [parseNumU, parseIntPart, hd]
    simp only [List.cons_append, List.nil_append] at this ⊢
    simp [parseAtom, this, hn]
  | .str s =>
    obtain ⟨g, rfl⟩ : ∃ g, f = g + 1 := ⟨f - 1, by simp [JVal.sz] at hf; omega⟩
    rw [JVal.print, jstr, List.cons_append, parseVal]
    simp only [if_true]
    rw [parseStrTail_print s _ (by have := escTail_length s; simp only [List.length_append]; omega)]
    rfl
  | .arr xs =>
    obtain ⟨g, rfl⟩ : ∃ g, f = g + 1 := ⟨f - 1, by simp [JVal.sz] at hf; omega⟩
    rw [JVal.print, List.cons_append, parseVal]
    simp only [show ('[' : Char) ≠ '"' by decide, if_false, if_true]
    have ih := parse_elems xs (by simpa [JVal.WF] using hw) g (by simp [JVal.sz] at hf; omega) r
    match xs, ih with
    | [], _ =>
      rw [JVal.printList, List.cons_append, List.nil_append, skipWs_cons (by decide)]
      simp
    | x :: xs, ih =>
      have ih := ih (by simp)
      rw [JVal.printList, List.append_assoc] at ih ⊢
      obtain ⟨c, u, hcu, hc1, hc2⟩ := print_head x (JVal.printListTail xs ++ r)
      rw [hcu] at ih ⊢
      rw [skipWs_cons hc2]
      simp only [hc1, if_false]
      rw [ih]; rfl
  | .obj kvs =>
    obtain ⟨g, rfl⟩ : ∃ g, f = g + 1 := ⟨f - 1, by simp [JVal.sz] at hf; omega⟩
    rw [JVal.print, List.cons_append, parseVal]
    simp only [show ('{' : Char) ≠ '"' by decide, show ('{' : Char) ≠ '[' by decide, if_false, if_true]
    have ih := parse_members kvs (by simpa [JVal.WF] using hw) g (by simp [JVal.sz] at hf; omega) r
    match kvs, ih with
    | [], _ =>
      rw [JVal.printItems, List.cons_append, List.nil_append, skipWs_cons (by decide)]
      simp
    | (k, v) :: kvs, ih =>
      have ih := ih (by simp)
      rw [JVal.printItems, jstr] at ih ⊢
      simp only [List.cons_append] at ih ⊢
      rw [skipWs_cons (by decide)]
      simp only [show ('"' : Char) ≠ '}' by decide, if_false]
      rw [ih]; rfl
termination_by structural j

theorem parse_elems (xs : List JVal) (hxs : JVal.WFList xs) (f : ℕ)
    (hf : JVal.szList xs ≤ f) (r : Str) (hne : xs ≠ []) :
    parseElems f (JVal.printList xs ++ r) = some (xs, r) := by
  match xs with
  | [] => exact absurd rfl hne
  | x :: xs =>
    simp only [JVal.szList] at hf
    simp only [JVal.WFList] at hxs
    obtain ⟨g, rfl⟩ : ∃ g, f = g + 1 := ⟨f - 1, by omega⟩
    have ih := parse_elems xs hxs.2 g (by omega) r
    have ihx := parse_print x hxs.1 g (by omega)
    rw [parseElems, JVal.printList, List.append_assoc]
    match xs, ih with
    | [], _ =>
      rw [JVal.printListTail, List.cons_append, List.nil_append,
        ihx _ (RestOk.cons (by decide) (by decide) (by decide) (by decide))]
      simp only []
      rw [skipWs_cons (by decide)]
      simp
    | y :: ys, ih =>
      have ih := ih (by simp)
      rw [JVal.printListTail, List.cons_append,
        ihx _ (RestOk.cons (by decide) (by decide) (by decide) (by decide))]
      simp only []
      rw [skipWs_cons (by decide)]
      simp only [show (',' : Char) ≠ ']' by decide, if_false, if_true]
      rw [JVal.printList] at ih
      rw [List.append_assoc] at ih ⊢
      obtain ⟨c, u, hcu, _, hc2⟩ := print_head y (JVal.printListTail ys ++ r)
      rw [hcu] at ih ⊢
      rw [skipWs_cons hc2, ih]; rfl
termination_by structural xs

theorem parse_members (kvs : List (Str × JVal)) (hk : JVal.WFItems kvs) (f : ℕ)
    (hf : JVal.szItems kvs ≤ f) (r : Str) (hne : kvs ≠ []) :
    parseMembers f (JVal.printItems kvs ++ r) = some (kvs, r) := by
  match kvs with
  | [] => exact absurd rfl hne
  | (k, v) :: kvs =>
    simp only [JVal.szItems] at hf
    simp only [JVal.WFItems] at hk
    obtain ⟨g, rfl⟩ : ∃ g, f = g + 1 := ⟨f - 1, by omega⟩
    have ih := parse_members kvs hk.2 g (by omega) r
    have ihx := parse_print v hk.1 g (by omega)
    rw [JVal.printItems, jstr]
    simp only [List.cons_append, List.append_assoc]
    rw [parseMembers]
    simp only [if_true]
    rw [parseStrTail_print k _ (by have := escTail_length k; simp only [List.length_append]; omega)]
    simp only []
    rw [skipWs_cons (by decide)]
    simp only [if_true]
    obtain ⟨c, u, hcu, _, hc2⟩ := print_head v (JVal.printItemsTail kvs ++ r)
    rw [hcu, skipWs_cons hc2, ← hcu]
    match kvs, ih with
    | [], _ =>
      rw [JVal.printItemsTail, List.cons_append, List.nil_append,
        ihx _ (RestOk.cons (by decide) (by decide) (by decide) (by decide))]
      simp only []
      rw [skipWs_cons (by decide)]
      simp
    | (k2, v2) :: ys, ih =>
      have ih := ih (by simp)
      rw [JVal.printItemsTail, List.cons_append,
        ihx _ (RestOk.cons (by decide) (by decide) (by decide) (by decide))]
      simp only []
      rw [skipWs_cons (by decide)]
      simp only [show (',' : Char) ≠ '}' by decide, if_false, if_true]
      rw [JVal.printItems, jstr] at ih
      rw [jstr]
      simp only [List.cons_append, List.append_assoc] at ih ⊢
      rw [skipWs_cons (by decide), ih]; rfl
termination_by structural kvs
end

mutual
theorem sz_le (j : JVal) : j.sz ≤ j.print.length := by
  match j with
  | .null => simp [JVal.sz, JVal.print]
  | .bool true => simp [JVal.sz, JVal.print]
  | .bool false => simp [JVal.sz, JVal.print]
  | .int i =>
    obtain ⟨c, u, h, _⟩ := print_head (.int i) []
    have := congrArg List.length h
    simp only [List.append_nil, List.length_cons] at this
    simp [JVal.sz]; omega
  | .flt t =>
    obtain ⟨c, u, h, _⟩ := print_head (.flt t) []
    have := congrArg List.length h
    simp only [List.append_nil, List.length_cons] at this
    simp [JVal.sz]; omega
  | .str s => simp [JVal.sz, JVal.print, jstr]
  | .arr xs =>
    have ih := szList_le xs
    simp only [JVal.sz, JVal.print, List.length_cons]
    omega
  | .obj kvs =>
    have ih := szItems_le kvs
    simp only [JVal.sz, JVal.print, List.length_cons]
    omega
termination_by structural j
theorem szList_le (xs : List JVal) : JVal.szList xs ≤ (JVal.printList xs).length ∧
    1 + JVal.szList xs ≤ (JVal.printListTail xs).length := by
  match xs with
  | [] => simp [JVal.szList, JVal.printList, JVal.printListTail]
  | x :: xs =>
    have h1 := sz_le x
    have h2 := szList_le xs
    simp only [JVal.szList, JVal.printList, JVal.printListTail, List.length_append, List.length_cons]
    omega
termination_by structural xs
theorem szItems_le (kvs : List (Str × JVal)) : JVal.szItems kvs ≤ (JVal.printItems kvs).length ∧
    1 + JVal.szItems kvs ≤ (JVal.printItemsTail kvs).length := by
  match kvs with
  | [] => simp [JVal.szItems, JVal.printItems, JVal.printItemsTail]
  | (k, v) :: kvs =>
    have h1 := sz_le v
    have h2 := szItems_le kvs
    simp only [JVal.szItems, JVal.printItems, JVal.printItemsTail, List.length_append, List.length_cons]
    omega
termination_by structural kvs
end

/-- `json.loads(json.dumps(j)) == j` on trees. -/
theorem parseJson_print {j : JVal} (h : j.WF) : parseJson j.print = some j := by
  unfold parseJson
  obtain ⟨c, u, hcu, _, hc⟩ := print_head j []
  rw [List.append_nil] at hcu
  have h2 := parse_print j h (j.print.length + 1) (by have := sz_le j; omega) [] RestOk.nil
  rw [List.append_nil] at h2
  have h3 : skipWs j.print = j.print := by rw [hcu, skipWs_cons hc]
  rw [h3, h2]
  simp [skipWs]

end Verif
