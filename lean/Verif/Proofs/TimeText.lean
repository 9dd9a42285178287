import Mathlib.Data.List.Nodup
import Verif.Model.TimeText
import Verif.Spec.TimeText
import Verif.Proofs.Digits
import Verif.Proofs.Time
/-! # Dates as text: lemmas -/
namespace Verif
open Spec

theorem fixedDigits_zero (k : ℕ) : fixedDigits k 0 = List.replicate k '0' := by
  induction k with
  | zero => rfl
  | succ k ih => rw [fixedDigits, Nat.zero_div, ih, List.replicate_succ']; rfl

theorem fixedDigits_length (w n : ℕ) : (fixedDigits w n).length = w := by
  induction w generalizing n with
  | zero => rfl
  | succ w ih => simp [fixedDigits, ih]

theorem fixedDigits_digit (w n : ℕ) : ∀ c ∈ fixedDigits w n, isDigit c = true := by
  induction w generalizing n with
  | zero => intro c h; cases h
  | succ w ih =>
    intro c h
    rw [fixedDigits, List.mem_append] at h
    rcases h with h | h
    · exact ih _ c h
    · rw [List.mem_singleton] at h; rw [h]; exact isDigit_digitChar _

/-- `%0wd` is fixed-width notation for numbers that fit. -/
theorem padNat_eq {w n : ℕ} (hw : 1 ≤ w) (h : n < 10 ^ w) : padNat w n = fixedDigits w n := by
  induction w generalizing n with
  | zero => omega
  | succ w ih =>
    unfold padNat
    by_cases hn : n < 10
    · rw [natToStr_small hn, fixedDigits, Nat.mod_eq_of_lt hn, Nat.div_eq_of_lt hn, fixedDigits_zero]
      simp
    · have hn' : 10 ≤ n := by omega
      have hw1 : 1 ≤ w := by
        rcases Nat.eq_zero_or_pos w with rfl | h'
        · simp at h; omega
        · exact h'
      have hlt : n / 10 < 10 ^ w := by
        rw [Nat.div_lt_iff_lt_mul (by omega)]; rw [Nat.pow_succ] at h; omega
      have := ih hw1 hlt
      unfold padNat at this
      rw [natToStr_step hn', fixedDigits, ← this]
      simp only [List.length_append, List.length_singleton, Nat.add_sub_add_right, List.append_assoc]

theorem digit_val (n : ℕ) : digitVal? (digitChar (n % 10)) = some (n % 10) := digitVal_digitChar (Nat.mod_lt _ (by omega))

theorem twoDigits_fixed {p : ℕ → Bool} {n : ℕ} (h : n < 100) (hp : p n = true) (s : Str) :
    twoDigits p (fixedDigits 2 n ++ s) = [(n, s)] := by
  have e : 10 * (n / 10 % 10) + n % 10 = n := by omega
  simp only [fixedDigits, List.nil_append, List.cons_append, twoDigits, digit_val, e, hp, if_true]

theorem fourDigits_fixed {n : ℕ} (h : n < 10000) (s : Str) : fourDigits (fixedDigits 4 n ++ s) = [(n, s)] := by
  have e : 1000 * (n / 10 / 10 / 10 % 10) + 100 * (n / 10 / 10 % 10) + 10 * (n / 10 % 10) + n % 10 = n := by omega
  simp only [fixedDigits, List.nil_append, List.cons_append, fourDigits, digit_val, e]

theorem fracDigits_fixed {n : ℕ} (h : n < 1000000) (s : Str) :
    ∃ l, fracDigits 6 0 (fixedDigits 6 n ++ s) = (n, s) :: l := by
  simp only [fixedDigits, List.nil_append, List.cons_append, fracDigits, digit_val]
  refine ⟨_, List.cons_eq_cons.2 ⟨?_, rfl⟩⟩
  rw [Prod.mk.injEq]
  exact ⟨by omega, rfl⟩

/-- The field a directive stands for. -/
def tfield (t : DateTime) : TDir → ℕ
  | .year => t.year | .month => t.month | .day => t.day | .hour => t.hour
  | .minute => t.minute | .second => t.second | .micro => t.micro

/-- The width of a directive. -/
def twidth : TDir → ℕ
  | .year => 4 | .micro => 6 | _ => 2

theorem daysInMonth_le31 (y m : ℕ) : daysInMonth y m ≤ 31 := by
  unfold daysInMonth; split <;> try omega
  split <;> omega

/-- The first reading of a written field is the field. -/
theorem dirAlts_fixed {t : DateTime} (ht : ValidTime t) (d : TDir) (s : Str) :
    ∃ l, dirAlts d (fixedDigits (twidth d) (tfield t d) ++ s) = (tfield t d, s) :: l := by
  obtain ⟨a1, a2, a3, a4, a5, a6, a7, a8, a9, a10⟩ := (validTime_iff t).1 ht
  have := daysInMonth_le31 t.year t.month
  cases d <;> simp only [twidth, tfield, dirAlts]
  · rw [fourDigits_fixed (by omega)]; exact ⟨_, rfl⟩
  · rw [twoDigits_fixed (by omega) (by simp; omega)]; exact ⟨_, rfl⟩
  · rw [twoDigits_fixed (by omega) (by simp; omega)]; exact ⟨_, rfl⟩
  · rw [twoDigits_fixed (by omega) (by simp; omega)]; exact ⟨_, rfl⟩
  · rw [twoDigits_fixed (by omega) (by simp; omega)]; exact ⟨_, rfl⟩
  · rw [twoDigits_fixed (by omega) (by simp; omega)]; exact ⟨_, rfl⟩
  · exact fracDigits_fixed (by omega) s

theorem isSpaceChar_iff (c : Char) : isSpaceChar c = true ↔ White c := by
  simp only [isSpaceChar, White, Bool.or_eq_true, Bool.and_eq_true, decide_eq_true_eq, beq_iff_eq, Set.mem_union,
    Set.mem_Icc, Set.mem_insert_iff, Set.mem_singleton_iff]
  tauto

theorem wsAlts_first {α : Type} (f : Str → Option α) (v : α) (s : Str) (c : Char) (hc : isSpaceChar c = true)
    (h : f (s.dropWhile isSpaceChar) = some v) : (wsAlts (c :: s)).findSome? f = some v := by
  induction s generalizing c with
  | nil => simpa [wsAlts, hc] using h
  | cons a s ih =>
    rw [wsAlts, if_pos hc, List.findSome?_append]
    by_cases ha : isSpaceChar a = true
    · rw [List.dropWhile_cons_of_pos ha] at h
      rw [ih a ha h]; rfl
    · rw [List.dropWhile_cons_of_neg ha] at h
      rw [wsAlts, if_neg ha]
      simp [h]

/-- The letter of a directive. -/
def tletter : TDir → Char
  | .year => 'Y' | .month => 'm' | .day => 'd' | .hour => 'H' | .minute => 'M' | .second => 'S' | .micro => 'f'

theorem tletter_inj {a b : TDir} (h : tletter a = tletter b) : a = b := by
  cases a <;> cases b <;> first | rfl | exact absurd h (by decide)

theorem tdirOf_letter (d : TDir) : tdirOf (tletter d) = some d := by cases d <;> rfl

theorem tdirOf_some {c : Char} {d : TDir} (h : tdirOf c = some d) : c = tletter d := by
  unfold tdirOf at h
  split at h <;> first | (cases h; rfl) | cases h

theorem tletter_ne (d : TDir) : tletter d ≠ '%' := by cases d <;> decide

theorem write_dir (t : DateTime) (d : TDir) (r : Str) :
    write t ('%' :: tletter d :: r) = (write t r).map (fixedDigits (twidth d) (tfield t d) ++ ·) := by
  cases d <;> simp [tletter, write, twidth, tfield]

theorem compile_dir (b : Bool) (d : TDir) (r : Str) :
    compileFmt b ('%' :: tletter d :: r) = (compileFmt false r).map (·.map (.dir d :: ·)) := by
  rw [compileFmt, if_pos rfl, if_neg (tletter_ne d), tdirOf_letter]

theorem compile_percent (b : Bool) (r : Str) :
    compileFmt b ('%' :: '%' :: r) = (compileFmt false r).map (·.map (.lit '%' :: ·)) := by
  rw [compileFmt, if_pos rfl, if_pos rfl]

theorem compile_char (b : Bool) {c : Char} (r : Str) (h1 : c ≠ '%') (h2 : isSpaceChar c = false) :
    compileFmt b (c :: r) = (compileFmt false r).map (·.map (.lit c :: ·)) := by
  cases r with
  | nil => rw [compileFmt.eq_def]; simp [compileFmt, Except.map, h2]
  | cons a r => rw [compileFmt, if_neg h1, h2]; simp

theorem compile_space_true {c : Char} (r : Str) (h2 : isSpaceChar c = true) :
    compileFmt true (c :: r) = compileFmt true r := by
  have h1 : c ≠ '%' := by rintro rfl; exact absurd h2 (by decide)
  cases r with
  | nil => rw [compileFmt.eq_def]; simp [compileFmt, h2]
  | cons a r => rw [compileFmt, if_neg h1, h2]; simp

theorem compile_space_false {c : Char} (r : Str) (h2 : isSpaceChar c = true) :
    compileFmt false (c :: r) = (compileFmt true r).map (·.map (.ws :: ·)) := by
  have h1 : c ≠ '%' := by rintro rfl; exact absurd h2 (by decide)
  cases r with
  | nil => rw [compileFmt.eq_def]; simp [compileFmt, Except.map, h2]
  | cons a r => rw [compileFmt, if_neg h1, h2]; simp

/-- How a format begins. -/
theorem fmt_cases (f : Str) : f = [] ∨ (∃ d r, f = '%' :: tletter d :: r) ∨ (∃ r, f = '%' :: '%' :: r) ∨
    (∃ r, f = '%' :: r ∧ (r = [] ∨ ∃ c r', r = c :: r' ∧ c ≠ '%' ∧ tdirOf c = none)) ∨
    (∃ c r, f = c :: r ∧ c ≠ '%' ∧ isSpaceChar c = true) ∨ (∃ c r, f = c :: r ∧ c ≠ '%' ∧ isSpaceChar c = false) := by
  cases f with
  | nil => exact Or.inl rfl
  | cons c r =>
    by_cases hc : c = '%'
    · subst hc
      cases r with
      | nil => exact Or.inr (Or.inr (Or.inr (Or.inl ⟨[], rfl, Or.inl rfl⟩)))
      | cons a r =>
        by_cases ha : a = '%'
        · subst ha; exact Or.inr (Or.inr (Or.inl ⟨r, rfl⟩))
        · cases hd : tdirOf a with
          | none => exact Or.inr (Or.inr (Or.inr (Or.inl ⟨_, rfl, Or.inr ⟨a, r, rfl, ha, hd⟩⟩)))
          | some d => exact Or.inr (Or.inl ⟨d, r, by rw [tdirOf_some hd]⟩)
    · cases hs : isSpaceChar c
      · exact Or.inr (Or.inr (Or.inr (Or.inr (Or.inr ⟨c, r, rfl, hc, hs⟩))))
      · exact Or.inr (Or.inr (Or.inr (Or.inr (Or.inl ⟨c, r, rfl, hc, hs⟩))))

theorem write_bad (t : DateTime) (r : Str) (h : r = [] ∨ ∃ c r', r = c :: r' ∧ c ≠ '%' ∧ tdirOf c = none) :
    write t ('%' :: r) = none := by
  rcases h with rfl | ⟨c, r', rfl, h1, h2⟩
  · simp [write]
  · have : ∀ d, c ≠ tletter d := fun d h => by rw [h, tdirOf_letter] at h2; cases h2
    have e : write t ('%' :: c :: r') = none := by
      rw [write]
      all_goals first
        | (intro r'' he; simp only [List.cons.injEq] at he; exact absurd he.1 (by
            first | exact h1 | exact this .year | exact this .month | exact this .day | exact this .hour
                  | exact this .minute | exact this .second | exact this .micro))
    exact e

theorem write_char (t : DateTime) {c : Char} (r : Str) (h : c ≠ '%') : write t (c :: r) = (write t r).map (c :: ·) := by
  rw [write]
  all_goals (first | (intro r' h'; exact absurd h' h) | (intro h'; exact absurd h' h))

theorem letters_dir (d : TDir) (r : Str) : letters ('%' :: tletter d :: r) = tletter d :: letters r := by
  cases d <;> simp [tletter, letters]

theorem letters_char {c : Char} (r : Str) (h : c ≠ '%') : letters (c :: r) = letters r := by
  rw [letters]
  all_goals (first | (intro r' h'; exact absurd h' h) | (intro c' r' h'; exact absurd h' h))

/-! ### Reading what was written -/

/-- What is read from the text the format writes. -/
def fieldsOf (t : DateTime) (ds : List TDir) : TFields := ds.map (fun d => (d, tfield t d))

theorem digit_not_space {c : Char} (h : isDigit c = true) : isSpaceChar c = false := by
  obtain ⟨n, hn, rfl⟩ := isDigit_iff.1 h
  have : n = 0 ∨ n = 1 ∨ n = 2 ∨ n = 3 ∨ n = 4 ∨ n = 5 ∨ n = 6 ∨ n = 7 ∨ n = 8 ∨ n = 9 := by omega
  rcases this with h | h | h | h | h | h | h | h | h | h <;> subst h <;> decide

theorem fixed_cons {w n : ℕ} (h : 1 ≤ w) (s : Str) : ∃ c r, fixedDigits w n ++ s = c :: r ∧ isDigit c = true := by
  have hl := fixedDigits_length w n
  have hd := fixedDigits_digit w n
  cases he : fixedDigits w n with
  | nil => rw [he] at hl; simp at hl; omega
  | cons c r => exact ⟨c, r ++ s, rfl, hd c (by rw [he]; exact List.mem_cons_self)⟩

theorem match_lit (c : Char) (ps : List TPiece) (s : Str) : matchPieces (.lit c :: ps) (c :: s) = matchPieces ps s := by
  rw [matchPieces, if_pos rfl]

/-- The text written by a format is matched by it, and the fields are read back. -/
theorem match_write {t : DateTime} (ht : ValidTime t) (f s : Str) (h : write t f = some s) :
    (∃ ps, compileFmt false f = some (.ok ps) ∧ (tdirs ps).map tletter = letters f ∧
      matchPieces ps s = some (fieldsOf t (tdirs ps), [])) ∧
    (∃ ps, compileFmt true f = some (.ok ps) ∧ (tdirs ps).map tletter = letters f ∧
      matchPieces ps (s.dropWhile isSpaceChar) = some (fieldsOf t (tdirs ps), [])) := by
  induction hn : f.length using Nat.strong_induction_on generalizing f s with
  | _ n ih =>
    subst hn
    rcases fmt_cases f with rfl | ⟨d, r, rfl⟩ | ⟨r, rfl⟩ | ⟨r, rfl, hb⟩ | ⟨c, r, rfl, hc, hs⟩ | ⟨c, r, rfl, hc, hs⟩
    · simp only [write, Option.some.injEq] at h
      subst h
      exact ⟨⟨[], rfl, rfl, rfl⟩, ⟨[], rfl, rfl, rfl⟩⟩
    · rw [write_dir] at h
      cases hw : write t r with
      | none => rw [hw] at h; cases h
      | some s' =>
        rw [hw] at h
        simp only [Option.map_some, Option.some.injEq] at h
        subst h
        obtain ⟨⟨ps, h1, h2, h3⟩, -⟩ := ih r.length (by simp) r s' hw rfl
        have hm : matchPieces (.dir d :: ps) (fixedDigits (twidth d) (tfield t d) ++ s') =
            some (fieldsOf t (tdirs (.dir d :: ps)), []) := by
          obtain ⟨l, hl⟩ := dirAlts_fixed ht d s'
          rw [matchPieces, hl]
          simp [h3, fieldsOf, tdirs]
        have hcmp : ∀ b, compileFmt b ('%' :: tletter d :: r) = some (.ok (.dir d :: ps)) := by
          intro b; rw [compile_dir, h1]; rfl
        have hl : (tdirs (.dir d :: ps)).map tletter = letters ('%' :: tletter d :: r) := by
          rw [letters_dir, tdirs, List.map_cons, h2]
        refine ⟨⟨_, hcmp false, hl, hm⟩, ⟨_, hcmp true, hl, ?_⟩⟩
        obtain ⟨c, r', he, hdg⟩ := fixed_cons (w := twidth d) (n := tfield t d) (by cases d <;> simp [twidth]) s'
        rw [he] at hm ⊢
        rw [List.dropWhile_cons_of_neg (by simp [digit_not_space hdg])]
        exact hm
    · have e : write t ('%' :: '%' :: r) = (write t r).map ('%' :: ·) := by rw [write]
      rw [e] at h
      cases hw : write t r with
      | none => rw [hw] at h; cases h
      | some s' =>
        rw [hw] at h
        simp only [Option.map_some, Option.some.injEq] at h
        subst h
        obtain ⟨⟨ps, h1, h2, h3⟩, -⟩ := ih r.length (by simp) r s' hw rfl
        have hcmp : ∀ b, compileFmt b ('%' :: '%' :: r) = some (.ok (.lit '%' :: ps)) := by
          intro b; rw [compile_percent, h1]; rfl
        have hl : (tdirs (.lit '%' :: ps)).map tletter = letters ('%' :: '%' :: r) := by
          rw [tdirs, h2, letters]; intro d h; cases h
        have hm : matchPieces (.lit '%' :: ps) ('%' :: s') = some (fieldsOf t (tdirs (.lit '%' :: ps)), []) := by
          rw [match_lit, h3, tdirs]; intro d h; cases h
        refine ⟨⟨_, hcmp false, hl, hm⟩, ⟨_, hcmp true, hl, ?_⟩⟩
        rw [List.dropWhile_cons_of_neg (by decide)]
        exact hm
    · rw [write_bad t r hb] at h; cases h
    · rw [write_char t r hc] at h
      cases hw : write t r with
      | none => rw [hw] at h; cases h
      | some s' =>
        rw [hw] at h
        simp only [Option.map_some, Option.some.injEq] at h
        subst h
        obtain ⟨-, ⟨ps, h1, h2, h3⟩⟩ := ih r.length (by simp) r s' hw rfl
        constructor
        · refine ⟨.ws :: ps, by rw [compile_space_false r hs, h1]; rfl, by rw [letters_char r hc, ← h2]; rfl, ?_⟩
          rw [matchPieces]
          exact wsAlts_first _ _ s' c hs h3
        · refine ⟨ps, by rw [compile_space_true r hs, h1], by rw [letters_char r hc, h2], ?_⟩
          rw [List.dropWhile_cons_of_pos hs]
          exact h3
    · rw [write_char t r hc] at h
      cases hw : write t r with
      | none => rw [hw] at h; cases h
      | some s' =>
        rw [hw] at h
        simp only [Option.map_some, Option.some.injEq] at h
        subst h
        obtain ⟨⟨ps, h1, h2, h3⟩, -⟩ := ih r.length (by simp) r s' hw rfl
        have hcmp : ∀ b, compileFmt b (c :: r) = some (.ok (.lit c :: ps)) := by
          intro b; rw [compile_char b r hc hs, h1]; rfl
        have hl : (tdirs (.lit c :: ps)).map tletter = letters (c :: r) := by rw [letters_char r hc, ← h2]; rfl
        have hm : matchPieces (.lit c :: ps) (c :: s') = some (fieldsOf t (tdirs (.lit c :: ps)), []) := by
          rw [match_lit, h3]; rfl
        refine ⟨⟨_, hcmp false, hl, hm⟩, ⟨_, hcmp true, hl, ?_⟩⟩
        rw [List.dropWhile_cons_of_neg (by simp [hs])]
        exact hm

theorem fieldOr_fieldsOf (t : DateTime) (ds : List TDir) (d : TDir) (n : ℕ) :
    fieldOr (fieldsOf t ds) d n = if d ∈ ds then tfield t d else n := by
  induction ds with
  | nil => rfl
  | cons a ds ih =>
    unfold fieldOr fieldsOf at *
    by_cases h : a = d
    · subst h; simp
    · rw [List.map_cons, List.find?_cons_of_neg (by simpa using h), ih]
      have : (d ∈ a :: ds) ↔ d ∈ ds := by
        rw [List.mem_cons]; exact ⟨fun h' => h'.resolve_left (fun e => h e.symm), Or.inr⟩
      simp only [this]

/-! ### What an accepted text says -/

theorem findSome?_mem {α β : Type} {f : α → Option β} {l : List α} {b : β} (h : l.findSome? f = some b) :
    ∃ a ∈ l, f a = some b := List.exists_of_findSome?_eq_some h

theorem wsAlts_mem {s r : Str} (h : r ∈ wsAlts s) : ∃ v, s = v ++ r ∧ v ≠ [] ∧ ∀ c ∈ v, White c := by
  induction s with
  | nil => cases h
  | cons c s ih =>
    rw [wsAlts] at h
    by_cases hc : isSpaceChar c = true
    · rw [if_pos hc, List.mem_append, List.mem_singleton] at h
      rcases h with h | rfl
      · obtain ⟨v, rfl, h2, h3⟩ := ih h
        refine ⟨c :: v, rfl, by simp, ?_⟩
        intro a ha
        rcases List.mem_cons.1 ha with rfl | ha
        · exact (isSpaceChar_iff _).1 hc
        · exact h3 a ha
      · refine ⟨[c], rfl, by simp, ?_⟩
        intro a ha
        rw [List.mem_singleton] at ha
        subst ha
        exact (isSpaceChar_iff _).1 hc
    · rw [if_neg hc] at h; cases h

theorem isDigit_of {c : Char} {n : ℕ} (h : digitVal? c = some n) : isDigit c = true := by
  unfold isDigit; rw [h]; rfl

theorem oneDigit_mem {p : ℕ → Bool} {s r : Str} {v : ℕ} (h : (v, r) ∈ oneDigit p s) :
    ∃ a, s = a ++ r ∧ DigitText 1 1 a ∧ digitsValue a = v := by
  unfold oneDigit at h
  split at h
  · rename_i a r'
    split at h
    · rename_i x hx
      split at h
      · rw [List.mem_singleton, Prod.mk.injEq] at h
        obtain ⟨rfl, rfl⟩ := h
        refine ⟨[a], rfl, ⟨le_refl _, le_refl _, ?_⟩, ?_⟩
        · intro c hc; rw [List.mem_singleton] at hc; subst hc; exact isDigit_of hx
        · simp [digitsValue, hx]
      · cases h
    · cases h
  · cases h

theorem twoDigits_mem {p : ℕ → Bool} {s r : Str} {v : ℕ} (h : (v, r) ∈ twoDigits p s) :
    ∃ a, s = a ++ r ∧ DigitText 2 2 a ∧ digitsValue a = v := by
  unfold twoDigits at h
  split at h
  · rename_i a b r'
    split at h
    · rename_i x y hx hy
      split at h
      · rw [List.mem_singleton, Prod.mk.injEq] at h
        obtain ⟨rfl, rfl⟩ := h
        refine ⟨[a, b], rfl, ⟨le_refl _, le_refl _, ?_⟩, ?_⟩
        · intro c hc
          simp only [List.mem_cons, List.not_mem_nil, or_false] at hc
          rcases hc with rfl | rfl
          · exact isDigit_of hx
          · exact isDigit_of hy
        · simp [digitsValue, hx, hy]
      · cases h
    · cases h
  · cases h

theorem fourDigits_mem {s r : Str} {v : ℕ} (h : (v, r) ∈ fourDigits s) :
    ∃ a, s = a ++ r ∧ DigitText 4 4 a ∧ digitsValue a = v := by
  unfold fourDigits at h
  split at h
  · rename_i a b c d r'
    split at h
    · rename_i w x y z hw hx hy hz
      rw [List.mem_singleton, Prod.mk.injEq] at h
      obtain ⟨rfl, rfl⟩ := h
      refine ⟨[a, b, c, d], rfl, ⟨le_refl _, le_refl _, ?_⟩, ?_⟩
      · intro e he
        simp only [List.mem_cons, List.not_mem_nil, or_false] at he
        rcases he with rfl | rfl | rfl | rfl
        · exact isDigit_of hw
        · exact isDigit_of hx
        · exact isDigit_of hy
        · exact isDigit_of hz
      · simp only [digitsValue, List.foldl_cons, List.foldl_nil, hw, hx, hy, hz, Option.getD_some]; omega
    · cases h
  · cases h

theorem number_snoc_fold (a : ℕ) (s : Str) :
    s.foldl (fun a c => 10 * a + (digitVal? c).getD 0) a = a * 10 ^ s.length + digitsValue s := by
  have := foldl_digits s a
  unfold digitsValue
  rw [this]
  rfl

theorem fracDigits_mem {k acc : ℕ} {s r : Str} {v : ℕ} (h : (v, r) ∈ fracDigits k acc s) :
    ∃ a, s = a ++ r ∧ DigitText 1 k a ∧ (acc * 10 ^ a.length + digitsValue a) * 10 ^ (k - a.length) = v := by
  induction k generalizing acc s with
  | zero => rw [fracDigits] at h; cases h
  | succ k ih =>
    cases s with
    | nil => rw [fracDigits] at h; cases h
    | cons c s =>
      rw [fracDigits] at h
      cases hc : digitVal? c with
      | none => rw [hc] at h; cases h
      | some x =>
        rw [hc] at h
        simp only [List.mem_append, List.mem_singleton, Prod.mk.injEq] at h
        rcases h with h | ⟨rfl, rfl⟩
        · obtain ⟨a, rfl, ⟨h1, h2, h3⟩, h4⟩ := ih h
          refine ⟨c :: a, rfl, ⟨by simp, by simp; omega, ?_⟩, ?_⟩
          · intro e he
            rcases List.mem_cons.1 he with rfl | he
            · exact isDigit_of hc
            · exact h3 e he
          · rw [← h4]
            have e1 : digitsValue (c :: a) = x * 10 ^ a.length + digitsValue a := by
              unfold digitsValue
              rw [List.foldl_cons, hc]
              have := number_snoc_fold (10 * 0 + x) a
              simpa [digitsValue] using this
            rw [e1, List.length_cons]
            congr 1
            · rw [Nat.pow_succ]; ring
            · congr 1; omega
        · refine ⟨[c], rfl, ⟨le_refl _, by simp, ?_⟩, ?_⟩
          · intro e he; rw [List.mem_singleton] at he; subst he; exact isDigit_of hc
          · simp [digitsValue, hc, Nat.mul_comm]

theorem lower_same {a c : Char} (h : lowerChar a = lowerChar c) : SameLetter a c := by
  have key : ∀ x : Char, 'A' ≤ x ∧ x ≤ 'Z' → (Char.ofNat (x.toNat + 32)).toNat = x.toNat + 32 := by
    intro x ⟨h1, h2⟩
    have h2' : x.toNat ≤ 90 := h2
    have : (x.toNat + 32).isValidChar := by left; omega
    rw [Char.ofNat, dif_pos this]
    rfl
  unfold lowerChar at h
  unfold SameLetter
  by_cases ha : 'A' ≤ a ∧ a ≤ 'Z' <;> by_cases hc : 'A' ≤ c ∧ c ≤ 'Z'
  · rw [if_pos ha, if_pos hc] at h
    have := congrArg Char.toNat h
    rw [key a ha, key c hc] at this
    left
    exact Char.toNat_inj.1 (by omega)
  · rw [if_pos ha, if_neg hc] at h
    right; left
    exact ⟨ha, by rw [← h, key a ha]⟩
  · rw [if_neg ha, if_pos hc] at h
    right; right
    exact ⟨hc, by rw [h, key c hc]⟩
  · rw [if_neg ha, if_neg hc] at h
    exact Or.inl h

/-- One directive. -/
theorem says_dir {t : DateTime} {f s r s0 : Str} {d : TDir} {v : ℕ} (hm : (v, r) ∈ dirAlts d s0) (hv : tfield t d = v)
    (hs : Says t f s) : ∃ a, s0 = a ++ r ∧ Says t ('%' :: tletter d :: f) (a ++ s) := by
  have w12 : ∀ {a : Str} {n : ℕ}, DigitText 1 1 a → n = 1 → DigitText 1 2 a :=
    fun h _ => ⟨h.1, le_trans h.2.1 (by omega), h.2.2⟩
  have w22 : ∀ {a : Str}, DigitText 2 2 a → DigitText 1 2 a := fun h => ⟨by have := h.1; omega, h.2.1, h.2.2⟩
  cases d <;> simp only [dirAlts, List.mem_append] at hm
  · obtain ⟨a, rfl, h1, h2⟩ := fourDigits_mem hm
    exact ⟨a, rfl, .year hs h1 (by rw [h2]; exact hv.symm)⟩
  · rcases hm with hm | hm
    · obtain ⟨a, rfl, h1, h2⟩ := twoDigits_mem hm
      exact ⟨a, rfl, .month hs (w22 h1) (by rw [h2]; exact hv.symm)⟩
    · obtain ⟨a, rfl, h1, h2⟩ := oneDigit_mem hm
      exact ⟨a, rfl, .month hs (w12 h1 rfl) (by rw [h2]; exact hv.symm)⟩
  · rcases hm with (hm | hm) | hm
    · obtain ⟨a, rfl, h1, h2⟩ := twoDigits_mem hm
      exact ⟨a, rfl, .day hs (w22 h1) (by rw [h2]; exact hv.symm)⟩
    · obtain ⟨a, rfl, h1, h2⟩ := oneDigit_mem hm
      exact ⟨a, rfl, .day hs (w12 h1 rfl) (by rw [h2]; exact hv.symm)⟩
    · split at hm
      · obtain ⟨a, rfl, h1, h2⟩ := oneDigit_mem hm
        exact ⟨' ' :: a, rfl, .blankDay hs h1 (by rw [h2]; exact hv.symm)⟩
      · cases hm
  · rcases hm with hm | hm
    · obtain ⟨a, rfl, h1, h2⟩ := twoDigits_mem hm
      exact ⟨a, rfl, .hour hs (w22 h1) (by rw [h2]; exact hv.symm)⟩
    · obtain ⟨a, rfl, h1, h2⟩ := oneDigit_mem hm
      exact ⟨a, rfl, .hour hs (w12 h1 rfl) (by rw [h2]; exact hv.symm)⟩
  · rcases hm with hm | hm
    · obtain ⟨a, rfl, h1, h2⟩ := twoDigits_mem hm
      exact ⟨a, rfl, .minute hs (w22 h1) (by rw [h2]; exact hv.symm)⟩
    · obtain ⟨a, rfl, h1, h2⟩ := oneDigit_mem hm
      exact ⟨a, rfl, .minute hs (w12 h1 rfl) (by rw [h2]; exact hv.symm)⟩
  · rcases hm with hm | hm
    · obtain ⟨a, rfl, h1, h2⟩ := twoDigits_mem hm
      exact ⟨a, rfl, .second hs (w22 h1) (by rw [h2]; exact hv.symm)⟩
    · obtain ⟨a, rfl, h1, h2⟩ := oneDigit_mem hm
      exact ⟨a, rfl, .second hs (w12 h1 rfl) (by rw [h2]; exact hv.symm)⟩
  · obtain ⟨a, rfl, h1, h2⟩ := fracDigits_mem hm
    exact ⟨a, rfl, .micro hs h1 (by rw [Nat.zero_mul, Nat.zero_add] at h2; rw [h2]; exact hv.symm)⟩

theorem compile_bad (b : Bool) (r : Str) (h : r = [] ∨ ∃ c r', r = c :: r' ∧ c ≠ '%' ∧ tdirOf c = none)
    (ps : List TPiece) : compileFmt b ('%' :: r) ≠ some (.ok ps) := by
  rcases h with rfl | ⟨c, r', rfl, h1, h2⟩
  · intro h; simp [compileFmt] at h
  · rw [compileFmt, if_pos rfl, if_neg h1, h2]
    dsimp only
    split <;> intro h <;> cases h

/-- Both readings of "compile gave `ok`" below a `map`. -/
theorem map_ok_inv {α β : Type} {o : Option (Except PyErr α)} {g : α → β} {q : β}
    (h : o.map (·.map g) = some (.ok q)) : ∃ p, o = some (.ok p) ∧ q = g p := by
  cases o with
  | none => cases h
  | some e =>
    cases e with
    | error e => simp [Except.map] at h
    | ok a => simp [Except.map] at h; exact ⟨a, rfl, h.symm⟩

/-- What matches a compiled format is an instance of the format. -/
theorem says_of_match {t : DateTime} (f : Str) :
    (∀ ps s fs rest, compileFmt false f = some (.ok ps) → matchPieces ps s = some (fs, rest) →
      (∀ p ∈ fs, tfield t p.1 = p.2) → ∃ s', s = s' ++ rest ∧ Says t f s') ∧
    (∀ ps s fs rest, compileFmt true f = some (.ok ps) → matchPieces ps s = some (fs, rest) →
      (∀ p ∈ fs, tfield t p.1 = p.2) →
      ∃ u f' s', f = u ++ f' ∧ (∀ c ∈ u, White c) ∧ s = s' ++ rest ∧ Says t f' s') := by
  induction hn : f.length using Nat.strong_induction_on generalizing f with
  | _ n ih =>
    subst hn
    rcases fmt_cases f with rfl | ⟨d, r, rfl⟩ | ⟨r, rfl⟩ | ⟨r, rfl, hb⟩ | ⟨c, r, rfl, hc, hs⟩ | ⟨c, r, rfl, hc, hs⟩
    · have key : ∀ b ps s fs rest, compileFmt b [] = some (.ok ps) → matchPieces ps s = some (fs, rest) →
          (∀ p ∈ fs, tfield t p.1 = p.2) → ∃ s', s = s' ++ rest ∧ Says t [] s' := by
        intro b ps s fs rest h1 h2 h3
        simp only [compileFmt, Option.some.injEq, Except.ok.injEq] at h1
        subst h1
        simp only [matchPieces, Option.some.injEq, Prod.mk.injEq] at h2
        exact ⟨[], by rw [h2.2]; rfl, .done⟩
      refine ⟨key false, fun ps s fs rest h1 h2 h3 => ?_⟩
      obtain ⟨s', h4, h5⟩ := key true ps s fs rest h1 h2 h3
      exact ⟨[], _, s', rfl, by simp, h4, h5⟩
    · have key : ∀ b ps s fs rest, compileFmt b ('%' :: tletter d :: r) = some (.ok ps) →
          matchPieces ps s = some (fs, rest) →
          (∀ p ∈ fs, tfield t p.1 = p.2) → ∃ s', s = s' ++ rest ∧ Says t ('%' :: tletter d :: r) s' := by
        intro b ps s fs rest h1 h2 h3
        rw [compile_dir] at h1
        obtain ⟨qs, hq, rfl⟩ := map_ok_inv h1
        rw [matchPieces] at h2
        obtain ⟨⟨v, r1⟩, hm, h4⟩ := findSome?_mem h2
        dsimp only at h4
        cases hq2 : matchPieces qs r1 with
        | none => rw [hq2] at h4; cases h4
        | some x =>
          obtain ⟨fs', rest'⟩ := x
          rw [hq2] at h4
          simp only [Option.map_some, Option.some.injEq, Prod.mk.injEq] at h4
          obtain ⟨rfl, rfl⟩ := h4
          obtain ⟨s', rfl, hs'⟩ := (ih r.length (by simp) r rfl).1 qs r1 fs' rest' hq hq2
            (fun p hp => h3 p (List.mem_cons_of_mem _ hp))
          obtain ⟨a, rfl, ha⟩ := says_dir hm (h3 _ List.mem_cons_self) hs'
          exact ⟨a ++ s', by rw [List.append_assoc], ha⟩
      refine ⟨key false, fun ps s fs rest h1 h2 h3 => ?_⟩
      obtain ⟨s', h4, h5⟩ := key true ps s fs rest h1 h2 h3
      exact ⟨[], _, s', rfl, by simp, h4, h5⟩
    · have key : ∀ b ps s fs rest, compileFmt b ('%' :: '%' :: r) = some (.ok ps) →
          matchPieces ps s = some (fs, rest) →
          (∀ p ∈ fs, tfield t p.1 = p.2) → ∃ s', s = s' ++ rest ∧ Says t ('%' :: '%' :: r) s' := by
        intro b ps s fs rest h1 h2 h3
        rw [compile_percent] at h1
        obtain ⟨qs, hq, rfl⟩ := map_ok_inv h1
        cases s with
        | nil => rw [matchPieces] at h2; cases h2
        | cons a s =>
          rw [matchPieces] at h2
          split at h2
          · rename_i hl
            obtain ⟨s', rfl, hs'⟩ := (ih r.length (by simp) r rfl).1 qs s fs rest hq h2 h3
            have : a = '%' := by
              rcases lower_same hl with h | ⟨_, h⟩ | ⟨h, _⟩
              · exact h
              · rename_i hA
                have h1 : 65 ≤ a.toNat := hA.1
                have : ('%' : Char).toNat = 37 := rfl
                omega
              · exact absurd h (by decide)
            subst this
            exact ⟨'%' :: s', rfl, .percent hs'⟩
          · cases h2
      refine ⟨key false, fun ps s fs rest h1 h2 h3 => ?_⟩
      obtain ⟨s', h4, h5⟩ := key true ps s fs rest h1 h2 h3
      exact ⟨[], _, s', rfl, by simp, h4, h5⟩
    · exact ⟨fun ps s fs rest h1 => absurd h1 (compile_bad _ _ hb _), fun ps s fs rest h1 => absurd h1 (compile_bad _ _ hb _)⟩
    · have hr := (ih r.length (by simp) r rfl).2
      constructor
      · intro ps s fs rest h1 h2 h3
        rw [compile_space_false r hs] at h1
        obtain ⟨qs, hq, rfl⟩ := map_ok_inv h1
        rw [matchPieces] at h2
        obtain ⟨r1, hm, h4⟩ := findSome?_mem h2
        obtain ⟨v, rfl, hv1, hv2⟩ := wsAlts_mem hm
        obtain ⟨u, f', s', rfl, hu, rfl, h5⟩ := hr qs r1 fs rest hq h4 h3
        refine ⟨v ++ s', by rw [List.append_assoc], ?_⟩
        have := Says.white (u := c :: u) (v := v) h5 ?_ (by simp) hv2 hv1
        · exact this
        · intro e he
          rcases List.mem_cons.1 he with rfl | he
          · exact (isSpaceChar_iff _).1 hs
          · exact hu e he
      · intro ps s fs rest h1 h2 h3
        rw [compile_space_true r hs] at h1
        obtain ⟨u, f', s', rfl, hu, rfl, h5⟩ := hr ps s fs rest h1 h2 h3
        refine ⟨c :: u, f', s', rfl, ?_, rfl, h5⟩
        intro e he
        rcases List.mem_cons.1 he with rfl | he
        · exact (isSpaceChar_iff _).1 hs
        · exact hu e he
    · have key : ∀ b ps s fs rest, compileFmt b (c :: r) = some (.ok ps) →
          matchPieces ps s = some (fs, rest) →
          (∀ p ∈ fs, tfield t p.1 = p.2) → ∃ s', s = s' ++ rest ∧ Says t (c :: r) s' := by
        intro b ps s fs rest h1 h2 h3
        rw [compile_char b r hc hs] at h1
        obtain ⟨qs, hq, rfl⟩ := map_ok_inv h1
        cases s with
        | nil => rw [matchPieces] at h2; cases h2
        | cons a s =>
          rw [matchPieces] at h2
          split at h2
          · rename_i hl
            obtain ⟨s', rfl, hs'⟩ := (ih r.length (by simp) r rfl).1 qs s fs rest hq h2 h3
            exact ⟨a :: s', rfl, .char hs' (lower_same hl) hc (fun hw => by
              rw [(isSpaceChar_iff c).2 hw] at hs; cases hs)⟩
          · cases h2
      refine ⟨key false, fun ps s fs rest h1 h2 h3 => ?_⟩
      obtain ⟨s', h4, h5⟩ := key true ps s fs rest h1 h2 h3
      exact ⟨[], _, s', rfl, by simp, h4, h5⟩

theorem match_dirs {ps : List TPiece} {s : Str} {fs : TFields} {rest : Str}
    (h : matchPieces ps s = some (fs, rest)) : fs.map (·.1) = tdirs ps := by
  induction ps generalizing s fs with
  | nil => simp only [matchPieces, Option.some.injEq, Prod.mk.injEq] at h; rw [← h.1]; rfl
  | cons p ps ih =>
    cases p with
    | lit c =>
      cases s with
      | nil => rw [matchPieces] at h; cases h
      | cons a s =>
        rw [matchPieces] at h
        split at h
        · rw [ih h]; rfl
        · cases h
    | ws =>
      rw [matchPieces] at h
      obtain ⟨r, _, h4⟩ := findSome?_mem h
      rw [ih h4]; rfl
    | dir d =>
      rw [matchPieces] at h
      obtain ⟨⟨v, r1⟩, hm, h4⟩ := findSome?_mem h
      dsimp only at h4
      cases hq2 : matchPieces ps r1 with
      | none => rw [hq2] at h4; cases h4
      | some x =>
        obtain ⟨fs', rest'⟩ := x
        rw [hq2] at h4
        simp only [Option.map_some, Option.some.injEq, Prod.mk.injEq] at h4
        obtain ⟨rfl, rfl⟩ := h4
        rw [List.map_cons, ih hq2]; rfl

theorem compile_letters (f : Str) : ∀ b ps, compileFmt b f = some (.ok ps) → (tdirs ps).map tletter = letters f := by
  induction hn : f.length using Nat.strong_induction_on generalizing f with
  | _ n ih =>
    subst hn
    intro b ps h
    rcases fmt_cases f with rfl | ⟨d, r, rfl⟩ | ⟨r, rfl⟩ | ⟨r, rfl, hb⟩ | ⟨c, r, rfl, hc, hs⟩ | ⟨c, r, rfl, hc, hs⟩
    · simp only [compileFmt, Option.some.injEq, Except.ok.injEq] at h
      subst h; rfl
    · rw [compile_dir] at h
      obtain ⟨qs, hq, rfl⟩ := map_ok_inv h
      rw [letters_dir, tdirs, List.map_cons, ih _ (by simp) r rfl _ _ hq]
    · rw [compile_percent] at h
      obtain ⟨qs, hq, rfl⟩ := map_ok_inv h
      have : letters ('%' :: '%' :: r) = letters r := by rw [letters]
      rw [this, ← ih _ (by simp) r rfl _ _ hq]; rfl
    · exact absurd h (compile_bad _ _ hb _)
    · rw [letters_char r hc]
      cases b
      · rw [compile_space_false r hs] at h
        obtain ⟨qs, hq, rfl⟩ := map_ok_inv h
        rw [← ih _ (by simp) r rfl _ _ hq]; rfl
      · rw [compile_space_true r hs] at h
        exact ih _ (by simp) r rfl _ _ h
    · rw [compile_char b r hc hs] at h
      obtain ⟨qs, hq, rfl⟩ := map_ok_inv h
      rw [letters_char r hc, ← ih _ (by simp) r rfl _ _ hq]; rfl

/-! ### Reading what a text says -/

/-- No digit comes first. -/
def Ends (s : Str) : Prop := ∀ c r, s = c :: r → digitVal? c = none

theorem isDigit_val {c : Char} (h : isDigit c = true) : ∃ n, digitVal? c = some n := by
  unfold isDigit at h
  exact Option.isSome_iff_exists.1 h

theorem digit_range {c : Char} {n : ℕ} (h : digitVal? c = some n) : c.toNat ≤ 57 ∧ n < 10 := by
  unfold digitVal? at h
  split at h <;> first | (cases h; decide) | cases h

theorem twoDigits_ends {p : ℕ → Bool} {c : Char} {s : Str} (h : Ends s) : twoDigits p (c :: s) = [] := by
  cases s with
  | nil => rfl
  | cons b r =>
    rw [twoDigits, h b r rfl]
    cases digitVal? c <;> rfl

theorem digits_small {p : ℕ → Bool} {q : ℕ → Bool} {a s : Str} {n : ℕ} (ha : DigitText 1 2 a) (hv : digitsValue a = n) (hs : Ends s)
    (hp : p n = true) (hq : n < 10 → q n = true) : ∃ l, twoDigits p (a ++ s) ++ oneDigit q (a ++ s) = (n, s) :: l := by
  obtain ⟨h1, h2, h3⟩ := ha
  match a, h1, h2 with
  | [c], _, _ =>
    obtain ⟨x, hx⟩ := isDigit_val (h3 c (by simp))
    have hn : n = x := by rw [← hv]; simp [digitsValue, hx]
    have hlt : x < 10 := (digit_range hx).2
    rw [List.cons_append, List.nil_append, twoDigits_ends hs, oneDigit, hx]
    simp only
    subst hn
    rw [if_pos (hq hlt)]
    exact ⟨_, rfl⟩
  | [c, d], _, _ =>
    obtain ⟨x, hx⟩ := isDigit_val (h3 c (by simp))
    obtain ⟨y, hy⟩ := isDigit_val (h3 d (by simp))
    have hn : n = 10 * x + y := by rw [← hv]; simp [digitsValue, hx, hy]
    simp only [List.cons_append, List.nil_append, twoDigits, hx, hy]
    rw [← hn, if_pos hp]
    exact ⟨_, rfl⟩

theorem fracDigits_first : ∀ (a : Str) (k acc : ℕ) (s : Str), DigitText 1 k a → Ends s →
    ∃ l, fracDigits k acc (a ++ s) = ((acc * 10 ^ a.length + digitsValue a) * 10 ^ (k - a.length), s) :: l
  | [], _, _, _, h, _ => absurd h.1 (by simp)
  | c :: a, 0, _, _, h, _ => absurd h.2.1 (by simp)
  | c :: a, k + 1, acc, s, h, hs => by
    obtain ⟨x, hx⟩ := isDigit_val (h.2.2 c (by simp))
    have e1 : digitsValue (c :: a) = x * 10 ^ a.length + digitsValue a := by
      have := number_snoc_fold (10 * 0 + x) a
      unfold digitsValue at this ⊢
      rw [List.foldl_cons, hx]
      simpa using this
    rw [List.cons_append, fracDigits, hx]
    simp only
    cases a with
    | nil =>
      have e2 : fracDigits k (10 * acc + x) ([] ++ s) = [] := by
        cases k with
        | zero => rw [fracDigits]
        | succ k =>
          cases s with
          | nil => rw [List.nil_append, fracDigits]
          | cons b r => rw [List.nil_append, fracDigits, hs b r rfl]
      rw [e2]
      refine ⟨[], ?_⟩
      simp [digitsValue, hx, Nat.mul_comm]
    | cons b a =>
      obtain ⟨l, hl⟩ := fracDigits_first (b :: a) k (10 * acc + x) s
        ⟨by simp, by have := h.2.1; simp at this ⊢; omega, fun e he => h.2.2 e (List.mem_cons_of_mem _ he)⟩ hs
      rw [hl]
      refine ⟨l ++ [((10 * acc + x) * 10 ^ k, b :: a ++ s)], ?_⟩
      rw [e1]
      simp only [List.cons_append]
      congr 2
      rw [show (c :: b :: a).length = (b :: a).length + 1 from rfl, Nat.pow_succ, Nat.add_sub_add_right]
      congr 1
      ring

theorem fourDigits_first {a s : Str} {n : ℕ} (ha : DigitText 4 4 a) (hv : digitsValue a = n) : fourDigits (a ++ s) = [(n, s)] := by
  obtain ⟨h1, h2, h3⟩ := ha
  match a, h1, h2 with
  | [c, d, e, f], _, _ =>
    obtain ⟨w, hw⟩ := isDigit_val (h3 c (by simp))
    obtain ⟨x, hx⟩ := isDigit_val (h3 d (by simp))
    obtain ⟨y, hy⟩ := isDigit_val (h3 e (by simp))
    obtain ⟨z, hz⟩ := isDigit_val (h3 f (by simp))
    simp only [List.cons_append, List.nil_append, fourDigits, hw, hx, hy, hz]
    rw [← hv]
    simp only [digitsValue, List.foldl_cons, List.foldl_nil, hw, hx, hy, hz, Option.getD_some]
    congr 2
    omega

theorem same_digit {a c : Char} (h : SameLetter a c) (hc : digitVal? c = none) : digitVal? a = none := by
  have hA : ∀ x : Char, 'A' ≤ x → 65 ≤ x.toNat := fun x hx => by
    have := Char.le_def.1 hx
    exact this
  rcases h with rfl | ⟨⟨h1, h2⟩, _⟩ | ⟨⟨h1, h2⟩, h3⟩
  · exact hc
  · cases hd : digitVal? a with
    | none => rfl
    | some n => have := (digit_range hd).1; have := hA a h1; omega
  · cases hd : digitVal? a with
    | none => rfl
    | some n => have := (digit_range hd).1; have := hA c h1; omega

theorem same_lower {a c : Char} (h : SameLetter a c) : lowerChar a = lowerChar c := by
  have up : ∀ x y : Char, ('A' ≤ x ∧ x ≤ 'Z') → y.toNat = x.toNat + 32 → lowerChar x = lowerChar y := by
    intro x y hx hy
    have h1 : 65 ≤ x.toNat := Char.le_def.1 hx.1
    have h2 : x.toNat ≤ 90 := Char.le_def.1 hx.2
    have hy' : ¬ ('A' ≤ y ∧ y ≤ 'Z') := fun h => by
      have : y.toNat ≤ 90 := Char.le_def.1 h.2
      omega
    unfold lowerChar
    rw [if_pos hx, if_neg hy', ← hy]
    exact Char.ofNat_toNat y
  rcases h with rfl | ⟨h1, h2⟩ | ⟨h1, h2⟩
  · rfl
  · exact up a c h1 h2
  · exact (up c a h1 h2).symm

theorem same_space {a c : Char} (h : SameLetter a c) (hc : isSpaceChar c = false) : isSpaceChar a = false := by
  have lt : ∀ x : Char, 65 ≤ x.toNat → x.toNat ≤ 122 → isSpaceChar x = false := by
    intro x h1 h2
    unfold isSpaceChar
    simp only [Bool.or_eq_false_iff, Bool.and_eq_false_iff, decide_eq_false_iff_not, beq_eq_false_iff_ne]
    refine ⟨?_, ?_⟩ <;> omega
  rcases h with rfl | ⟨⟨h1, h2⟩, _⟩ | ⟨⟨h1, h2⟩, h3⟩
  · exact hc
  · have h1 : 65 ≤ a.toNat := Char.le_def.1 h1
    have h2 : a.toNat ≤ 90 := Char.le_def.1 h2
    exact lt a h1 (by omega)
  · have h1 : 65 ≤ c.toNat := Char.le_def.1 h1
    have h2 : c.toNat ≤ 90 := Char.le_def.1 h2
    exact lt a (by omega) (by omega)

theorem says_ends {t : DateTime} {f s : Str} (h : Says t f s) (he : NumberEnds f) : Ends s := by
  intro c r hs
  have nd : ∀ x : Char, isDigit x = false → digitVal? x = none := fun x hx => by
    unfold isDigit at hx; simpa using hx
  rcases he with rfl | ⟨f', rfl⟩ | ⟨x, f', rfl, hx, hd⟩
  · generalize hf : ([] : Str) = g at h
    cases h <;> first | cases hf | skip
    · cases hs
    · rename_i hu _ _ _ ; simp at hf; exact absurd hf.1 (by assumption)
  · generalize hf : ('%' :: '%' :: f' : Str) = g at h
    cases h <;> first | cases hf | skip
    · cases hs; rfl
    · exact absurd rfl (by assumption)
    · rename_i f u v _ hu hun _ _
      cases u with
      | nil => exact absurd rfl hun
      | cons b u =>
        injection hf with hf _
        subst hf
        exact absurd (hu '%' (by simp)) (by rw [← isSpaceChar_iff]; decide)
  · generalize hf : (x :: f' : Str) = g at h
    cases h <;> first | (cases hf; exact absurd rfl hx) | skip
    · cases hf
    · cases hf; cases hs; exact same_digit (by assumption) (nd _ hd)
    · rename_i f s u v _ hu hun hv hvn
      cases v with
      | nil => exact absurd rfl hvn
      | cons b v =>
        cases hs
        refine nd _ ?_
        have := (isSpaceChar_iff c).2 (hv c (by simp))
        cases hb : isDigit c with
        | false => rfl
        | true => rw [digit_not_space hb] at this; cases this

theorem compile_run_true {u : Str} (hu : ∀ c ∈ u, White c) (f : Str) : compileFmt true (u ++ f) = compileFmt true f := by
  induction u with
  | nil => rfl
  | cons c u ih =>
    rw [List.cons_append, compile_space_true _ ((isSpaceChar_iff c).2 (hu c (by simp)))]
    exact ih fun x hx => hu x (List.mem_cons_of_mem _ hx)

theorem dropWhile_run {v : Str} (hv : ∀ c ∈ v, White c) (s : Str) : (v ++ s).dropWhile isSpaceChar = s.dropWhile isSpaceChar := by
  induction v with
  | nil => rfl
  | cons c v ih =>
    rw [List.cons_append, List.dropWhile_cons_of_pos ((isSpaceChar_iff c).2 (hv c (by simp)))]
    exact ih fun x hx => hv x (List.mem_cons_of_mem _ hx)

theorem letters_run {u : Str} (hu : ∀ c ∈ u, White c) (f : Str) : letters (u ++ f) = letters f := by
  induction u with
  | nil => rfl
  | cons c u ih =>
    have : c ≠ '%' := by rintro rfl; exact absurd (hu '%' (by simp)) (by rw [← isSpaceChar_iff]; decide)
    rw [List.cons_append, letters_char _ this]
    exact ih fun x hx => hu x (List.mem_cons_of_mem _ hx)

theorem separated_run {u : Str} (hu : ∀ c ∈ u, White c) {f : Str} (h : Separated (u ++ f)) : Separated f := by
  induction u with
  | nil => exact h
  | cons c u ih =>
    have hc : c ≠ '%' := by rintro rfl; exact absurd (hu '%' (by simp)) (by rw [← isSpaceChar_iff]; decide)
    refine ih (fun x hx => hu x (List.mem_cons_of_mem _ hx)) ?_
    rw [List.cons_append] at h
    generalize hg : c :: (u ++ f) = g at h
    cases h with
    | done => cases hg
    | dir => injection hg with hg _; exact absurd hg hc
    | percent => injection hg with hg _; exact absurd hg hc
    | char _ h => injection hg with _ hg; rw [hg]; exact h

theorem separated_dir {d : TDir} {r : Str} (h : Separated ('%' :: tletter d :: r)) : (d = .year ∨ NumberEnds r) ∧ Separated r := by
  generalize hg : '%' :: tletter d :: r = g at h
  cases h with
  | done => cases hg
  | dir _ h1 h2 =>
    cases hg
    refine ⟨h1.imp_left fun h => tletter_inj (b := .year) h, h2⟩
  | percent => injection hg with _ hg; injection hg with hg _; exact absurd hg (tletter_ne d)
  | char h => cases hg; exact absurd rfl h

/-- The two statements needed of a format: where it starts afresh, and where it continues white space. -/
def Matches (t : DateTime) (f s : Str) : Prop :=
  (∃ ps, compileFmt false f = some (.ok ps) ∧ (tdirs ps).map tletter = letters f ∧
    matchPieces ps s = some (fieldsOf t (tdirs ps), [])) ∧
  (∃ ps, compileFmt true f = some (.ok ps) ∧ (tdirs ps).map tletter = letters f ∧
    matchPieces ps (s.dropWhile isSpaceChar) = some (fieldsOf t (tdirs ps), []))

theorem Matches.dir {t : DateTime} {f s s0 : Str} {d : TDir} (h : Matches t f s) {l : List (ℕ × Str)} {l' : List (ℕ × Str)}
    (hd : dirAlts d s0 = (tfield t d, s) :: l) (hd' : dirAlts d (s0.dropWhile isSpaceChar) = (tfield t d, s) :: l') :
    Matches t ('%' :: tletter d :: f) s0 := by
  obtain ⟨⟨ps, h1, h2, h3⟩, -⟩ := h
  have hcmp : ∀ b, compileFmt b ('%' :: tletter d :: f) = some (.ok (.dir d :: ps)) := by
    intro b; rw [compile_dir, h1]; rfl
  have hl : (tdirs (.dir d :: ps)).map tletter = letters ('%' :: tletter d :: f) := by
    rw [letters_dir, tdirs, List.map_cons, h2]
  refine ⟨⟨_, hcmp false, hl, ?_⟩, ⟨_, hcmp true, hl, ?_⟩⟩
  · rw [matchPieces, hd]; simp [h3, fieldsOf, tdirs]
  · rw [matchPieces, hd']; simp [h3, fieldsOf, tdirs]

theorem digitText_drop {lo hi : ℕ} {a : Str} (h : DigitText (lo + 1) hi a) (s : Str) : (a ++ s).dropWhile isSpaceChar = a ++ s := by
  cases a with
  | nil => exact absurd h.1 (by simp)
  | cons c a =>
    rw [List.cons_append, List.dropWhile_cons_of_neg (by simp [digit_not_space (h.2.2 c (by simp))])]

/-- A text that says `t` is read as `t`. -/
theorem match_says {t : DateTime} (ht : ValidTime t) {f s : Str} (h : Says t f s) (hs : Separated f) : Matches t f s := by
  obtain ⟨a1, a2, a3, a4, a5, a6, a7, a8, a9, a10⟩ := (validTime_iff t).1 ht
  have h31 := daysInMonth_le31 t.year t.month
  induction h with
  | done => exact ⟨⟨[], rfl, rfl, rfl⟩, ⟨[], rfl, rfl, rfl⟩⟩
  | @year f s a h1 h2 h3 ih =>
    obtain ⟨_, hs'⟩ := separated_dir (d := .year) hs
    have e : dirAlts .year (a ++ s) = [(tfield t .year, s)] := fourDigits_first h2 h3
    exact (ih hs').dir (d := .year) e (by rw [digitText_drop h2]; exact e)
  | @month f s a h1 h2 h3 ih =>
    obtain ⟨he, hs'⟩ := separated_dir (d := .month) hs
    have hE := says_ends h1 (he.resolve_left (by simp))
    obtain ⟨l, e⟩ := digits_small (p := fun n => 1 ≤ n && n ≤ 12) (q := fun n => 1 ≤ n) h2 h3 hE (by simp; omega) (by simp; omega)
    exact (ih hs').dir (d := .month) e (by rw [digitText_drop h2]; exact e)
  | @day f s a h1 h2 h3 ih =>
    obtain ⟨he, hs'⟩ := separated_dir (d := .day) hs
    have hE := says_ends h1 (he.resolve_left (by simp))
    obtain ⟨l, e⟩ := digits_small (p := fun n => 1 ≤ n && n ≤ 31) (q := fun n => 1 ≤ n) h2 h3 hE (by simp; omega) (by simp; omega)
    have e' : ∃ l, dirAlts .day (a ++ s) = (tfield t .day, s) :: l := by
      unfold dirAlts
      dsimp only
      rw [e]
      exact ⟨_, rfl⟩
    obtain ⟨l', e'⟩ := e'
    exact (ih hs').dir (d := .day) e' (by rw [digitText_drop h2]; exact e')
  | @blankDay f s a h1 h2 h3 ih =>
    obtain ⟨he, hs'⟩ := separated_dir (d := .day) hs
    have hE := says_ends h1 (he.resolve_left (by simp))
    have h2' : DigitText 1 2 a := ⟨h2.1, le_trans h2.2.1 (by omega), h2.2.2⟩
    obtain ⟨l, e⟩ := digits_small (p := fun n => 1 ≤ n && n ≤ 31) (q := fun n => 1 ≤ n) h2' h3 hE (by simp; omega) (by simp; omega)
    have e1 : ∃ l, dirAlts .day (a ++ s) = (tfield t .day, s) :: l := by
      unfold dirAlts
      dsimp only
      rw [e]
      exact ⟨_, rfl⟩
    obtain ⟨l1, e1⟩ := e1
    have e2 : ∃ l, dirAlts .day (' ' :: a ++ s) = (tfield t .day, s) :: l := by
      obtain ⟨b1, b2, b3⟩ := h2
      match a, b1, b2 with
      | [c], _, _ =>
        obtain ⟨x, hx⟩ := isDigit_val (b3 c (by simp))
        have hn : t.day = x := by rw [← h3]; simp [digitsValue, hx]
        refine ⟨[], ?_⟩
        simp only [dirAlts, List.cons_append, List.nil_append, twoDigits, oneDigit, hx, tfield, hn]
        have h1x : decide (1 ≤ x) = true := by rw [← hn]; simpa using a5
        rw [if_pos h1x]
        rfl
    obtain ⟨l2, e2⟩ := e2
    refine (ih hs').dir (d := .day) e2 (l' := l1) ?_
    rw [List.cons_append, List.dropWhile_cons_of_pos (by decide), digitText_drop h2]
    exact e1
  | @hour f s a h1 h2 h3 ih =>
    obtain ⟨he, hs'⟩ := separated_dir (d := .hour) hs
    have hE := says_ends h1 (he.resolve_left (by simp))
    obtain ⟨l, e⟩ := digits_small (p := fun n => n ≤ 23) (q := fun _ => true) h2 h3 hE (by simp; omega) (by simp)
    exact (ih hs').dir (d := .hour) e (by rw [digitText_drop h2]; exact e)
  | @minute f s a h1 h2 h3 ih =>
    obtain ⟨he, hs'⟩ := separated_dir (d := .minute) hs
    have hE := says_ends h1 (he.resolve_left (by simp))
    obtain ⟨l, e⟩ := digits_small (p := fun n => n ≤ 59) (q := fun _ => true) h2 h3 hE (by simp; omega) (by simp)
    exact (ih hs').dir (d := .minute) e (by rw [digitText_drop h2]; exact e)
  | @second f s a h1 h2 h3 ih =>
    obtain ⟨he, hs'⟩ := separated_dir (d := .second) hs
    have hE := says_ends h1 (he.resolve_left (by simp))
    obtain ⟨l, e⟩ := digits_small (p := fun n => n ≤ 61) (q := fun _ => true) h2 h3 hE (by simp; omega) (by simp)
    exact (ih hs').dir (d := .second) e (by rw [digitText_drop h2]; exact e)
  | @micro f s a h1 h2 h3 ih =>
    obtain ⟨he, hs'⟩ := separated_dir (d := .micro) hs
    have hE := says_ends h1 (he.resolve_left (by simp))
    obtain ⟨l, e⟩ := fracDigits_first a 6 0 s h2 hE
    have e' : dirAlts .micro (a ++ s) = (tfield t .micro, s) :: l := by
      unfold dirAlts
      dsimp only
      rw [e]
      simp only [tfield, Nat.zero_mul, Nat.zero_add, h3]
    exact (ih hs').dir (d := .micro) e' (by rw [digitText_drop h2]; exact e')
  | @percent f s h1 ih =>
    have hs' : Separated f := by
      generalize hg : '%' :: '%' :: f = g at hs
      cases hs with
      | done => cases hg
      | dir h => cases hg; exact absurd rfl h
      | percent h => cases hg; exact h
      | char h => cases hg; exact absurd rfl h
    obtain ⟨⟨ps, k1, k2, k3⟩, -⟩ := ih hs'
    have hcmp : ∀ b, compileFmt b ('%' :: '%' :: f) = some (.ok (.lit '%' :: ps)) := by
      intro b; rw [compile_percent, k1]; rfl
    have hl : (tdirs (.lit '%' :: ps)).map tletter = letters ('%' :: '%' :: f) := by
      rw [tdirs, k2, letters]; intro d h; cases h
    have hm : matchPieces (.lit '%' :: ps) ('%' :: s) = some (fieldsOf t (tdirs (.lit '%' :: ps)), []) := by
      rw [match_lit, k3, tdirs]; intro d h; cases h
    refine ⟨⟨_, hcmp false, hl, hm⟩, ⟨_, hcmp true, hl, ?_⟩⟩
    rw [List.dropWhile_cons_of_neg (by decide)]
    exact hm
  | @char f s a c h1 h2 hc hw ih =>
    have hs' : Separated f := by
      generalize hg : c :: f = g at hs
      cases hs with
      | done => cases hg
      | dir h => cases hg; exact absurd rfl hc
      | percent h => cases hg; exact absurd rfl hc
      | char _ h => cases hg; exact h
    have hsp : isSpaceChar c = false := by
      cases hb : isSpaceChar c with
      | false => rfl
      | true => exact absurd ((isSpaceChar_iff c).1 hb) hw
    obtain ⟨⟨ps, k1, k2, k3⟩, -⟩ := ih hs'
    have hcmp : ∀ b, compileFmt b (c :: f) = some (.ok (.lit c :: ps)) := by
      intro b; rw [compile_char b f hc hsp, k1]; rfl
    have hl : (tdirs (.lit c :: ps)).map tletter = letters (c :: f) := by
      rw [letters_char f hc, ← k2, tdirs]; intro d h; cases h
    have hm : matchPieces (.lit c :: ps) (a :: s) = some (fieldsOf t (tdirs (.lit c :: ps)), []) := by
      rw [matchPieces, if_pos (same_lower h2), k3, tdirs]; intro d h; cases h
    refine ⟨⟨_, hcmp false, hl, hm⟩, ⟨_, hcmp true, hl, ?_⟩⟩
    rw [List.dropWhile_cons_of_neg (by rw [same_space h2 hsp]; simp)]
    exact hm
  | @white f s u v h1 hu hun hv hvn ih =>
    obtain ⟨-, ⟨ps, k1, k2, k3⟩⟩ := ih (separated_run hu hs)
    refine ⟨⟨.ws :: ps, ?_, by rw [letters_run hu, ← k2]; rfl, ?_⟩, ⟨ps, by rw [compile_run_true hu, k1], by rw [letters_run hu, k2], ?_⟩⟩
    · cases u with
      | nil => exact absurd rfl hun
      | cons c u =>
        rw [List.cons_append, compile_space_false _ ((isSpaceChar_iff c).2 (hu c (by simp))),
          compile_run_true (fun x hx => hu x (List.mem_cons_of_mem _ hx)), k1]
        rfl
    · cases v with
      | nil => exact absurd rfl hvn
      | cons c v =>
        rw [List.cons_append, matchPieces]
        refine wsAlts_first _ _ _ c ((isSpaceChar_iff c).2 (hv c (by simp))) ?_
        rw [dropWhile_run (fun x hx => hv x (List.mem_cons_of_mem _ hx))]
        exact k3
    · rw [dropWhile_run hv]
      exact k3

end Verif
