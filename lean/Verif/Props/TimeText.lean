import Verif.Proofs.TimeText
import Verif.Props.Time
/-!
# C87: dates and timedeltas as text (stdlib/bridge/time.py)
-/
namespace Verif
open Spec

/-! ### Writing -/

theorem digitChar_lt {a b : ℕ} (ha : a < 10) (hb : b < 10) : digitChar a < digitChar b ↔ a < b := by
  have key : ∀ a < 10, ∀ b < 10, (digitChar a < digitChar b ↔ a < b) := by decide +kernel
  exact key a ha b hb

theorem digitChar_eq {a b : ℕ} (ha : a < 10) (hb : b < 10) : digitChar a = digitChar b ↔ a = b := by
  have key : ∀ a < 10, ∀ b < 10, (digitChar a = digitChar b ↔ a = b) := by decide +kernel
  exact key a ha b hb

/-- Fixed-width numbers compare as numbers. -/
theorem fixed_lt {w n m : ℕ} (hn : n < 10 ^ w) (hm : m < 10 ^ w) (s t : Str) :
    fixedDigits w n ++ s < fixedDigits w m ++ t ↔ n < m ∨ n = m ∧ s < t := by
  induction w generalizing n m s t with
  | zero => simp only [pow_zero] at hn hm; simp [fixedDigits, show n = 0 by omega, show m = 0 by omega]
  | succ w ih =>
    rw [Nat.pow_succ] at hn hm
    simp only [fixedDigits, List.append_assoc, List.singleton_append]
    rw [ih (by omega) (by omega), List.cons_lt_cons_iff, digitChar_lt (Nat.mod_lt _ (by omega)) (Nat.mod_lt _ (by omega)),
      digitChar_eq (Nat.mod_lt _ (by omega)) (Nat.mod_lt _ (by omega))]
    constructor
    · rintro (h | ⟨h, h' | ⟨h', h''⟩⟩)
      · left; omega
      · left; omega
      · exact Or.inr ⟨by omega, h''⟩
    · rintro (h | ⟨rfl, h⟩)
      · by_cases h2 : n / 10 < m / 10
        · exact Or.inl h2
        · exact Or.inr ⟨by omega, Or.inl (by omega)⟩
      · exact Or.inr ⟨rfl, Or.inr ⟨rfl, h⟩⟩

theorem sep_lt (c : Char) (s t : Str) : c :: s < c :: t ↔ s < t := by
  rw [List.cons_lt_cons_iff]
  constructor
  · rintro (h | ⟨-, h⟩)
    · exact absurd h (Char.lt_irrefl c)
    · exact h
  · exact fun h => Or.inr ⟨rfl, h⟩

/-- The text of a date in fixed-width numbers. -/
theorem text_eq {t : DateTime} (h : ValidTime t) : t.text =
    fixedDigits 4 t.year ++ ('-' :: (fixedDigits 2 t.month ++ ('-' :: (fixedDigits 2 t.day ++ (' ' ::
    (fixedDigits 2 t.hour ++ (':' :: (fixedDigits 2 t.minute ++ (':' :: (fixedDigits 2 t.second ++
    (if t.micro = 0 then [] else '.' :: fixedDigits 6 t.micro))))))))))) := by
  obtain ⟨a1, a2, a3, a4, a5, a6, a7, a8, a9, a10⟩ := (validTime_iff t).1 h
  have := daysInMonth_le31 t.year t.month
  unfold DateTime.text
  rw [padNat_eq (by omega) (by omega), padNat_eq (by omega) (by omega), padNat_eq (by omega) (by omega),
    padNat_eq (by omega) (by omega), padNat_eq (by omega) (by omega), padNat_eq (by omega) (by omega),
    padNat_eq (by omega) (by omega)]
  simp only [List.append_assoc, List.cons_append]

/-- **C87, order.** As Python compares strings (character by character, by code point), `str(a) < str(b)`
exactly when `a` is earlier than `b`. -/
theorem C87_order {a b : DateTime} (ha : ValidTime a) (hb : ValidTime b) :
    a.text < b.text ↔ instant a < instant b := by
  rw [← (C47_order ha hb).1, text_eq ha, text_eq hb]
  obtain ⟨a1, a2, a3, a4, a5, a6, a7, a8, a9, a10⟩ := (validTime_iff a).1 ha
  obtain ⟨b1, b2, b3, b4, b5, b6, b7, b8, b9, b10⟩ := (validTime_iff b).1 hb
  have := daysInMonth_le31 a.year a.month
  have := daysInMonth_le31 b.year b.month
  have hmic : (if a.micro = 0 then [] else '.' :: fixedDigits 6 a.micro) <
      (if b.micro = 0 then [] else '.' :: fixedDigits 6 b.micro) ↔ a.micro < b.micro := by
    by_cases h1 : a.micro = 0 <;> by_cases h2 : b.micro = 0
    · rw [if_pos h1, if_pos h2]; simp [h1, h2]
    · rw [if_pos h1, if_neg h2]; simp; omega
    · rw [if_neg h1, if_pos h2]; simp; omega
    · rw [if_neg h1, if_neg h2, sep_lt]
      have := fixed_lt (w := 6) (n := a.micro) (m := b.micro) (by omega) (by omega) [] []
      simpa using this
  rw [fixed_lt (by omega) (by omega), sep_lt, fixed_lt (by omega) (by omega), sep_lt, fixed_lt (by omega) (by omega), sep_lt,
    fixed_lt (by omega) (by omega), sep_lt, fixed_lt (by omega) (by omega), sep_lt, fixed_lt (by omega) (by omega), hmic]
  simp only [DateTime.lt, DateTime.fields, DateTime.lexLt, Bool.or_eq_true, Bool.and_eq_true, decide_eq_true_eq,
    beq_iff_eq, Bool.false_eq_true, or_false, and_false]

/-- A date with microseconds comes after the one without. -/
example : ValidTime ⟨2024, 2, 29, 9, 5, 0, 0⟩ ∧ (DateTime.text ⟨2024, 2, 29, 9, 5, 0, 0⟩) = py! "2024-02-29 09:05:00" ∧
    (DateTime.text ⟨2024, 2, 29, 9, 5, 0, 70⟩) = py! "2024-02-29 09:05:00.000070" ∧
    (py! "2024-02-29 09:05:00" : Str) < py! "2024-02-29 09:05:00.000070" :=
  ⟨(validTime_iff _).2 (by decide), by decide +kernel, by decide +kernel, by decide +kernel⟩

/-- **C87, distinct texts.** Two dates have the same text exactly when they are the same instant: dates
used as keys never collide. -/
theorem C87_distinct {a b : DateTime} (ha : ValidTime a) (hb : ValidTime b) : a.text = b.text ↔ instant a = instant b := by
  refine ⟨fun h => ?_, fun h => by rw [((C47_order ha hb).2).2 h]⟩
  by_contra hne
  rcases lt_or_gt_of_ne hne with h' | h'
  · have := (C87_order ha hb).2 h'; rw [h] at this; exact absurd this (List.lt_irrefl _)
  · have := (C87_order hb ha).2 h'; rw [h] at this; exact absurd this (List.lt_irrefl _)

/-! ### Reading back -/

theorem strptime_of_match {t : DateTime} {format s : Str} {ps : List TPiece} (h1 : compileFmt false format = some (.ok ps))
    (h2 : (tdirs ps).map tletter = letters format) (h3 : matchPieces ps s = some (fieldsOf t (tdirs ps), []))
    (hn : (letters format).Nodup) :
    (ValidTime (mentioned format t) → DateTime.strptime s format = some (.ok (mentioned format t))) ∧
    (¬ ValidTime (mentioned format t) → DateTime.strptime s format = some (.error .valueError)) := by
  have hnd : (tdirs ps).Nodup := by rw [← h2] at hn; exact hn.of_map _
  have hmem : ∀ d, d ∈ tdirs ps ↔ tletter d ∈ letters format := by
    intro d
    rw [← h2, List.mem_map]
    exact ⟨fun h => ⟨d, h, rfl⟩, fun ⟨e, he, hh⟩ => tletter_inj hh ▸ he⟩
  have hf : ∀ d n, fieldOr (fieldsOf t (tdirs ps)) d n = if tletter d ∈ letters format then tfield t d else n := by
    intro d n
    rw [fieldOr_fieldsOf]
    by_cases h : d ∈ tdirs ps
    · rw [if_pos h, if_pos ((hmem d).1 h)]
    · rw [if_neg h, if_neg (fun h' => h ((hmem d).2 h'))]
  have e : DateTime.strptime s format = some (DateTime.make (mentioned format t).year (mentioned format t).month
      (mentioned format t).day (mentioned format t).hour (mentioned format t).minute (mentioned format t).second
      (mentioned format t).micro) := by
    unfold DateTime.strptime
    rw [h1]
    simp only [Option.map_some, bind, Except.bind, if_pos hnd, h3, if_true, hf]
    rfl
  rw [e]
  generalize mentioned format t = u
  constructor
  · intro h; rw [(C47_make u).2 h]
  · intro h
    congr 1
    unfold DateTime.make
    have hv : ¬ u.Valid := fun h' => h ((validTime_iff _).2 h')
    split
    · simp only [Int.toNat_natCast]
      exact if_neg hv
    · rfl

/-- **C87, round trip.** For every format made of ordinary characters, white space, `%%` and the
numeric directives, none of them twice: `strptime` of what the format writes for a date is that date,
with the fields the format does not mention at their defaults; `ValueError` when no such date
exists (29 February without a year). -/
theorem C87_roundtrip {t : DateTime} (ht : ValidTime t) (format s : Str) (hw : write t format = some s)
    (hn : (letters format).Nodup) :
    (ValidTime (mentioned format t) → DateTime.strptime s format = some (.ok (mentioned format t))) ∧
    (¬ ValidTime (mentioned format t) → DateTime.strptime s format = some (.error .valueError)) := by
  obtain ⟨⟨ps, h1, h2, h3⟩, -⟩ := match_write ht format s hw
  exact strptime_of_match h1 h2 h3 hn

/-- A format with a literal, a percent sign, two blanks and no year. -/
example : write ⟨2023, 12, 5, 7, 0, 0, 42⟩ (py! "%d/%m  at %H:%M %f%%") = some (py! "05/12  at 07:00 000042%") ∧
    DateTime.strptime (py! "05/12  at 07:00 000042%") (py! "%d/%m  at %H:%M %f%%") =
      some (.ok ⟨1900, 12, 5, 7, 0, 0, 42⟩) := ⟨by decide +kernel, by decide +kernel⟩

/-- 29 February needs a year. -/
example : DateTime.strptime (py! "29.02.") (py! "%d.%m.") = some (.error .valueError) ∧
    DateTime.strptime (py! "29.02.2024") (py! "%d.%m.%Y") = some (.ok ⟨2024, 2, 29, 0, 0, 0, 0⟩) :=
  ⟨by decide +kernel, by decide +kernel⟩

/-! ### What is accepted -/

theorem make_ok {y mo d h mi s us : ℕ} {t : DateTime} (hm : DateTime.make y mo d h mi s us = .ok t) :
    t = ⟨y, mo, d, h, mi, s, us⟩ ∧ ValidTime t := by
  unfold DateTime.make at hm
  split at hm
  · simp only [Int.toNat_natCast] at hm
    split at hm
    · rename_i hv
      simp only [Except.ok.injEq] at hm
      subst hm
      exact ⟨rfl, (validTime_iff _).2 hv⟩
    · cases hm
  · cases hm

theorem fieldOr_mem {fs : TFields} {d : TDir} {v n : ℕ} (hn : (fs.map (·.1)).Nodup) (h : (d, v) ∈ fs) :
    fieldOr fs d n = v := by
  induction fs with
  | nil => cases h
  | cons p fs ih =>
    unfold fieldOr at *
    rw [List.map_cons, List.nodup_cons] at hn
    by_cases hp : p.1 = d
    · rw [List.find?_cons_of_pos (by simpa using hp)]
      rcases List.mem_cons.1 h with h | h
      · rw [← h]; rfl
      · exact absurd (List.mem_map.2 ⟨_, h, rfl⟩) (by rw [hp] at hn; exact hn.1)
    · rw [List.find?_cons_of_neg (by simpa using hp)]
      rcases List.mem_cons.1 h with h | h
      · rw [← h] at hp; exact absurd rfl hp
      · exact ih hn.2 h

theorem fieldOr_absent {fs : TFields} {d : TDir} {n : ℕ} (h : d ∉ fs.map (·.1)) : fieldOr fs d n = n := by
  unfold fieldOr
  rw [List.find?_eq_none.2]
  · rfl
  · intro p hp
    simp only [decide_eq_true_eq]
    rintro rfl
    exact h (List.mem_map.2 ⟨p, hp, rfl⟩)

/-- **C87, accepted texts.** Whatever `strptime` returns is a real date; the text is an instance of the
format, has the number the date has in each field the format mentions, and the other fields are at
their defaults. -/
theorem C87_accepts {s format : Str} {t : DateTime} (h : DateTime.strptime s format = some (.ok t)) :
    ValidTime t ∧ Says t format s ∧ mentioned format t = t ∧ (letters format).Nodup := by
  unfold DateTime.strptime at h
  cases hc : compileFmt false format with
  | none => rw [hc] at h; cases h
  | some e =>
    rw [hc] at h
    cases e with
    | error e => simp [bind, Except.bind] at h
    | ok ps =>
      simp only [Option.map_some, bind, Except.bind, Option.some.injEq] at h
      have hlet := compile_letters format _ _ hc
      by_cases hnd : (tdirs ps).Nodup
      · rw [if_pos hnd] at h
        cases hm : matchPieces ps s with
        | none => rw [hm] at h; cases h
        | some x =>
          obtain ⟨fs, rest⟩ := x
          rw [hm] at h
          dsimp only at h
          split at h
          · rename_i hr
            subst hr
            obtain ⟨ht, hv⟩ := make_ok h
            have hdirs := match_dirs hm
            have hf : ∀ p ∈ fs, tfield t p.1 = p.2 := by
              rintro ⟨d, v⟩ hp
              have hfo : ∀ n, fieldOr fs d n = v := fun n => fieldOr_mem (by rw [hdirs]; exact hnd) hp
              subst ht
              cases d <;> exact hfo _
            obtain ⟨s', hs1, hs2⟩ := (says_of_match format).1 ps s fs [] hc hm hf
            rw [List.append_nil] at hs1
            subst hs1
            have hab : ∀ d, tletter d ∉ letters format → ∀ n, fieldOr fs d n = n := by
              intro d hd n
              refine fieldOr_absent (fun hmem => hd ?_)
              rw [hdirs] at hmem
              rw [← hlet]
              exact List.mem_map.2 ⟨d, hmem, rfl⟩
            refine ⟨hv, hs2, ?_, ?_⟩
            · have key : ∀ d n, tfield t d = fieldOr fs d n → (if tletter d ∈ letters format then tfield t d else n) = tfield t d := by
                intro d n hd
                by_cases hl : tletter d ∈ letters format
                · rw [if_pos hl]
                · rw [if_neg hl, hd, hab d hl]
              have k1 := key .year 1900 (by rw [ht]; rfl)
              have k2 := key .month 1 (by rw [ht]; rfl)
              have k3 := key .day 1 (by rw [ht]; rfl)
              have k4 := key .hour 0 (by rw [ht]; rfl)
              have k5 := key .minute 0 (by rw [ht]; rfl)
              have k6 := key .second 0 (by rw [ht]; rfl)
              have k7 := key .micro 0 (by rw [ht]; rfl)
              have e : ∀ u v : DateTime, u.year = v.year → u.month = v.month → u.day = v.day → u.hour = v.hour →
                  u.minute = v.minute → u.second = v.second → u.micro = v.micro → u = v := by
                intro u v; cases u; cases v; intros; simp_all
              exact e _ _ k1 k2 k3 k4 k5 k6 k7
            · rw [← hlet]
              exact hnd.map (fun _ _ => tletter_inj)
          · cases h
      · rw [if_neg hnd] at h; cases h

/-- **C87, which texts are accepted.** For a format that makes clear where numbers end and uses no directive twice,
`strptime` returns a date exactly if the text is an instance of the format with the numbers of that date, and the
fields that are not mentioned are at their defaults. In particular everything that can be read is read. -/
theorem C87_exact {s format : Str} (hs : Separated format) (hn : (letters format).Nodup) (t : DateTime) :
    DateTime.strptime s format = some (.ok t) ↔ ValidTime t ∧ Says t format s ∧ mentioned format t = t := by
  constructor
  · intro h
    obtain ⟨h1, h2, h3, _⟩ := C87_accepts h
    exact ⟨h1, h2, h3⟩
  · rintro ⟨h1, h2, h3⟩
    obtain ⟨⟨ps, k1, k2, k3⟩, -⟩ := match_says h1 h2 hs
    have := (strptime_of_match k1 k2 k3 hn).1 (by rw [h3]; exact h1)
    rw [h3] at this
    exact this

/-- The hypotheses are met by a format with literals, white space and a percent sign. -/
example : Separated (py! "on %d.%m.%Y %Hh%%") ∧ (letters (py! "on %d.%m.%Y %Hh%%")).Nodup ∧
    Says ⟨2024, 3, 7, 9, 0, 0, 0⟩ (py! "on %d.%m.%Y %Hh%%") (py! "ON  7.3.2024   9H%") := by
  refine ⟨?_, by decide, ?_⟩
  · exact .char (by decide) (.char (by decide) (.char (by decide) (.dir (by decide)
      (.inr (.inr (.inr ⟨_, _, rfl, by decide, by decide⟩))) (.char (by decide) (.dir (by decide)
      (.inr (.inr (.inr ⟨_, _, rfl, by decide, by decide⟩))) (.char (by decide) (.dir (by decide) (.inl rfl) (.char (by decide)
      (.dir (by decide) (.inr (.inr (.inr ⟨_, _, rfl, by decide, by decide⟩))) (.char (by decide) (.percent .done)))))))))))
  · have hw : ∀ c, isSpaceChar c = false → ¬ White c := fun c h hw => by rw [(isSpaceChar_iff c).2 hw] at h; cases h
    have hb : ∀ n, ∀ c ∈ List.replicate n ' ', White c := fun n c hc => by
      rw [List.eq_of_mem_replicate hc]; exact (isSpaceChar_iff ' ').1 (by decide)
    exact .char (.char (.white (u := [' ']) (v := [' ']) (.blankDay (a := ['7']) (.char (.month (a := ['3']) (.char (.year (a := py! "2024")
      (.white (u := [' ']) (v := [' ', ' ', ' ']) (.hour (a := ['9']) (.char (.percent .done)
        (.inr (.inl ⟨by decide, by decide⟩)) (by decide) (hw _ (by decide)))
        (by unfold DigitText; decide) (by decide)) (hb 1) (by decide) (hb 3) (by decide))
      (by unfold DigitText; decide) (by decide)) (.inl rfl) (by decide) (hw _ (by decide))) (by unfold DigitText; decide) (by decide))
      (.inl rfl) (by decide) (hw _ (by decide))) (by unfold DigitText; decide) (by decide)) (hb 1) (by decide) (hb 1) (by decide))
      (.inr (.inl ⟨by decide, by decide⟩)) (by decide) (hw _ (by decide))) (.inr (.inl ⟨by decide, by decide⟩)) (by decide) (hw _ (by decide))

/-- Where numbers are not separated, the first reading counts: `131` as `%m%d` is 31 January (there is no month 13),
and `111` is 1 November, so a text that says 11 January is read otherwise; `325` as `%d%H`
(day 32, or day 3 and hour 25, or day 3, hour 2 and a 5 too many) is refused. -/
example : DateTime.strptime (py! "131") (py! "%m%d") = some (.ok ⟨1900, 1, 31, 0, 0, 0, 0⟩) ∧
    DateTime.strptime (py! "111") (py! "%m%d") = some (.ok ⟨1900, 11, 1, 0, 0, 0, 0⟩) ∧
    DateTime.strptime (py! "325") (py! "%d%H") = some (.error .valueError) := ⟨by decide +kernel, by decide +kernel, by decide +kernel⟩

/-- Leading zeros may be missing, letters may change case, a blank may be several. -/
example : DateTime.strptime (py! "ON 7.3.2024   9H") (py! "on %d.%m.%Y %Hh") = some (.ok ⟨2024, 3, 7, 9, 0, 0, 0⟩) ∧
    DateTime.strptime (py! "2024-02-30") (py! "%Y-%m-%d") = some (.error .valueError) ∧
    DateTime.strptime (py! "2024-02-03x") (py! "%Y-%m-%d") = some (.error .valueError) ∧
    DateTime.strptime (py! "23:59:60") (py! "%H:%M:%S") = some (.error .valueError) ∧
    DateTime.strptime (py! "0000-01-01") (py! "%Y-%m-%d") = some (.error .valueError) :=
  ⟨by decide +kernel, by decide +kernel, by decide +kernel, by decide +kernel, by decide +kernel⟩

/-- **C87, rejected texts.** A rejected call raises `ValueError`, except that a format naming a
directive twice raises the regular-expression error; and that one raises it for every text. -/
theorem C87_errors {s format : Str} {e : PyErr} (h : DateTime.strptime s format = some (.error e)) :
    e = .valueError ∨ (e = .exception ∧ ¬ (letters format).Nodup) := by
  unfold DateTime.strptime at h
  cases hc : compileFmt false format with
  | none => rw [hc] at h; cases h
  | some x =>
    rw [hc] at h
    cases x with
    | error e' =>
      simp only [Option.map_some, bind, Except.bind, Option.some.injEq, Except.error.injEq] at h
      subst h
      left
      have key : ∀ n, ∀ f : Str, f.length = n → ∀ b e, compileFmt b f = some (.error e) → e = .valueError := by
        intro n
        induction n using Nat.strong_induction_on with
        | _ n ih =>
          intro f hn b e hf
          subst hn
          have hmap : ∀ {o : Option (Except PyErr (List TPiece))} {g : List TPiece → List TPiece},
              o.map (·.map g) = some (.error e) → o = some (.error e) := by
            intro o g hh
            cases o with
            | none => cases hh
            | some x => cases x with
              | error x => simpa [Except.map] using hh
              | ok x => simp [Except.map] at hh
          rcases fmt_cases f with rfl | ⟨d, r, rfl⟩ | ⟨r, rfl⟩ | ⟨r, rfl, hb⟩ | ⟨c, r, rfl, hc, hs⟩ | ⟨c, r, rfl, hc, hs⟩
          · simp [compileFmt] at hf
          · rw [compile_dir] at hf
            exact ih r.length (by simp) r rfl _ _ (hmap hf)
          · rw [compile_percent] at hf
            exact ih r.length (by simp) r rfl _ _ (hmap hf)
          · rcases hb with rfl | ⟨c, r', rfl, h1, h2⟩
            · simp only [compileFmt, Option.some.injEq, Except.error.injEq] at hf; exact hf.symm
            · rw [compileFmt, if_pos rfl, if_neg h1, h2] at hf
              dsimp only at hf
              split at hf
              · cases hf
              · simp only [Option.some.injEq, Except.error.injEq] at hf; exact hf.symm
          · cases b
            · rw [compile_space_false r hs] at hf
              exact ih r.length (by simp) r rfl _ _ (hmap hf)
            · rw [compile_space_true r hs] at hf
              exact ih r.length (by simp) r rfl _ _ hf
          · rw [compile_char b r hc hs] at hf
            exact ih r.length (by simp) r rfl _ _ (hmap hf)
      exact key _ format rfl false _ hc
    | ok ps =>
      simp only [Option.map_some, bind, Except.bind, Option.some.injEq] at h
      have hlet := compile_letters format _ _ hc
      by_cases hnd : (tdirs ps).Nodup
      · rw [if_pos hnd] at h
        left
        split at h
        · simp only [Except.error.injEq] at h; exact h.symm
        · split at h
          · unfold DateTime.make at h
            split at h
            · dsimp only at h
              split at h
              · cases h
              · simp only [Except.error.injEq] at h; exact h.symm
            · simp only [Except.error.injEq] at h; exact h.symm
          · simp only [Except.error.injEq] at h; exact h.symm
      · rw [if_neg hnd] at h
        simp only [Except.error.injEq] at h
        exact Or.inr ⟨h.symm, fun hn => hnd (by rw [← hlet] at hn; exact hn.of_map _)⟩

example : DateTime.strptime (py! "5 5") (py! "%d %d") = some (.error .exception) := by decide +kernel

/-! ### `str` and back -/

/-- The format of dates without microseconds. -/
def plainFormat : Str := py! "%Y-%m-%d %H:%M:%S"
/-- The format of dates with microseconds. -/
def microFormat : Str := py! "%Y-%m-%d %H:%M:%S.%f"

theorem says_dot {t : DateTime} {f s : Str} (h : Says t f s) : '.' ∈ f ↔ '.' ∈ s := by
  have nd : ∀ {a : Str} {l k : ℕ}, DigitText l k a → '.' ∉ a := fun h hm => absurd (h.2.2 _ hm) (by decide)
  have nw : ∀ {a : Str}, (∀ c ∈ a, White c) → '.' ∉ a := fun h hm => by
    have := (isSpaceChar_iff '.').2 (h _ hm); exact absurd this (by decide)
  induction h with
  | done => simp
  | char _ hl hc hw ih =>
    rename_i a c _
    have : '.' = c ↔ '.' = a := by
      rcases hl with rfl | ⟨⟨h1, h2⟩, h3⟩ | ⟨⟨h1, h2⟩, h3⟩
      · rfl
      · have h1' : 65 ≤ a.toNat := h1
        constructor
        · rintro rfl
          have : ('.' : Char).toNat = 46 := rfl
          omega
        · rintro rfl; exact absurd h1 (by decide)
      · have h1' : 65 ≤ c.toNat := h1
        constructor
        · rintro rfl; exact absurd h1 (by decide)
        · rintro rfl
          have : ('.' : Char).toNat = 46 := rfl
          omega
    simp only [List.mem_cons, this, ih]
  | white _ h1 _ h2 _ ih => simp only [List.mem_append, ih, nw h1, nw h2, false_or]
  | percent _ ih => simpa using ih
  | year _ hd _ ih | month _ hd _ ih | day _ hd _ ih | blankDay _ hd _ ih | hour _ hd _ ih | minute _ hd _ ih
  | second _ hd _ ih | micro _ hd _ ih =>
    have := nd hd
    simp [ih, this]

/-- **C87, `str` and back.** `strptime(str(t), '%Y-%m-%d %H:%M:%S')` is `t` for a date without
microseconds and `strptime(str(t), '%Y-%m-%d %H:%M:%S.%f')` is `t` for a date with microseconds; each
of the two formats raises `ValueError` on the other kind of date. -/
theorem C87_str {t : DateTime} (ht : ValidTime t) :
    (t.micro = 0 → DateTime.strptime t.text plainFormat = some (.ok t) ∧
      DateTime.strptime t.text microFormat = some (.error .valueError)) ∧
    (t.micro ≠ 0 → DateTime.strptime t.text microFormat = some (.ok t) ∧
      DateTime.strptime t.text plainFormat = some (.error .valueError)) := by
  have hv := (validTime_iff t).1 ht
  have nd : ∀ w n, '.' ∉ fixedDigits w n := fun w n hm => absurd (fixedDigits_digit w n _ hm) (by decide)
  have lp : letters plainFormat = py! "YmdHMS" := by decide +kernel
  have lm : letters microFormat = py! "YmdHMSf" := by decide +kernel
  have err : ∀ f, f = plainFormat ∨ f = microFormat → (∀ u, DateTime.strptime t.text f ≠ some (.ok u)) →
      DateTime.strptime t.text f = some (.error .valueError) := by
    intro f hf hno
    have hc : ∃ ps, compileFmt false f = some (.ok ps) := by
      rcases hf with rfl | rfl
      · exact ⟨[.dir .year, .lit '-', .dir .month, .lit '-', .dir .day, .ws, .dir .hour, .lit ':', .dir .minute, .lit ':',
          .dir .second], by decide +kernel⟩
      · exact ⟨[.dir .year, .lit '-', .dir .month, .lit '-', .dir .day, .ws, .dir .hour, .lit ':', .dir .minute, .lit ':',
          .dir .second, .lit '.', .dir .micro], by decide +kernel⟩
    have hl : (letters f).Nodup := by
      rcases hf with rfl | rfl
      · rw [lp]; decide
      · rw [lm]; decide
    cases hs : DateTime.strptime t.text f with
    | none =>
      obtain ⟨ps, hc⟩ := hc
      unfold DateTime.strptime at hs
      rw [hc] at hs
      cases hs
    | some e =>
      cases e with
      | ok u => exact absurd hs (hno u)
      | error e =>
        rcases C87_errors hs with rfl | ⟨_, h⟩
        · rfl
        · exact absurd hl h
  constructor
  · intro h0
    have htext := text_eq ht
    rw [if_pos h0] at htext
    constructor
    · have hw : write t plainFormat = some t.text := by
        rw [htext]
        simp [plainFormat, write]
      have hm : mentioned plainFormat t = t := by
        unfold mentioned
        rw [lp]
        obtain ⟨y, mo, d, h, mi, s, us⟩ := t
        simp only at h0
        subst h0
        rfl
      have := (C87_roundtrip ht plainFormat _ hw (by rw [lp]; decide)).1 (by rw [hm]; exact ht)
      rw [hm] at this
      exact this
    · refine err _ (Or.inr rfl) (fun u hu => ?_)
      have hsays := (C87_accepts hu).2.1
      have : '.' ∈ t.text := (says_dot hsays).1 (by decide +kernel)
      rw [htext] at this
      simp [nd] at this
  · intro h0
    have htext := text_eq ht
    rw [if_neg h0] at htext
    constructor
    · have hw : write t microFormat = some t.text := by
        rw [htext]
        simp [microFormat, write]
      have hm : mentioned microFormat t = t := by
        unfold mentioned
        rw [lm]
        rfl
      have := (C87_roundtrip ht microFormat _ hw (by rw [lm]; decide)).1 (by rw [hm]; exact ht)
      rw [hm] at this
      exact this
    · refine err _ (Or.inl rfl) (fun u hu => ?_)
      have hsays := (C87_accepts hu).2.1
      have : '.' ∈ plainFormat := (says_dot hsays).2 (by rw [htext]; simp)
      exact absurd this (by decide +kernel)

/-! ### Timedeltas -/

theorem intToStr_no_blank (i : ℤ) : ' ' ∉ intToStr i ∧ ',' ∉ intToStr i := by
  have nd : ∀ n, ' ' ∉ natToStr n ∧ ',' ∉ natToStr n := fun n =>
    ⟨fun h => absurd (natToStr_all_digits n _ h) (by decide), fun h => absurd (natToStr_all_digits n _ h) (by decide)⟩
  cases i with
  | ofNat n => exact nd n
  | negSucc n =>
    simp only [intToStr, List.mem_cons]
    exact ⟨fun h => h.elim (by decide) (nd _).1, fun h => h.elim (by decide) (nd _).2⟩

theorem intToStr_inj {i j : ℤ} (h : intToStr i = intToStr j) : i = j := by
  have nm : ∀ n, '-' ∉ natToStr n := fun n h => absurd (natToStr_all_digits n _ h) (by decide)
  cases i with
  | ofNat n =>
    cases j with
    | ofNat m => simp only [intToStr] at h; rw [natToStr_injective h]
    | negSucc m => simp only [intToStr] at h; exact absurd (by rw [h]; simp) (nm n)
  | negSucc n =>
    cases j with
    | ofNat m => simp only [intToStr] at h; exact absurd (by rw [← h]; simp) (nm m)
    | negSucc m =>
      simp only [intToStr, List.cons.injEq, true_and] at h
      have := natToStr_injective h
      simp only [Int.negSucc.injEq]
      omega

theorem cut_inj {c : Char} {a b x y : Str} (ha : c ∉ a) (hb : c ∉ b) (h : a ++ c :: x = b ++ c :: y) : a = b ∧ x = y := by
  induction a generalizing b with
  | nil =>
    cases b with
    | nil => simpa using h
    | cons d b =>
      simp only [List.nil_append, List.cons_append, List.cons.injEq] at h
      exact absurd (by rw [h.1]; simp) hb
  | cons d a ih =>
    cases b with
    | nil =>
      simp only [List.nil_append, List.cons_append, List.cons.injEq] at h
      exact absurd (by rw [h.1]; simp) ha
    | cons e b =>
      simp only [List.cons_append, List.cons.injEq] at h
      obtain ⟨h1, h2⟩ := ih (fun hh => ha (List.mem_cons_of_mem _ hh)) (fun hh => hb (List.mem_cons_of_mem _ hh)) h.2
      exact ⟨by rw [h.1, h1], h2⟩

/-- **C87, timedeltas.** `str` of a timedelta writes its whole days (nothing when there are none), and
the hours, minutes and seconds of the remaining part of a day; so two timedeltas have the same text
exactly when they are equally long. -/
theorem C87_delta {a : TimeDelta} (ha : IsTd a) :
    (∃ h m s : ℕ, h < 24 ∧ m < 60 ∧ s < 60 ∧ total a = a.days * 86400 + h * 3600 + m * 60 + s ∧
      a.text = (if a.days = 0 then [] else intToStr a.days ++ (if a.days = 1 ∨ a.days = -1 then py! " day, " else py! " days, "))
        ++ natToStr h ++ ':' :: fixedDigits 2 m ++ ':' :: fixedDigits 2 s) ∧
    ∀ {b : TimeDelta}, IsTd b → (a.text = b.text ↔ total a = total b) := by
  have form : ∀ {a : TimeDelta}, IsTd a → ∃ h m s : ℕ, h < 24 ∧ m < 60 ∧ s < 60 ∧
      total a = a.days * 86400 + h * 3600 + m * 60 + s ∧
      a.text = (if a.days = 0 then [] else intToStr a.days ++ (if a.days = 1 ∨ a.days = -1 then py! " day, " else py! " days, "))
        ++ natToStr h ++ ':' :: fixedDigits 2 m ++ ':' :: fixedDigits 2 s := by
    intro a ha
    obtain ⟨_, _, h2, h3⟩ := ha.norm
    refine ⟨a.seconds.toNat / 3600, a.seconds.toNat % 3600 / 60, a.seconds.toNat % 60, by omega, by omega, by omega, ?_, ?_⟩
    · unfold total
      omega
    · unfold TimeDelta.text
      rw [padNat_eq (by omega) (by omega), padNat_eq (by omega) (by omega)]
      congr 3
      by_cases h0 : a.days = 0
      · rw [if_pos h0, if_pos h0]
      · rw [if_neg h0, if_neg h0]
        split
        · simp
        · simp
  refine ⟨form ha, fun {b} hb => ⟨fun ht => ?_, fun ht => ?_⟩⟩
  · obtain ⟨h, m, s, h1, h2, h3, h4, h5⟩ := form ha
    obtain ⟨h', m', s', h1', h2', h3', h4', h5'⟩ := form hb
    rw [h5, h5'] at ht
    have l2 : ∀ n k : ℕ, (':' :: fixedDigits 2 n).length = (':' :: fixedDigits 2 k).length := by
      intro n k; simp [fixedDigits_length]
    obtain ⟨ht, es⟩ := List.append_inj' ht (l2 _ _)
    obtain ⟨ht, em⟩ := List.append_inj' ht (l2 _ _)
    have fx : ∀ n k : ℕ, n < 60 → k < 60 → ':' :: fixedDigits 2 n = ':' :: fixedDigits 2 k → n = k := by
      intro n k hn hk e
      simp only [fixedDigits, List.nil_append, List.cons_append, List.cons.injEq, and_true, true_and] at e
      have e1 := (digitChar_eq (Nat.mod_lt _ (by omega)) (Nat.mod_lt _ (by omega))).1 e.1
      have e2 := (digitChar_eq (Nat.mod_lt _ (by omega)) (Nat.mod_lt _ (by omega))).1 e.2
      omega
    have em := fx _ _ h2 h2' em
    have es := fx _ _ h3 h3' es
    have nb : ∀ n, ' ' ∉ natToStr n := fun n h => absurd (natToStr_all_digits n _ h) (by decide)
    have key : a.days = b.days ∧ h = h' := by
      have blank : ∀ i : ℤ, ' ' ∈ intToStr i ++ (if i = 1 ∨ i = -1 then py! " day, " else py! " days, ") := by
        intro i; rw [List.mem_append]; right; split <;> decide
      by_cases ha0 : a.days = 0 <;> by_cases hb0 : b.days = 0
      · rw [if_pos ha0, if_pos hb0] at ht
        exact ⟨by rw [ha0, hb0], natToStr_injective (by simpa using ht)⟩
      · rw [if_pos ha0, if_neg hb0] at ht
        exact absurd (by rw [List.nil_append] at ht; rw [ht]; exact List.mem_append_left _ (blank _)) (nb h)
      · rw [if_neg ha0, if_pos hb0] at ht
        exact absurd (by rw [List.nil_append] at ht; rw [← ht]; exact List.mem_append_left _ (blank _)) (nb h')
      · rw [if_neg ha0, if_neg hb0] at ht
        have cutf : ∀ i : ℤ, ∀ n, (intToStr i ++ (if i = 1 ∨ i = -1 then py! " day, " else py! " days, ")) ++ natToStr n =
            intToStr i ++ ' ' :: ((if i = 1 ∨ i = -1 then py! "day, " else py! "days, ") ++ natToStr n) := by
          intro i n; split <;> simp
        rw [cutf, cutf] at ht
        obtain ⟨e1, e2⟩ := cut_inj (intToStr_no_blank _).1 (intToStr_no_blank _).1 ht
        have e1 := intToStr_inj e1
        rw [e1] at e2
        exact ⟨e1, natToStr_injective (List.append_cancel_left e2)⟩
    rw [h4, h4', key.1, key.2, em, es]
  · obtain ⟨_, _, a2, a3⟩ := ha.norm
    obtain ⟨_, _, b2, b3⟩ := hb.norm
    unfold total at ht
    have e1 : a.days = b.days := by omega
    have e2 : a.seconds = b.seconds := by omega
    unfold TimeDelta.text
    rw [e1, e2]

example : ∃ a b, TimeDelta.make 0 0 0 0 (-1) = .ok a ∧ TimeDelta.make 1 3 25 0 61 = .ok b ∧
    a.text = py! "-1 day, 23:59:59" ∧ b.text = py! "11 days, 1:01:01" :=
  ⟨_, _, rfl, rfl, by decide +kernel, by decide +kernel⟩

/-- Beyond C87 as stated: the texts of timedeltas are not in order of length (ten days come before
nine). -/
theorem C87_refuted_delta_order : ∃ a b, TimeDelta.make 0 9 0 0 0 = .ok a ∧ TimeDelta.make 0 10 0 0 0 = .ok b ∧
    total a < total b ∧ b.text < a.text :=
  ⟨_, _, rfl, rfl, by decide, by decide +kernel⟩

end Verif
