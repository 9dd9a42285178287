import Verif.Proofs.Time
/-!
# C46, C47: timedelta and datetime arithmetic (stdlib/bridge/time.py)
-/
namespace Verif
open Spec

/-! ### C46 timedelta -/

/-- The timedeltas a contract can hold: results of the constructor, which every operation calls. -/
def IsTd (d : TimeDelta) : Prop := ∃ w dd h m s, TimeDelta.make w dd h m s = .ok d

/-- **C46, construction.** `timedelta(weeks, days, hours, minutes, seconds)` raises exactly when the
total is out of range; otherwise it holds exactly that many seconds, in normal form. -/
theorem C46_make (w dd h m s : ℤ) :
    let n := w * 604800 + dd * 86400 + h * 3600 + m * 60 + s
    (¬ inRange n → ∃ e, TimeDelta.make w dd h m s = .error e) ∧
    (inRange n → ∃ d, TimeDelta.make w dd h m s = .ok d ∧ total d = n ∧ d.getSeconds = n ∧
      0 ≤ d.seconds ∧ d.seconds < 86400) := by
  intro n
  have e1 : (s + m * 60 + h * 3600).fdiv 86400 = (s + m * 60 + h * 3600) / 86400 :=
    Int.fdiv_eq_ediv_of_nonneg _ (by norm_num)
  have e2 : (s + m * 60 + h * 3600).fmod 86400 = (s + m * 60 + h * 3600) % 86400 :=
    Int.fmod_eq_emod_of_nonneg _ (by norm_num)
  unfold TimeDelta.make
  simp only [e1, e2]
  constructor
  · intro hr
    rw [if_pos]
    · exact ⟨_, rfl⟩
    · unfold inRange maxDays at hr; omega
  · intro hr
    rw [if_neg]
    · refine ⟨_, rfl, ?_, ?_, ?_⟩
      · simp only [total]; omega
      · simp only [TimeDelta.getSeconds, TimeDelta.rawSeconds]; omega
      · simp only; omega
    · unfold inRange maxDays at hr; omega

example : ∃ d, TimeDelta.make (-1) 1 25 (-90) 7 = .ok d ∧ total d = -433793 := ⟨_, rfl, by decide⟩

theorem IsTd.norm {d : TimeDelta} (h : IsTd d) :
    inRange (total d) ∧ d.raw = total d ∧ 0 ≤ d.seconds ∧ d.seconds < 86400 := by
  obtain ⟨w, dd, hh, m, s, h⟩ := h
  obtain ⟨h1, h2⟩ := C46_make w dd hh m s
  by_cases hr : inRange (w * 604800 + dd * 86400 + hh * 3600 + m * 60 + s)
  · obtain ⟨d', g1, g2, g3, g4⟩ := h2 hr
    rw [h] at g1; cases g1
    rw [g2]
    exact ⟨hr, g3, g4⟩
  · obtain ⟨e, g⟩ := h1 hr
    rw [h] at g; cases g

/-- Raises exactly when the true total is out of range, and otherwise has that total. -/
def HasTotal (r : Except PyErr TimeDelta) (n : ℤ) : Prop :=
  (inRange n ∧ ∃ d, r = .ok d ∧ total d = n ∧ IsTd d) ∨ (¬ inRange n ∧ ∃ e, r = .error e)

theorem make_hasTotal (dd s n : ℤ) (h : n = dd * 86400 + s) : HasTotal (TimeDelta.make 0 dd 0 0 s) n := by
  obtain ⟨h1, h2⟩ := C46_make 0 dd 0 0 s
  have hn : (0 : ℤ) * 604800 + dd * 86400 + 0 * 3600 + 0 * 60 + s = n := by omega
  rw [hn] at h1 h2
  by_cases hr : inRange n
  · obtain ⟨d, g1, g2, _⟩ := h2 hr
    exact Or.inl ⟨hr, d, g1, g2, _, _, _, _, _, g1⟩
  · exact Or.inr ⟨hr, h1 hr⟩

/-- **C46, arithmetic.** `+`, `-` and `*` by an int are addition, subtraction and multiplication of
total seconds. -/
theorem C46_arith (a b : TimeDelta) (k : ℤ) :
    HasTotal (TimeDelta.add a b) (total a + total b) ∧
    HasTotal (TimeDelta.sub a b) (total a - total b) ∧
    HasTotal (TimeDelta.mulInt a k) (total a * k) := by
  refine ⟨make_hasTotal _ _ _ ?_, make_hasTotal _ _ _ ?_, make_hasTotal _ _ _ ?_⟩ <;>
    simp only [total] <;> ring

/-- **C46, comparison and readers.** -/
theorem C46_read {a b : TimeDelta} (ha : IsTd a) (hb : IsTd b) :
    (TimeDelta.lt a b = true ↔ total a < total b) ∧ (TimeDelta.eq a b = true ↔ total a = total b) ∧
    a.getSeconds = total a ∧ a.getMinutes = total a / 60 ∧ a.getHours = total a / 3600 ∧
    a.getDays = total a / 86400 ∧ a.getWeeks = total a / 604800 := by
  obtain ⟨_, a1, a2, a3⟩ := ha.norm
  obtain ⟨_, b1, b2, b3⟩ := hb.norm
  have f (x : ℤ) {y : ℤ} (hy : 0 ≤ y) : x.fdiv y = x / y := Int.fdiv_eq_ediv_of_nonneg x hy
  simp only [TimeDelta.lt, TimeDelta.eq, TimeDelta.getSeconds, TimeDelta.getMinutes, TimeDelta.getHours,
    TimeDelta.getDays, TimeDelta.getWeeks, a1, f _ (show (0:ℤ) ≤ 60 by norm_num), f _ (show (0:ℤ) ≤ 3600 by norm_num),
    f _ (show (0:ℤ) ≤ 86400 by norm_num), f _ (show (0:ℤ) ≤ 604800 by norm_num), and_self, and_true,
    Bool.or_eq_true, Bool.and_eq_true, decide_eq_true_eq]
  simp only [total] at *
  constructor <;> omega

/-- Beyond C46 as stated: the product of two timedeltas is accepted and is not their product in any
unit: `timedelta(days=1) * timedelta(hours=12)` is zero. -/
theorem C46_td_product_meaningless : ∃ a b c : TimeDelta, TimeDelta.make 0 1 0 0 0 = .ok a ∧
    TimeDelta.make 0 0 12 0 0 = .ok b ∧ TimeDelta.mulTd a b = .ok c ∧ total c = 0 :=
  ⟨_, _, _, rfl, rfl, rfl, by decide⟩

/-! ### C47 datetime -/

/-- **C47, construction.** `datetime(...)` succeeds exactly on real calendar instants of years
1..9999, keeping the fields. -/
theorem C47_make (t : DateTime) :
    DateTime.make t.year t.month t.day t.hour t.minute t.second t.micro = .ok t ↔ ValidTime t := by
  rw [validTime_iff]
  unfold DateTime.make
  simp

theorem valid_seconds {t : DateTime} (h : ValidTime t) :
    seconds t = (t.ordinal : ℤ) * 86400 + t.secOfDay := by
  obtain ⟨h1, _, h3, h4, _⟩ := h
  unfold seconds DateTime.ordinal DateTime.secOfDay
  rw [dayNumber_eq _ h1 h3 h4]
  push_cast; ring

theorem secOfDay_lt {t : DateTime} (h : ValidTime t) : t.secOfDay < 86400 := by
  obtain ⟨_, _, _, _, _, _, h1, h2, h3, _⟩ := h
  unfold DateTime.secOfDay; omega

/-- 1 January of year 10000 is day `maxOrdinal + 1`. -/
theorem ordinal_year {y m d : ℕ} (hy : 1 ≤ y) : y ≤ 9999 ∨ maxOrdinal < ymd2ord y m d ∨ d = 0 := by
  by_cases h : y ≤ 9999
  · exact Or.inl h
  · have h1 := dby_mono (y := 10000) (z := y) (by omega) (by omega)
    have h2 : daysBeforeYear 10000 = 3652059 := by decide
    unfold maxOrdinal ymd2ord
    omega

theorem ordinal_le {t : DateTime} (h : ValidTime t) : 1 ≤ t.ordinal ∧ t.ordinal ≤ maxOrdinal := by
  have hv := (validTime_iff t).1 h
  obtain ⟨h1, h2, h3, h4, h5, h6, _⟩ := hv
  have a := dbm_lt_year t.year h3 h4 h6
  have b := dby_mono (y := t.year + 1) (z := 10000) (by omega) (by omega)
  rw [dby_succ h1] at b
  have h2 : daysBeforeYear 10000 = 3652059 := by decide
  unfold DateTime.ordinal maxOrdinal ymd2ord
  omega

theorem addRaw_spec {t : DateTime} (ht : ValidTime t) (dd s : ℤ) :
    (∃ r, DateTime.addRaw t dd s = .ok r ∧ ValidTime r ∧ seconds r = seconds t + (dd * 86400 + s) ∧ r.micro = t.micro) ∨
    ((seconds t + (dd * 86400 + s) < 86400 ∨ (maxOrdinal + 1 : ℤ) * 86400 ≤ seconds t + (dd * 86400 + s)) ∧
      ∃ e, DateTime.addRaw t dd s = .error e) := by
  have e1 (x : ℤ) : x.fdiv 86400 = x / 86400 := Int.fdiv_eq_ediv_of_nonneg _ (by norm_num)
  have e2 (x : ℤ) : x.fmod 86400 = x % 86400 := Int.fmod_eq_emod_of_nonneg _ (by norm_num)
  have hs := valid_seconds ht
  unfold DateTime.addRaw
  simp only [e1, e2]
  set ord : ℤ := (t.ordinal : ℤ) + dd + ((t.secOfDay : ℤ) + s) / 86400 with hord
  set rem : ℕ := (((t.secOfDay : ℤ) + s) % 86400).toNat with hrem
  have hremv : (rem : ℤ) = ((t.secOfDay : ℤ) + s) % 86400 := by omega
  have hreml : rem < 86400 := by omega
  have htot : seconds t + (dd * 86400 + s) = ord * 86400 + rem := by rw [hs]; omega
  by_cases hr : 0 < ord ∧ ord ≤ (maxOrdinal : ℤ)
  · left
    rw [if_pos hr]
    obtain ⟨s1, s2, s3, s4, s5, s6⟩ := ord2ymd_spec (n := ord.toNat) (by omega)
    refine ⟨_, rfl, ?_, ?_, rfl⟩
    · rw [validTime_iff]
      have hy : (ord2ymd ord.toNat).1 ≤ 9999 := by
        rcases ordinal_year (m := (ord2ymd ord.toNat).2.1) (d := (ord2ymd ord.toNat).2.2) s1 with h | h | h
        · exact h
        · rw [s6] at h; omega
        · omega
      have hm : t.micro ≤ 999999 := by obtain ⟨_, _, _, _, _, _, _, _, _, h⟩ := ht; omega
      refine ⟨s1, hy, s2, s3, s4, s5, ?_, ?_, ?_, hm⟩ <;> (simp only; omega)
    · rw [htot]
      unfold seconds
      simp only
      rw [dayNumber_eq _ s1 s2 s3, s6]
      push_cast
      have : ((rem / 3600 : ℕ) : ℤ) * 3600 + ((rem % 3600 / 60 : ℕ) : ℤ) * 60 + ((rem % 60 : ℕ) : ℤ) = rem := by omega
      have : ((ord.toNat : ℕ) : ℤ) = ord := by omega
      push_cast at *
      omega
  · right
    rw [if_neg hr]
    refine ⟨?_, _, rfl⟩
    rw [htot]; omega

/-- **C47, addition.** `datetime + timedelta` is the instant exactly that many seconds later (same
microseconds), and raises exactly when that instant is outside years 1..9999. -/
theorem C47_add {t : DateTime} (ht : ValidTime t) (d : TimeDelta) :
    (∃ r, DateTime.add t d = .ok r ∧ ValidTime r ∧ instant r = instant t + total d * 1000000) ∨
    ((∀ r, ValidTime r → instant r ≠ instant t + total d * 1000000) ∧ ∃ e, DateTime.add t d = .error e) := by
  unfold DateTime.add
  rcases addRaw_spec ht d.days d.seconds with ⟨r, h1, h2, h3, h4⟩ | ⟨h1, h2⟩
  · left
    refine ⟨r, h1, h2, ?_⟩
    unfold instant total
    rw [h3, h4]; ring
  · right
    refine ⟨?_, h2⟩
    intro r hr heq
    have a := ordinal_le hr
    have b := secOfDay_lt hr
    have c := valid_seconds hr
    have m1 : r.micro < 1000000 := by obtain ⟨_, _, _, _, _, _, _, _, _, h⟩ := hr; exact h
    have m2 : t.micro < 1000000 := by obtain ⟨_, _, _, _, _, _, _, _, _, h⟩ := ht; exact h
    unfold instant total at heq
    omega

/-- The 29th of February is reached from the 28th in a leap year. -/
example : DateTime.add ⟨2024, 2, 28, 23, 59, 59, 7⟩ ⟨0, 1, 1⟩ = .ok ⟨2024, 2, 29, 0, 0, 0, 7⟩ := by decide +kernel

/-- **C47, comparison.** `<` is chronological, and different instants have different fields. -/
theorem C47_order {a b : DateTime} (ha : ValidTime a) (hb : ValidTime b) :
    (DateTime.lt a b = true ↔ instant a < instant b) ∧ (a = b ↔ instant a = instant b) := by
  have key : ∀ {a b : DateTime}, ValidTime a → ValidTime b → DateTime.lt a b = true → instant a < instant b := by
    intro a b ha hb h
    have sa := valid_seconds ha
    have sb := valid_seconds hb
    have la := secOfDay_lt ha
    have lb := secOfDay_lt hb
    have va := (validTime_iff a).1 ha
    have vb := (validTime_iff b).1 hb
    obtain ⟨a1, a2, a3, a4, a5, a6, a7, a8, a9, a10⟩ := va
    obtain ⟨b1, b2, b3, b4, b5, b6, b7, b8, b9, b10⟩ := vb
    simp only [DateTime.lt, DateTime.fields, DateTime.lexLt, Bool.or_eq_true, Bool.and_eq_true, decide_eq_true_eq,
      beq_iff_eq, Bool.false_eq_true, or_false, and_false] at h
    by_cases hd : a.year < b.year ∨ (a.year = b.year ∧ (a.month < b.month ∨ (a.month = b.month ∧ a.day < b.day)))
    · have : a.ordinal < b.ordinal := ymd2ord_lt a1 a3 a4 a6 b3 b4 b5 hd
      unfold instant
      omega
    · have e1 : a.year = b.year := by omega
      have e2 : a.month = b.month := by omega
      have e3 : a.day = b.day := by omega
      have : a.ordinal = b.ordinal := by unfold DateTime.ordinal; rw [e1, e2, e3]
      unfold instant
      unfold DateTime.secOfDay at *
      omega
  have tri : DateTime.lt a b = true ∨ DateTime.lt b a = true ∨ a = b := by
    simp only [DateTime.lt, DateTime.fields, DateTime.lexLt, Bool.or_eq_true, Bool.and_eq_true, decide_eq_true_eq,
      beq_iff_eq, Bool.false_eq_true, or_false, and_false]
    have : (a.year = b.year ∧ a.month = b.month ∧ a.day = b.day ∧ a.hour = b.hour ∧ a.minute = b.minute ∧
        a.second = b.second ∧ a.micro = b.micro) → a = b := by
      rintro ⟨h1, h2, h3, h4, h5, h6, h7⟩
      cases a; cases b; simp only at *; subst_vars; rfl
    by_cases h : (a.year = b.year ∧ a.month = b.month ∧ a.day = b.day ∧ a.hour = b.hour ∧ a.minute = b.minute ∧
        a.second = b.second ∧ a.micro = b.micro)
    · exact Or.inr (Or.inr (this h))
    · omega
  constructor
  · refine ⟨key ha hb, fun h => ?_⟩
    rcases tri with h1 | h1 | rfl
    · exact h1
    · have := key hb ha h1; omega
    · omega
  · refine ⟨fun h => by rw [h], fun h => ?_⟩
    rcases tri with h1 | h1 | rfl
    · have := key ha hb h1; omega
    · have := key hb ha h1; omega
    · rfl

/-- **C47, difference.** `a - b` never raises, counts the whole seconds from `b` to `a` rounded down,
and `b + (a - b)` is `a` moved back by less than one second: exactly `a` when the microseconds agree.
The one exception: when `a` lies in the very first second of year 1 and has fewer microseconds than
`b`, there is no such instant and `b + (a - b)` raises (`C47_first_second`). -/
theorem C47_difference {a b : DateTime} (ha : ValidTime a) (hb : ValidTime b) :
    ∃ d, DateTime.sub a b = .ok d ∧ total d = (instant a - instant b) / 1000000 ∧
      (b.micro ≤ a.micro ∨ 86400 < seconds a →
       ∃ r, DateTime.add b d = .ok r ∧ ValidTime r ∧ instant r ≤ instant a ∧ instant a < instant r + 1000000 ∧
        (a.micro = b.micro → r = a)) := by
  have sa := valid_seconds ha
  have sb := valid_seconds hb
  have oa := ordinal_le ha
  have ob := ordinal_le hb
  have la := secOfDay_lt ha
  have lb := secOfDay_lt hb
  have m1 : a.micro < 1000000 := by obtain ⟨_, _, _, _, _, _, _, _, _, h⟩ := ha; exact h
  have m2 : b.micro < 1000000 := by obtain ⟨_, _, _, _, _, _, _, _, _, h⟩ := hb; exact h
  have e0 (x : ℤ) : x.fdiv 1000000 = x / 1000000 := Int.fdiv_eq_ediv_of_nonneg _ (by norm_num)
  have e1 (x : ℤ) : x.fdiv 86400 = x / 86400 := Int.fdiv_eq_ediv_of_nonneg _ (by norm_num)
  have e2 (x : ℤ) : x.fmod 86400 = x % 86400 := Int.fmod_eq_emod_of_nonneg _ (by norm_num)
  have hq : (instant a - instant b) / 1000000 = seconds a - seconds b + ((a.micro : ℤ) - b.micro) / 1000000 := by
    unfold instant; omega
  have hmake : ∃ d, DateTime.sub a b = .ok d ∧ total d = (instant a - instant b) / 1000000 := by
    rw [hq]
    unfold DateTime.sub
    simp only [e0, e1, e2]
    rcases make_hasTotal ((a.ordinal : ℤ) - b.ordinal + ((a.secOfDay : ℤ) - b.secOfDay + ((a.micro : ℤ) - b.micro) / 1000000) / 86400)
      (((a.secOfDay : ℤ) - b.secOfDay + ((a.micro : ℤ) - b.micro) / 1000000) % 86400)
      (seconds a - seconds b + ((a.micro : ℤ) - b.micro) / 1000000) (by omega) with ⟨_, d, h1, h2, _⟩ | ⟨h, _⟩
    · exact ⟨d, h1, h2⟩
    · exfalso; apply h; unfold inRange maxDays; unfold maxOrdinal at oa ob; omega
  obtain ⟨d, h1, h2⟩ := hmake
  refine ⟨d, h1, h2, fun hfirst => ?_⟩
  have hadd : ∃ r, DateTime.add b d = .ok r ∧ ValidTime r ∧ seconds r = seconds b + (d.days * 86400 + d.seconds) ∧
      r.micro = b.micro := by
    rcases addRaw_spec hb d.days d.seconds with h | ⟨hne, _⟩
    · exact h
    · exfalso
      unfold total at h2
      rw [h2] at hne
      rw [hq] at hne
      have hlow : 86400 ≤ seconds a := by rw [sa]; omega
      omega
  obtain ⟨r, h3, h4, h5, h6⟩ := hadd
  have h5' : seconds r = seconds b + total d := h5
  rw [h2, hq] at h5'
  refine ⟨r, h3, h4, ?_, ?_, ?_⟩
  · unfold instant; rw [h6]; omega
  · unfold instant; rw [h6]; omega
  · intro hm
    apply (C47_order h4 ha).2.2
    unfold instant; rw [h6, h5', hm]; omega

/-- The exception really occurs: `b + (a - b)` raises for `a` the first instant of the calendar. -/
theorem C47_first_second : ∃ a b d, a = (⟨1, 1, 1, 0, 0, 0, 0⟩ : DateTime) ∧ b = (⟨2024, 1, 1, 0, 0, 0, 1⟩ : DateTime) ∧
    a.Valid ∧ b.Valid ∧ DateTime.sub a b = .ok d ∧ DateTime.add b d = .error .overflow :=
  ⟨_, _, ⟨-738886, 86399, -63839664001⟩, rfl, rfl, by decide +kernel, by decide +kernel, by decide +kernel, by decide +kernel⟩

/-- `timedelta - datetime` is accepted and means `datetime - timedelta`: the instant moves back by
the timedelta (or raises outside the calendar). -/
theorem C47_delta_minus_datetime {t : DateTime} (ht : ValidTime t) (d : TimeDelta) {r : DateTime}
    (h : DateTime.tdSubDt d t = .ok r) : ValidTime r ∧ instant r = instant t - total d * 1000000 := by
  unfold DateTime.tdSubDt at h
  rcases addRaw_spec ht (-d.days) (-d.seconds) with ⟨r', h1, h2, h3, h4⟩ | ⟨_, e, h2⟩
  · rw [h] at h1; cases h1
    refine ⟨h2, ?_⟩
    unfold instant total
    rw [h3, h4]; ring
  · rw [h] at h2; cases h2

example : DateTime.tdSubDt ⟨1, 0, 86400⟩ ⟨2024, 3, 1, 0, 0, 0, 0⟩ = .ok ⟨2024, 2, 29, 0, 0, 0, 0⟩ := by decide +kernel

end Verif
