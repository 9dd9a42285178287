import Verif.Proofs.SciNot
import Verif.Model.Ledger
/-!
# Properties C01 – C06: contract decimals

`Dec.val` (the rational a decimal denotes), `Spec.fix` (the single visible rounding), `Agrees` and
`IsCD` are in `Verif/Spec/Decimal.lean`.
-/
namespace Verif
open Dec

/-! ## C01 -/

/-- C01 (+): the sum of two contract decimals is the exact sum, rounded once. -/
theorem C01_add {a b : Dec} (ha : IsCD a) (hb : IsCD b) :
    Agrees (cdAdd a b) (Spec.fix (a.val + b.val)) := by
  have : |a.val + b.val| < 10 ^ (100:ℤ) := by
    refine lt_of_le_of_lt (abs_add_le _ _) ?_
    have h1 := ha.abs_lt
    have h2 := hb.abs_lt
    have h3 : (10:ℚ) ^ (30:ℤ) + 10 ^ (30:ℤ) < 10 ^ (100:ℤ) := by norm_num
    linarith
  obtain ⟨r, h1, h2⟩ := add_spec this
  exact cdOp_agrees h1 h2

/-- C01 (-). -/
theorem C01_sub {a b : Dec} (ha : IsCD a) (hb : IsCD b) :
    Agrees (cdSub a b) (Spec.fix (a.val - b.val)) := by
  have : |a.val - b.val| < 10 ^ (100:ℤ) := by
    have hab := abs_sub a.val b.val
    have h1 := ha.abs_lt
    have h2 := hb.abs_lt
    have h3 : (10:ℚ) ^ (30:ℤ) + 10 ^ (30:ℤ) < 10 ^ (100:ℤ) := by norm_num
    linarith
  obtain ⟨r, h1, h2⟩ := sub_spec this
  exact cdOp_agrees h1 h2

/-- C01 (*). -/
theorem C01_mul {a b : Dec} (ha : IsCD a) (hb : IsCD b) :
    Agrees (cdMul a b) (Spec.fix (a.val * b.val)) := by
  have : |a.val * b.val| < 10 ^ (100:ℤ) := by
    rw [abs_mul]
    calc |a.val| * |b.val| ≤ 10 ^ (30:ℤ) * 10 ^ (30:ℤ) :=
          mul_le_mul ha.abs_lt.le hb.abs_lt.le (abs_nonneg _) (zp_pos _).le
      _ = 10 ^ (60:ℤ) := by rw [← zp_add]; norm_num
      _ < 10 ^ (100:ℤ) := zp_lt (by norm_num)
  obtain ⟨r, h1, h2⟩ := mul_spec this
  exact cdOp_agrees h1 h2

/-- C01 (/), nonzero divisor. -/
theorem C01_div {a b : Dec} (ha : IsCD a) (hb : IsCD b) (h0 : b.val ≠ 0) :
    Agrees (cdDiv a b) (Spec.fix (a.val / b.val)) := by
  have hb0 : b.coef ≠ 0 := fun h => h0 (val_zero h)
  have : |a.val / b.val| < 10 ^ (99:ℤ) := by
    rw [abs_div]
    have h1 := hb.abs_ge hb0
    calc |a.val| / |b.val| ≤ 10 ^ (30:ℤ) / 10 ^ (-30:ℤ) := by
          apply div_le_div₀ (zp_pos _).le ha.abs_lt.le (zp_pos _) h1
      _ = 10 ^ (60:ℤ) := by rw [← zp_sub]; norm_num
      _ < 10 ^ (99:ℤ) := zp_lt (by norm_num)
  obtain ⟨r, h1, h2⟩ := div_spec hb0 this
  exact cdOp_agrees h1 h2

/-- C01 (/), zero divisor: always an exception. -/
theorem C01_div_zero {a b : Dec} (h0 : b.val = 0) : ∃ e, cdDiv a b = .error e := by
  have hb0 := val_eq_zero.1 h0
  by_cases ha : a.coef = 0
  · exact ⟨_, cdOp_error (e := .invalidOperation) (by simp [Dec.div, hb0, ha])⟩
  · exact ⟨_, cdOp_error (e := .divisionByZero) (by simp [Dec.div, hb0, ha])⟩

/-- C01, mixed operands: an `int` operand is first turned into the decimal `Spec.fix i`
(bridge/decimal.py:53-58), then the same law applies. -/
theorem C01_int_operand (i : ℤ) : Agrees (cdOfInt i) (Spec.fix (i : ℚ)) := by
  have : (decOfInt i).val = i := by
    unfold decOfInt Dec.val
    by_cases h : i < 0
    · simp only [h, decide_true, if_true, zpow_zero, mul_one, neg_one_mul]
      rw [show (i.natAbs : ℚ) = ((i.natAbs : ℤ) : ℚ) from rfl, ← Int.cast_neg, show -(i.natAbs : ℤ) = i by omega]
    · simp only [h, decide_false, Bool.false_eq_true, if_false, zpow_zero, mul_one, one_mul]
      rw [show (i.natAbs : ℚ) = ((i.natAbs : ℤ) : ℚ) from rfl, show (i.natAbs : ℤ) = i by omega]
  unfold cdOfInt
  rw [← this]
  exact fixPrecision_agrees _

/-- The hypotheses are met, and rounding really happens: 1/3 = 0.333... (30 places). -/
example : IsCD ⟨false, 1, 0⟩ ∧ IsCD ⟨false, 3, 0⟩ ∧
    cdDiv ⟨false, 1, 0⟩ ⟨false, 3, 0⟩ = .ok ⟨false, 333333333333333333333333333333, -30⟩ := by
  refine ⟨⟨⟨false, 1, 0⟩, by decide +kernel⟩, ⟨⟨false, 3, 0⟩, by decide +kernel⟩, by decide +kernel⟩

/-- Negative results round down as well: -1/3. -/
example : cdDiv ⟨true, 1, 0⟩ ⟨false, 3, 0⟩ = .ok ⟨true, 333333333333333333333333333334, -30⟩ := by
  decide +kernel

/-! ## C02 -/

/-- C02: whatever string a decimal is built from, the result is a multiple of `10^-30` in
`(-10^30, 10^29]`. -/
theorem C02_range {s : Str} {d : Dec} (h : cdOfStr s = .ok d) :
    -10 ^ 30 < d.val ∧ d.val ≤ 10 ^ 29 ∧ ∃ n : ℤ, d.val = n / 10 ^ 30 := by
  unfold cdOfStr at h
  split at h
  · cases h
  · rename_i n _
    cases n with
    | fin x => exact IsCD.range ⟨x, h⟩
    | inf b =>
      cases b
      · have h : maxDecimal = d := by injection h
        subst h
        rw [maxDecimal_val]
        exact ⟨by norm_num, le_refl _, 10 ^ 59, by norm_num⟩
      · cases h
    | nan => cases h

/-- Every value produced by an arithmetic operator is again a contract decimal (so C01 iterates). -/
theorem C02_closed {op : Dec → Dec → Except PyErr Dec} {a b d : Dec} (h : cdOp op a b = .ok d) :
    IsCD d ∧ -10 ^ 30 < d.val ∧ d.val ≤ 10 ^ 29 ∧ ∃ n : ℤ, d.val = n / 10 ^ 30 :=
  ⟨cdOp_isCD h, (cdOp_isCD h).range⟩

/-- C02: the constructor rounds a well-formed number exactly once. -/
theorem C02_constructor (x : Dec) : Agrees (fixPrecision x) (Spec.fix x.val) := fixPrecision_agrees x

/-- C02: re-normalising keeps the number, and keeps the very same object when it is canonical. -/
theorem C02_renormalise {d : Dec} (h : IsCD d) :
    ∃ d', fixPrecision d = .ok d' ∧ d'.val = d.val ∧ (Canonical d → d' = d) := by
  obtain ⟨d', h1, h2, _, _, h5⟩ := fixPrecision_cd h
  exact ⟨d', h1, h2, h5⟩

/-- C02, representation: equal contract decimals are the same object, except that zero has a positive and a
negative form and the cap `10^29` has the forms `100000000000000000000000000000` and `1E+29`. -/
theorem C02_unique {a b : Dec} (ha : IsCD a) (hb : IsCD b) (hv : a.val = b.val) :
    a = b ∨
    (a = ⟨false, 0, 0⟩ ∧ b = ⟨true, 0, 0⟩) ∨ (a = ⟨true, 0, 0⟩ ∧ b = ⟨false, 0, 0⟩) ∨
    (a = ⟨false, 10 ^ 29, 0⟩ ∧ b = ⟨false, 1, 29⟩) ∨ (a = ⟨false, 1, 29⟩ ∧ b = ⟨false, 10 ^ 29, 0⟩) := by
  have hz : ∀ {d : Dec}, Canonical d → d.val = 0 → d = ⟨d.neg, 0, 0⟩ := by
    intro d hc h0
    have h1 : d.coef = 0 := val_eq_zero.1 h0
    have h2 := hc.2.1 h1
    cases d; simp only at h1 h2; subst h1 h2; rfl
  have hcap : ∀ {d : Dec}, Canonical d → d.val = 10 ^ 29 → d = ⟨false, 1, 29⟩ := fun hc h =>
    canonical_unique hc capCanonical_canonical (h.trans capCanonical_val.symm) (fun h0 => by rw [h] at h0; norm_num at h0)
  rcases ha.canon with rfl | ca
  · rcases hb.canon with rfl | cb
    · exact .inl rfl
    · exact .inr (.inr (.inr (.inl ⟨rfl, hcap cb (hv.symm.trans maxDecimal_val)⟩)))
  · rcases hb.canon with rfl | cb
    · exact .inr (.inr (.inr (.inr ⟨hcap ca (hv.trans maxDecimal_val), rfl⟩)))
    · by_cases h0 : a.val = 0
      · have e1 := hz ca h0
        have e2 := hz cb (hv.symm.trans h0)
        cases hna : a.neg <;> cases hnb : b.neg <;> rw [hna] at e1 <;> rw [hnb] at e2 <;> rw [e1, e2] <;> simp
      · exact .inl (canonical_unique ca cb hv (fun h => absurd h h0))

/-- C02's "unique representation" is false of the code: a number above the cap is represented
differently from the cap itself, and zero has two representations. -/
theorem C02_unique_refuted :
    (∃ a b, cdOfStr (py! "1E40") = .ok a ∧ cdOfStr (py! "1E29") = .ok b ∧ a.val = b.val ∧ a ≠ b) ∧
    (∃ a b, cdOfStr (py! "0") = .ok a ∧ cdOfStr (py! "-0") = .ok b ∧ a.val = b.val ∧ a ≠ b) := by
  refine ⟨⟨maxDecimal, capCanonical, by decide +kernel, by decide +kernel, ?_, by decide⟩,
    ⟨⟨false, 0, 0⟩, ⟨true, 0, 0⟩, by decide +kernel, by decide +kernel, ?_, by decide⟩⟩
  · rw [maxDecimal_val, capCanonical_val]
  · rw [val_zero rfl, val_zero rfl]

example : ∃ d, cdOfStr (py! "-123.4567") = .ok d ∧ IsCD d ∧ d.val ≠ 0 ∧ Canonical d :=
  ⟨⟨true, 1234567, -4⟩, by decide +kernel, ⟨⟨true, 1234567, -4⟩, by decide +kernel⟩,
    by rw [ne_eq, val_eq_zero]; decide, by unfold Canonical; decide⟩

/-! ## C03 -/

/-- C03: `decimal(str(x)) == x` for every contract decimal, whichever of Python's two notations is
used (`to_eng_string` for `str`/`repr` of contract decimals, scientific for stored values). -/
theorem C03_print_parse (eng : Bool) {d : Dec} (h : IsCD d) :
    ∃ d', cdOfStr (toStr eng d) = .ok d' ∧ cdEq d' d = true := by
  obtain ⟨d', h1, h2⟩ := cdOfStr_toStr eng h
  exact ⟨d', h1, (eqv_iff _ _).2 h2⟩

/-- C03, strong form: for canonical decimals (all but the uncanonical cap) the very same object
comes back, sign of zero included. -/
theorem C03_print_parse_exact (eng : Bool) {d : Dec} (h : IsCD d) (hc : Canonical d) :
    cdOfStr (toStr eng d) = .ok d := cdOfStr_toStr_canonical eng h hc

/-- Consequence used by stored strings and hashing: printing is injective on numbers. -/
theorem C03_print_injective (eng : Bool) {a b : Dec} (ha : IsCD a) (hb : IsCD b)
    (h : toStr eng a = toStr eng b) : cdEq a b = true := by
  obtain ⟨a', h1, h2⟩ := cdOfStr_toStr eng ha
  obtain ⟨b', h3, h4⟩ := cdOfStr_toStr eng hb
  rw [h, h3] at h1
  cases h1
  exact (eqv_iff _ _).2 (h2.symm.trans h4)

example : cdStr ⟨false, 1, -9⟩ = py! "1E-9" ∧ cdStr ⟨false, 1, -10⟩ = py! "100E-12" ∧
    cdStr ⟨true, 15, -2⟩ = py! "-0.15" ∧ cdStr ⟨false, 1, 29⟩ = py! "100E+27" := by decide +kernel

/-! ## C04 -/

/-- One transfer: when nothing raises and neither balance is capped, the sum is preserved. -/
theorem C04_transfer {a b x a' b' : Dec} (ha : IsCD a) (hb : IsCD b) (hx : IsCD x)
    (h1 : cdSub a x = .ok a') (h2 : cdAdd b x = .ok b')
    (hcapA : a.val - x.val ≤ 10 ^ 29) (hcapB : b.val + x.val ≤ 10 ^ 29) :
    a'.val + b'.val = a.val + b.val := by
  have exact_of : ∀ {r : Except PyErr Dec} {q : ℚ} {d : Dec}, Agrees r (Spec.fix q) → r = .ok d →
      q ≤ 10 ^ 29 → (∃ n : ℤ, q = n / 10 ^ 30) → d.val = q := by
    rintro r q d hag hr hle ⟨n, hn⟩
    have hfl : Spec.floor30 q = q := by rw [hn, floor30_mult]
    unfold Spec.fix at hag
    rw [if_neg (not_lt.2 hle), hfl] at hag
    split at hag
    · obtain ⟨d', hd', hv⟩ := hag
      rw [hr] at hd'; cases hd'; exact hv
    · obtain ⟨e, he⟩ := hag
      rw [hr] at he; cases he
  obtain ⟨_, _, na, hna⟩ := ha.range
  obtain ⟨_, _, nb, hnb⟩ := hb.range
  obtain ⟨_, _, nx, hnx⟩ := hx.range
  have e1 : a'.val = a.val - x.val :=
    exact_of (C01_sub ha hx) h1 hcapA ⟨na - nx, by rw [hna, hnx]; push_cast; ring⟩
  have e2 : b'.val = b.val + x.val :=
    exact_of (C01_add hb hx) h2 hcapB ⟨nb + nx, by rw [hnb, hnx]; push_cast; ring⟩
  rw [e1, e2]; ring

/-- Total of all balances. -/
def Ledger.total (l : Ledger) : ℚ := (l.map fun kv => kv.2.val).sum

/-- Balances are contract decimals, nonnegative, one per account, and the supply is at most the cap. -/
def Ledger.Sound (l : Ledger) : Prop :=
  Dict.WF l ∧ (∀ kv ∈ l, IsCD kv.2 ∧ 0 ≤ kv.2.val) ∧ l.total ≤ 10 ^ 29

theorem Ledger.total_set {l : Ledger} (hw : Dict.WF l) {k : Str} {v v' : Dec}
    (h : Dict.get? l k = some v) : Ledger.total (Dict.set l k v') = l.total - v.val + v'.val := by
  induction l with
  | nil => simp at h
  | cons p l ih =>
    obtain ⟨k0, v0⟩ := p
    simp only [Dict.WF, Dict.keys, List.map_cons, List.nodup_cons] at hw
    by_cases hk : k0 = k
    · simp [Dict.get?, hk] at h
      subst h
      simp [Dict.set, hk, Ledger.total]; ring
    · simp [Dict.get?, hk] at h
      have := ih hw.2 h
      simp only [Dict.set, hk, if_false, Ledger.total, List.map_cons, List.sum_cons] at this ⊢
      rw [this]; ring

theorem Ledger.total_set_new {l : Ledger} {k : Str} {v' : Dec}
    (h : Dict.get? l k = none) : Ledger.total (Dict.set l k v') = l.total + v'.val := by
  induction l with
  | nil => simp [Dict.set, Ledger.total]
  | cons p l ih =>
    obtain ⟨k0, v0⟩ := p
    by_cases hk : k0 = k
    · simp [Dict.get?, hk] at h
    · simp [Dict.get?, hk] at h
      have := ih h
      simp only [Dict.set, hk, if_false, Ledger.total, List.map_cons, List.sum_cons] at this ⊢
      rw [this]; ring

theorem Ledger.mem_set {l : Ledger} {k : Str} {v : Dec} {kv : Str × Dec} (h : kv ∈ Dict.set l k v) :
    kv.2 = v ∨ kv ∈ l := by
  induction l with
  | nil => simp [Dict.set] at h; left; rw [h]
  | cons p l ih =>
    obtain ⟨k0, v0⟩ := p
    simp only [Dict.set] at h
    split at h
    · rcases List.mem_cons.1 h with h | h
      · left; rw [h]
      · right; exact List.mem_cons_of_mem _ h
    · rcases List.mem_cons.1 h with h | h
      · right; rw [h]; simp
      · rcases ih h with h | h
        · exact Or.inl h
        · exact Or.inr (List.mem_cons_of_mem _ h)

theorem Ledger.le_total {l : Ledger} (hn : ∀ kv ∈ l, 0 ≤ kv.2.val) {k : Str} {v : Dec}
    (h : Dict.get? l k = some v) : v.val ≤ l.total := by
  have hm := Dict.mem_of_get? h
  unfold Ledger.total
  apply List.single_le_sum
  · intro x hx
    obtain ⟨kv, hkv, rfl⟩ := List.mem_map.1 hx
    exact hn kv hkv
  · exact List.mem_map.2 ⟨_, hm, rfl⟩

theorem exact_of_agrees {r : Except PyErr Dec} {q : ℚ} {d : Dec} (hag : Agrees r (Spec.fix q))
    (hr : r = .ok d) (hle : q ≤ 10 ^ 29) (hn : ∃ n : ℤ, q = n / 10 ^ 30) : d.val = q := by
  obtain ⟨n, hn⟩ := hn
  have hfl : Spec.floor30 q = q := by rw [hn, floor30_mult]
  unfold Spec.fix at hag
  rw [if_neg (not_lt.2 hle), hfl] at hag
  split at hag
  · obtain ⟨d', hd', hv⟩ := hag
    rw [hr] at hd'; cases hd'; exact hv
  · obtain ⟨e, he⟩ := hag
    rw [hr] at he; cases he

/-- One successful ledger transfer keeps the ledger sound and its total unchanged. -/
theorem C04_ledger_step {l l' : Ledger} {s t : Str} {x : Dec} (hl : l.Sound) (hx : IsCD x)
    (hx0 : 0 ≤ x.val) (h : Ledger.transfer l s t x = .ok l') : l'.Sound ∧ l'.total = l.total := by
  obtain ⟨hw, hcd, hsup⟩ := hl
  unfold Ledger.transfer at h
  cases hs : Dict.get? l s with
  | none => simp [hs] at h
  | some a =>
    simp only [hs] at h
    by_cases hge : cdGe a x = true
    · simp only [hge, not_true_eq_false, if_false] at h
      have hax : x.val ≤ a.val := by
        unfold cdGe at hge
        simp only [Bool.not_eq_true', Bool.eq_false_iff, ne_eq, lt_iff] at hge
        exact not_lt.1 hge
      obtain ⟨haCD, ha0⟩ := hcd _ (Dict.mem_of_get? hs)
      simp only [] at haCD ha0
      have hna := haCD.range.2.2
      have hnx := hx.range.2.2
      cases hsub : cdSub a x with
      | error e => simp [hsub, bind, Except.bind] at h
      | ok a' =>
        simp only [hsub, bind, Except.bind] at h
        have ea : a'.val = a.val - x.val := by
          refine exact_of_agrees (C01_sub haCD hx) hsub ?_ ?_
          · have := haCD.range.2.1; linarith
          · obtain ⟨na, h1⟩ := hna; obtain ⟨nx, h2⟩ := hnx
            exact ⟨na - nx, by rw [h1, h2]; push_cast; ring⟩
        have ha'CD : IsCD a' := cdOp_isCD hsub
        set l1 := Dict.set l s a' with hl1
        have hw1 : Dict.WF l1 := Dict.WF.set hw _ _
        have ht1 : Ledger.total l1 = l.total - x.val := by
          rw [hl1, Ledger.total_set hw hs, ea]; ring
        have hcd1 : ∀ kv ∈ l1, IsCD kv.2 ∧ 0 ≤ kv.2.val := by
          intro kv hkv
          rcases Ledger.mem_set hkv with h | h
          · rw [h]; exact ⟨ha'CD, by rw [ea]; linarith⟩
          · exact hcd kv h
        cases htt : Dict.get? l1 t with
        | none =>
          simp only [htt] at h
          cases h
          refine ⟨⟨Dict.WF.set hw1 _ _, ?_, ?_⟩, ?_⟩
          · intro kv hkv
            rcases Ledger.mem_set hkv with h | h
            · rw [h]; exact ⟨hx, hx0⟩
            · exact hcd1 kv h
          · rw [Ledger.total_set_new htt, ht1]; linarith
          · rw [Ledger.total_set_new htt, ht1]; ring
        | some b =>
          simp only [htt] at h
          obtain ⟨hbCD, hb0⟩ := hcd1 _ (Dict.mem_of_get? htt)
          simp only [] at hbCD hb0
          have hbt : b.val ≤ Ledger.total l1 := Ledger.le_total (fun kv hkv => (hcd1 kv hkv).2) htt
          cases hadd : cdAdd b x with
          | error e => simp [hadd] at h
          | ok b' =>
            simp only [hadd] at h
            cases h
            have eb : b'.val = b.val + x.val := by
              refine exact_of_agrees (C01_add hbCD hx) hadd ?_ ?_
              · linarith
              · obtain ⟨nb, h1⟩ := hbCD.range.2.2; obtain ⟨nx, h2⟩ := hnx
                exact ⟨nb + nx, by rw [h1, h2]; push_cast; ring⟩
            have htot : Ledger.total (Dict.set l1 t b') = l.total := by
              rw [Ledger.total_set hw1 htt, ht1, eb]; ring
            refine ⟨⟨Dict.WF.set hw1 _ _, ?_, ?_⟩, htot⟩
            · intro kv hkv
              rcases Ledger.mem_set hkv with h | h
              · rw [h]; exact ⟨cdOp_isCD hadd, by rw [eb]; linarith⟩
              · exact hcd1 kv h
            · rw [htot]; exact hsup
    · simp [hge] at h

/-- C04: over any history of transfers (failed ones change nothing) of nonnegative amounts, the
total supply never changes and no balance becomes negative. -/
theorem C04_ledger_history {l : Ledger} (hl : l.Sound) (txs : List (Str × Str × Dec))
    (htx : ∀ tx ∈ txs, IsCD tx.2.2 ∧ 0 ≤ tx.2.2.val) :
    (Ledger.runAll l txs).total = l.total ∧ (Ledger.runAll l txs).Sound := by
  induction txs generalizing l with
  | nil => exact ⟨rfl, hl⟩
  | cons tx txs ih =>
    obtain ⟨s, t, x⟩ := tx
    simp only [Ledger.runAll]
    have hx := htx _ (List.mem_cons_self ..)
    have htx' : ∀ tx ∈ txs, IsCD tx.2.2 ∧ 0 ≤ tx.2.2.val := fun tx h => htx tx (List.mem_cons_of_mem _ h)
    cases h : Ledger.transfer l s t x with
    | error e => exact ih hl htx'
    | ok l' =>
      obtain ⟨h1, h2⟩ := C04_ledger_step hl hx.1 hx.2 h
      have := ih h1 htx'
      exact ⟨by rw [this.1, h2], this.2⟩

/-- Non-vacuity: a sound ledger and a transfer that succeeds and moves money. -/
example : ∃ l' , Ledger.transfer [(py! "stu", ⟨false, 1, 6⟩)] (py! "stu") (py! "bob") ⟨false, 25, -1⟩ = .ok l' ∧
    Dict.get? l' (py! "bob") = some ⟨false, 25, -1⟩ ∧ Dict.get? l' (py! "stu") = some ⟨false, 9999975, -1⟩ := by
  refine ⟨[(py! "stu", ⟨false, 9999975, -1⟩), (py! "bob", ⟨false, 25, -1⟩)], ?_, ?_, ?_⟩ <;> decide +kernel

/-- Why the cap matters: at the cap a credit silently loses money (the hypothesis of `C04_transfer`
cannot be dropped). -/
example : cdAdd maxDecimal ⟨false, 1, 0⟩ = .ok capCanonical := by decide +kernel

/-! ## C05 -/

/-- C05: comparison operators are the numeric order. -/
theorem C05_order (a b : Dec) :
    (cdLt a b = true ↔ a.val < b.val) ∧ (cdLe a b = true ↔ a.val ≤ b.val) ∧
    (cdEq a b = true ↔ a.val = b.val) ∧ (cdGe a b = true ↔ a.val ≥ b.val) ∧
    (cdGt a b = true ↔ a.val > b.val) := by
  refine ⟨lt_iff a b, ?_, eqv_iff a b, ?_, lt_iff b a⟩
  · unfold cdLe; rw [Bool.not_eq_true', Bool.eq_false_iff, ne_eq, lt_iff]; exact not_lt
  · unfold cdGe; rw [Bool.not_eq_true', Bool.eq_false_iff, ne_eq, lt_iff]; exact not_lt

/-- C05: truthiness is "strictly positive". -/
theorem C05_bool (a : Dec) : cdBool a = true ↔ 0 < a.val := by
  unfold cdBool; rw [lt_iff]
  rw [show (⟨false, 0, 0⟩ : Dec).val = 0 from val_zero rfl]

/-- C05: comparing with an int compares with the int clamped by `Spec.fix`; it raises exactly when
`Spec.fix` has no value. -/
theorem C05_int (a : Dec) (i : ℤ) :
    match Spec.fix (i : ℚ) with
    | some q => (∃ r, cdLtInt a i = .ok r ∧ (r = true ↔ a.val < q)) ∧
        (∃ r, cdGeInt a i = .ok r ∧ (r = true ↔ a.val ≥ q)) ∧
        (∃ r, cdEqInt a i = .ok r ∧ (r = true ↔ a.val = q))
    | none => (∃ e, cdLtInt a i = .error e) ∧ (∃ e, cdGeInt a i = .error e) ∧ (∃ e, cdEqInt a i = .error e) := by
  have h := C01_int_operand i
  cases hs : Spec.fix (i : ℚ) with
  | some q =>
    rw [hs] at h
    obtain ⟨d, hd, rfl⟩ := h
    refine ⟨⟨_, by simp only [cdLtInt, hd, bind, Except.bind]; rfl, lt_iff _ _⟩,
      ⟨_, by simp only [cdGeInt, hd, bind, Except.bind]; rfl, ?_⟩,
      ⟨_, by simp only [cdEqInt, hd, bind, Except.bind]; rfl, eqv_iff _ _⟩⟩
    exact (C05_order a d).2.2.2.1
  | none =>
    rw [hs] at h
    obtain ⟨e, he⟩ := h
    exact ⟨⟨e, by simp [cdLtInt, he, bind, Except.bind]⟩, ⟨e, by simp [cdGeInt, he, bind, Except.bind]⟩,
      ⟨e, by simp [cdEqInt, he, bind, Except.bind]⟩⟩

/-- The clamp is visible: the cap equals every larger integer. -/
example : cdEqInt capCanonical (10 ^ 40) = .ok true := by decide +kernel

/-! ## C06 -/

/-- C06, what every lower-case text `[sign]digits[.digits]e-digits` is read as. `M` is the mantissa without its sign and `N` its digits as
an integer. (1) A mantissa above 9 (as a double) is read at its value. Otherwise: (2) with exponent 0 the point is dropped; (3) with any other
exponent a signed number is refused; (4) an unsigned one is read with the point moved before the first digit and then `e - 1`
places on, which is the number written exactly when one digit is before the point (`C06_neg_exponent`) or all digits are 0. -/
theorem C06_exact {sgn ip fs es : Str} {dot : Bool} (hsgn : sgn = [] ∨ sgn = ['+'] ∨ sgn = ['-'])
    (hip : ∀ c ∈ ip, isDigit c = true) (hfs : ∀ c ∈ fs, isDigit c = true) (hdot : dot = false → fs = []) (hne : ip ++ fs ≠ [])
    (hes : ∀ c ∈ es, isDigit c = true) (hes0 : es ≠ []) :
    let text := sgn ++ ((ip ++ (if dot then '.' :: fs else [])) ++ 'e' :: '-' :: es)
    let N : ℚ := strToNat (ip ++ fs)
    let M : ℚ := N / 10 ^ fs.length
    let sg : ℚ := if sgn = ['-'] then -1 else 1
    let e := strToNat es
    (sgn ≠ ['-'] ∧ 9 + 1 / 2 ^ 50 < M → Agrees (cdOfStr text) (Spec.fix (sg * M / 10 ^ e))) ∧
    (¬ (sgn ≠ ['-'] ∧ 9 + 1 / 2 ^ 50 < M) →
      (e = 0 → Agrees (cdOfStr text) (Spec.fix (sg * N))) ∧
      (e ≠ 0 → sgn ≠ [] → cdOfStr text = .error .invalidOperation) ∧
      (e ≠ 0 → sgn = [] → Agrees (cdOfStr text) (Spec.fix (N / 10 ^ (ip.length + fs.length + e - 1))))) := by
  intro text N M sg e
  have hmc := mant_chars (dot := dot) hip hfs
  have hbe : ∀ c ∈ sgn ++ mant ip fs dot, c ≠ 'e' := by
    intro c hc
    rcases List.mem_append.1 hc with h | h
    · rcases hsgn with rfl | rfl | rfl
      · cases h
      · rw [List.mem_singleton.1 h]; decide
      · rw [List.mem_singleton.1 h]; decide
    · rcases hmc c h with h | rfl
      · exact isDigit_ne h (by decide)
      · decide
  have hse : ∀ c ∈ es, c ≠ 'e' := fun c hc => isDigit_ne (hes c hc) (by decide)
  have htext : text = (sgn ++ mant ip fs dot) ++ 'e' :: '-' :: es := by
    change sgn ++ (mant ip fs dot ++ _) = _
    rw [List.append_assoc]
  have hneg : negSciNot text = if sgn ≠ ['-'] ∧ (9 + 1 / 2 ^ 50 : ℚ) < M then text else
      if e = 0 then sgn ++ (ip ++ fs) else '0' :: '.' :: (List.replicate (e - 1) '0' ++ (sgn ++ (ip ++ fs))) := by
    have hfil : (sgn ++ mant ip fs dot).filter (fun x => decide (x ≠ '.')) = sgn ++ (ip ++ fs) := by
      have h1 : sgn.filter (fun x => decide (x ≠ '.')) = sgn := by
        rcases hsgn with rfl | rfl | rfl <;> decide
      have h2 := digits_filter_dot hip
      have h3 := digits_filter_dot hfs
      rw [List.filter_append, h1]
      unfold mant
      rw [List.filter_append, h2]
      cases dot
      · rw [hdot rfl]; rfl
      · rw [if_pos rfl, List.filter_cons, if_neg (by decide), h3]
    rw [htext]
    unfold negSciNot
    rw [split2_append _ es hbe hse]
    simp only [floatGt9_mant hsgn hip hfs hdot hne]
    by_cases hg : sgn ≠ ['-'] ∧ (9 + 1 / 2 ^ 50 : ℚ) < M
    · rw [if_pos hg, decide_eq_true hg]
    · rw [if_neg hg, decide_eq_false hg]
      simp only [pyInt_digits hes hes0, hfil]
      have hk : ((strToNat es : ℤ) - 1).toNat = e - 1 := by change _ = strToNat es - 1; omega
      rw [hk]
      by_cases h0 : e = 0
      · have h0' : strToNat es = 0 := h0
        rw [if_neg (by rw [h0']; decide), if_pos h0, h0]; rfl
      · have h0' : strToNat es ≠ 0 := h0
        rw [if_pos (by omega), if_neg h0]
  have hpe : parseExp ('e' :: '-' :: es) = some (-(strToNat es : ℤ)) := by
    have : es.all isDigit = true := by rw [List.all_eq_true]; exact hes
    simp [parseExp, hes0, this]
  have hparse := parse_text (dot := dot) hsgn hip hfs hdot hne hpe (by intro c hc; simp at hc; subst hc; decide)
    (by
      intro c hc
      rcases List.mem_cons.1 hc with rfl | hc
      · decide
      rcases List.mem_cons.1 hc with rfl | hc
      · decide
      · exact ⟨isDigit_not_space (hes c hc), isDigit_ne (hes c hc) (by decide)⟩)
  constructor
  · intro hg
    unfold cdOfStr
    rw [hneg, if_pos hg]
    rw [show parse text = _ from hparse]
    have hv : sg * M / 10 ^ e = (⟨decide (sgn = ['-']), strToNat (ip ++ fs), -(strToNat es : ℤ) - fs.length⟩ : Dec).val := by
      simp only [Dec.val, decide_eq_true_eq, zpow_sub₀ (show (10 : ℚ) ≠ 0 by norm_num), zpow_neg, zpow_natCast]
      change sg * (N / 10 ^ fs.length) / 10 ^ strToNat es = sg * N * _
      ring
    rw [hv]
    exact fixPrecision_agrees _
  · intro hg
    refine ⟨fun h0 => ?_, fun h0 hs => ?_, fun h0 hs => ?_⟩
    · unfold cdOfStr
      rw [hneg, if_neg hg, if_pos h0]
      have := parse_text (ip := ip ++ fs) (fs := []) (dot := false) (ex := []) (e := 0) hsgn
        (fun c hc => by rcases List.mem_append.1 hc with h | h; exacts [hip c h, hfs c h]) (by simp) (fun _ => rfl)
        (by simpa using hne) rfl (by simp) (by simp)
      simp only [mant, Bool.false_eq_true, if_false, List.append_nil] at this
      rw [this]
      have hv : sg * N = (⟨decide (sgn = ['-']), strToNat (ip ++ fs), 0 - (([] : Str).length : ℤ)⟩ : Dec).val := by
        simp [Dec.val, sg, N]
      rw [hv]
      exact fixPrecision_agrees _
    · unfold cdOfStr
      rw [hneg, if_neg hg, if_neg h0]
      obtain ⟨c, hc, hsc⟩ : ∃ c, (c = '+' ∨ c = '-') ∧ sgn = [c] := by
        rcases hsgn with rfl | rfl | rfl
        · exact absurd rfl hs
        · exact ⟨_, .inl rfl, rfl⟩
        · exact ⟨_, .inr rfl, rfl⟩
      have hnum : ∀ x ∈ '0' :: '.' :: (List.replicate (e - 1) '0' ++ (sgn ++ (ip ++ fs))), numChar x = true := by
        intro x hx
        rcases List.mem_cons.1 hx with rfl | hx
        · decide
        rcases List.mem_cons.1 hx with rfl | hx
        · decide
        rcases List.mem_append.1 hx with hx | hx
        · exact digit_numChar (zeros_digit _ x hx)
        rcases List.mem_append.1 hx with hx | hx
        · rw [hsc] at hx
          rw [List.mem_singleton.1 hx]
          rcases hc with rfl | rfl <;> decide
        · rcases List.mem_append.1 hx with hx | hx
          · exact digit_numChar (hip x hx)
          · exact digit_numChar (hfs x hx)
      rw [parse_num hnum, parseSigned, if_neg (by decide), if_neg (by decide)]
      have h1 : spanDigits ('0' :: '.' :: (List.replicate (e - 1) '0' ++ (sgn ++ (ip ++ fs)))) =
          (['0'], '.' :: (List.replicate (e - 1) '0' ++ (sgn ++ (ip ++ fs)))) :=
        span_append (s := ['0']) (by decide) (by intro c hc; simp at hc; subst hc; decide)
      have h2 : spanDigits (List.replicate (e - 1) '0' ++ (sgn ++ (ip ++ fs))) =
          (List.replicate (e - 1) '0', sgn ++ (ip ++ fs)) :=
        span_append (zeros_digit _) (by
          intro x hx
          rw [hsc] at hx
          simp at hx; subst hx
          rcases hc with rfl | rfl <;> decide)
      have h3 : parseExp (sgn ++ (ip ++ fs)) = none := by
        rw [hsc]
        rcases hc with rfl | rfl <;> simp [parseExp]
      unfold parseUnsigned
      rw [h1]
      simp only [splitFrac, if_true, h2, h3]
      rfl
    · subst hs
      unfold cdOfStr
      rw [hneg, if_neg hg, if_neg h0, List.nil_append]
      have hall : ∀ c ∈ List.replicate (e - 1) '0' ++ (ip ++ fs), isDigit c = true := by
        intro x hx
        rcases List.mem_append.1 hx with hx | hx
        · exact zeros_digit _ x hx
        rcases List.mem_append.1 hx with hx | hx
        · exact hip x hx
        · exact hfs x hx
      have := parse_text (sgn := []) (ip := ['0']) (fs := List.replicate (e - 1) '0' ++ (ip ++ fs)) (dot := true) (ex := []) (e := 0)
        (.inl rfl) (by decide) hall (by simp) (by simp) rfl (by simp) (by simp)
      simp only [mant, if_true, List.append_nil, List.nil_append, List.singleton_append] at this
      rw [this]
      have e1 : strToNat ('0' :: (List.replicate (e - 1) '0' ++ (ip ++ fs))) = strToNat (ip ++ fs) := by
        have h1 := strToNat_append ['0'] (List.replicate (e - 1) '0' ++ (ip ++ fs))
        rw [List.singleton_append] at h1
        rw [h1, strToNat_append, strToNat_replicate_zero]
        simp [strToNat, digitVal?]
      have hlen : 0 < ip.length + fs.length := by
        rw [← List.length_append]; exact List.length_pos_iff.2 hne
      have hv : N / 10 ^ (ip.length + fs.length + e - 1) =
          (⟨decide (([] : Str) = ['-']), strToNat ('0' :: (List.replicate (e - 1) '0' ++ (ip ++ fs))),
            0 - ((List.replicate (e - 1) '0' ++ (ip ++ fs)).length : ℤ)⟩ : Dec).val := by
        rw [e1]
        have : (List.replicate (e - 1) '0' ++ (ip ++ fs)).length = ip.length + fs.length + e - 1 := by
          simp only [List.length_append, List.length_replicate]; omega
        rw [this]
        simp only [Dec.val, zero_sub, zpow_neg, zpow_natCast, div_eq_mul_inv]
        simp [N]
      rw [hv]
      exact fixPrecision_agrees _

/-- C06, the other texts: without an exponent, with a capital `E`, or with an `e` that no `-` follows, every text
`[sign]digits[.digits][exponent]` is read at its value. -/
theorem C06_other {sgn ip fs ex : Str} {dot : Bool} {e : ℤ} (hsgn : sgn = [] ∨ sgn = ['+'] ∨ sgn = ['-'])
    (hip : ∀ c ∈ ip, isDigit c = true) (hfs : ∀ c ∈ fs, isDigit c = true) (hdot : dot = false → fs = []) (hne : ip ++ fs ≠ [])
    (hex : (ex = [] ∧ e = 0) ∨ ∃ x sg es, ex = x :: (sg ++ es) ∧ (x = 'e' ∨ x = 'E') ∧ (sg = [] ∨ sg = ['+'] ∨ sg = ['-']) ∧
      ¬ (x = 'e' ∧ sg = ['-']) ∧ (∀ c ∈ es, isDigit c = true) ∧ es ≠ [] ∧
      e = if sg = ['-'] then -(strToNat es : ℤ) else strToNat es) :
    Agrees (cdOfStr (sgn ++ ((ip ++ (if dot then '.' :: fs else [])) ++ ex)))
      (Spec.fix ((if sgn = ['-'] then -1 else 1) * ((strToNat (ip ++ fs) : ℚ) / 10 ^ fs.length) * 10 ^ e)) := by
  have hno : ∀ c ∈ sgn ++ mant ip fs dot, c ≠ 'e' := by
    intro c hc
    rcases List.mem_append.1 hc with h | h
    · rcases hsgn with rfl | rfl | rfl
      · cases h
      · rw [List.mem_singleton.1 h]; decide
      · rw [List.mem_singleton.1 h]; decide
    · rcases mant_chars (dot := dot) hip hfs c h with h | rfl
      · exact isDigit_ne h (by decide)
      · decide
  have key : parseExp ex = some e ∧ (∀ c, ex.head? = some c → isDigit c = false ∧ c ≠ '.') ∧ (∀ c ∈ ex, isSpace c = false ∧ c ≠ '_') ∧
      negSciNot (sgn ++ (mant ip fs dot ++ ex)) = sgn ++ (mant ip fs dot ++ ex) := by
    rcases hex with ⟨rfl, rfl⟩ | ⟨x, sg, es, rfl, hx, hsg, hnm, hes, hes0, rfl⟩
    · refine ⟨rfl, by simp, by simp, negSciNot_id ?_⟩
      rw [List.append_nil]; exact hno
    · refine ⟨parseExp_text hx hsg hes hes0, ?_, ?_, ?_⟩
      · intro c hc
        simp at hc; subst hc
        rcases hx with rfl | rfl <;> decide
      · intro c hc
        rcases List.mem_cons.1 hc with rfl | hc
        · rcases hx with rfl | rfl <;> decide
        rcases List.mem_append.1 hc with hc | hc
        · rcases hsg with rfl | rfl | rfl
          · cases hc
          · rw [List.mem_singleton.1 hc]; decide
          · rw [List.mem_singleton.1 hc]; decide
        · exact ⟨isDigit_not_space (hes c hc), isDigit_ne (hes c hc) (by decide)⟩
      · have hst : ∀ c ∈ sg ++ es, c ≠ 'e' := by
          intro c hc
          rcases List.mem_append.1 hc with hc | hc
          · rcases hsg with rfl | rfl | rfl
            · cases hc
            · rw [List.mem_singleton.1 hc]; decide
            · rw [List.mem_singleton.1 hc]; decide
          · exact isDigit_ne (hes c hc) (by decide)
        rw [← List.append_assoc]
        rcases hx with rfl | rfl
        · unfold negSciNot
          rw [split2_single _ _ hno hst]
          rcases hsg with rfl | rfl | rfl
          · obtain ⟨c, t, rfl⟩ := List.exists_cons_of_ne_nil hes0
            have c1 : c ≠ '-' := isDigit_ne (hes c List.mem_cons_self) (by decide)
            simpa using c1
          · simp
          · exact absurd ⟨rfl, rfl⟩ hnm
        · refine negSciNot_id fun c hc => ?_
          rcases List.mem_append.1 hc with hc | hc
          · exact hno c hc
          · rcases List.mem_cons.1 hc with rfl | hc
            · decide
            · exact hst c hc
  obtain ⟨hpe, hx0, hxs, hns⟩ := key
  change Agrees (cdOfStr (sgn ++ (mant ip fs dot ++ ex))) _
  unfold cdOfStr
  rw [hns, parse_text hsgn hip hfs hdot hne hpe hx0 hxs]
  have hv : (if sgn = ['-'] then -1 else 1) * ((strToNat (ip ++ fs) : ℚ) / 10 ^ fs.length) * 10 ^ e =
      (⟨decide (sgn = ['-']), strToNat (ip ++ fs), e - fs.length⟩ : Dec).val := by
    simp only [Dec.val, decide_eq_true_eq, zpow_sub₀ (show (10 : ℚ) ≠ 0 by norm_num), zpow_natCast]
    ring
  rw [hv]
  exact fixPrecision_agrees _

/-- C06: one digit before the point (what Python prints for small non-negative floats), any fraction, any positive
exponent: the decimal is the number written, rounded once. -/
theorem C06_neg_exponent (d : Char) (fs es : Str) (dot : Bool) (hd : isDigit d = true)
    (hfs : ∀ c ∈ fs, isDigit c = true) (hdot : dot = false → fs = [])
    (hes : ∀ c ∈ es, isDigit c = true) (hpos : 0 < strToNat es) :
    Agrees (cdOfStr ((d :: (if dot then '.' :: fs else [])) ++ 'e' :: '-' :: es))
      (Spec.fix ((strToNat (d :: fs) : ℚ) / 10 ^ fs.length / 10 ^ strToNat es)) := by
  have hne : es ≠ [] := by rintro rfl; simp [strToNat] at hpos
  obtain ⟨p, h1, h2⟩ := negSciNot_val d fs es dot hd hfs hdot hes hne hpos
  have hsv : sciVal d fs es = (strToNat (d :: fs) : ℚ) / 10 ^ fs.length / 10 ^ strToNat es := by
    unfold sciVal
    rw [zp_sub, zpow_neg, zpow_natCast, zpow_natCast]
    ring
  unfold cdOfStr
  rw [h1, ← hsv, ← h2]
  exact fixPrecision_agrees p

/-- C06 at full strength is false of the code: a negative number raises, a leading zero shifts the
value, and exponent zero drops the point. -/
theorem C06_refuted :
    cdOfStr (py! "-2e-5") = .error .invalidOperation ∧
    cdOfStr (py! "05e-3") = .ok ⟨false, 5, -4⟩ ∧
    cdOfStr (py! ".5e-3") = .ok ⟨false, 5, -3⟩ ∧
    cdOfStr (py! "2.5e-0") = .ok ⟨false, 25, 0⟩ := by decide +kernel

/-- A case of `C06_exact` in which the number is misread: `05e-3` is read as 0.0005. -/
example : Agrees (cdOfStr (py! "05e-3")) (Spec.fix (5 / 10 ^ 4)) := by
  have h := (C06_exact (sgn := []) (ip := py! "05") (fs := []) (es := py! "3") (dot := false) (.inl rfl) (by decide) (by decide)
    (fun _ => rfl) (by decide) (by decide) (by decide)).2 (by norm_num [strToNat, digitVal?])
  have h2 := h.2.2 (by decide) rfl
  have e1 : strToNat (py! "05") = 5 := by decide
  have e2 : strToNat (py! "3") = 3 := by decide
  simpa [e1, e2] using h2

/-- Ordinary texts meet the hypotheses of `C06_other`. -/
example : Agrees (cdOfStr (py! "-1.5E-7")) (Spec.fix (-(15 / 10) * 10 ^ (-7 : ℤ))) := by
  have h := C06_other (sgn := ['-']) (ip := py! "1") (fs := py! "5") (dot := true) (ex := py! "E-7") (e := -7) (.inr (.inr rfl)) (by decide)
    (by decide) (by simp) (by decide) (.inr ⟨'E', ['-'], py! "7", rfl, .inr rfl, .inr (.inr rfl), by decide, by decide, by decide, by decide⟩)
  have e1 : strToNat (py! "15") = 15 := by decide
  simpa [e1] using h

example : cdOfStr (py! "1.5e-05") = .ok ⟨false, 15, -6⟩ := by decide +kernel

end Verif
