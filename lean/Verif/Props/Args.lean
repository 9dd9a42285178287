import Mathlib.Data.List.Forall2
import Verif.Props.Decimal
import Verif.Proofs.Context
import Verif.Spec.Args
import Verif.Proofs.ValueEq
/-!
# C73: what a contract function receives
-/
namespace Verif
open Dec

theorem natToStr_len_one {n : ℕ} (h : n < 10) : (natToStr n).length = 1 := by
  have : ∀ n < 10, (natToStr n).length = 1 := by decide
  exact this n h

theorem fix_agrees_ok {r : Except PyErr Dec} {q : ℚ} (h : Agrees r (Spec.fix q)) {d : Dec} (hr : r = .ok d) : Spec.fix q = some d.val := by
  unfold Agrees at h
  cases hf : Spec.fix q with
  | some x =>
    rw [hf] at h
    obtain ⟨d', h1, h2⟩ := h
    rw [hr] at h1; cases h1
    rw [h2]
  | none =>
    rw [hf] at h
    obtain ⟨e, h1⟩ := h
    rw [hr] at h1; cases h1

theorem fix_agrees_some {r : Except PyErr Dec} {q x : ℚ} (h : Agrees r (Spec.fix q)) (hx : Spec.fix q = some x) : ∃ d, r = .ok d ∧ d.val = x := by
  unfold Agrees at h
  rw [hx] at h
  exact h

theorem cdOfStr_isCD {s : Str} {d : Dec} (h : cdOfStr s = .ok d) : IsCD d := by
  unfold cdOfStr at h
  split at h
  · cases h
  · rename_i n _
    cases n with
    | fin x => exact ⟨x, h⟩
    | inf b =>
      cases b
      · have h : maxDecimal = d := by injection h
        subst h
        exact ⟨⟨false, 1, 40⟩, by decide +kernel⟩
      · cases h
    | nan => cases h

/-- The number text of a printed float. -/
theorem floatText (neg : Bool) (ip : ℕ) (frac : Str) (exp : Option (Str × Str)) :
    (FloatTok.lit neg ip frac exp).text = (if neg then ['-'] else []) ++
      ((natToStr ip ++ (if decide (frac ≠ []) = true then '.' :: frac else [])) ++ (match exp with | none => [] | some p => 'e' :: (p.1 ++ p.2))) := by
  unfold FloatTok.text
  by_cases h : frac = [] <;> simp [h, List.append_assoc] <;> cases neg <;> rfl

/-- What a float becomes, exactly. -/
theorem normValue_float {t : FloatTok} (ht : Spec.Printed t) :
    (∀ w, normValue (.flt t) = .ok w → Spec.Passed (.flt t) w) ∧
    ((∃ d, Spec.Becomes t d) → ∃ w, normValue (.flt t) = .ok w) := by
  have hok : ∀ {t : FloatTok} {w : PyVal}, normValue (.flt t) = .ok w → ∃ d, w = .dec d ∧ cdOfStr t.text = .ok d := by
    intro t w h
    rw [normValue] at h
    cases hc : cdOfStr t.text with
    | error e => rw [hc] at h; cases h
    | ok d => rw [hc] at h; cases h; exact ⟨d, rfl, rfl⟩
  cases t with
  | nan =>
    constructor
    · intro w h
      obtain ⟨d, _, h2⟩ := hok h
      exact absurd h2 (by rw [show cdOfStr (FloatTok.text .nan) = .error .invalidOperation by decide +kernel]; simp)
    · rintro ⟨d, h⟩; exact absurd h (by simp [Spec.Becomes])
  | inf b =>
    cases b with
    | true =>
      constructor
      · intro w h
        obtain ⟨d, _, h2⟩ := hok h
        exact absurd h2 (by rw [show cdOfStr (FloatTok.text (.inf true)) = .error .invalidOperation by decide +kernel]; simp)
      · rintro ⟨d, h⟩; exact absurd h (by simp [Spec.Becomes])
    | false =>
      have e : cdOfStr (FloatTok.text (.inf false)) = .ok maxDecimal := by decide +kernel
      constructor
      · intro w h
        obtain ⟨d, hw, h2⟩ := hok h
        refine ⟨d, hw, cdOfStr_isCD h2, ?_⟩
        rw [e] at h2; cases h2
        exact maxDecimal_val
      · intro _
        exact ⟨.dec maxDecimal, by rw [normValue, e]; rfl⟩
  | lit neg ip frac exp =>
    obtain ⟨⟨hf, hfe, hexp⟩, h10, hz⟩ := ht
    have hip : ∀ c ∈ natToStr ip, isDigit c = true := natToStr_all_digits ip
    have hdot : decide (frac ≠ []) = false → frac = [] := by simp
    have hne : natToStr ip ++ frac ≠ [] := by
      intro h
      exact natToStr_ne_nil ip (List.append_eq_nil_iff.1 h).1
    have hsgn : (if neg then ['-'] else [] : Str) = [] ∨ (if neg then ['-'] else [] : Str) = ['+'] ∨ (if neg then ['-'] else [] : Str) = ['-'] := by
      cases neg
      · exact .inl rfl
      · exact .inr (.inr rfl)
    have hM : (ip : ℚ) + (strToNat frac : ℚ) / 10 ^ frac.length = (strToNat (natToStr ip ++ frac) : ℚ) / 10 ^ frac.length := by
      rw [strToNat_append, strToNat_natToStr]
      push_cast
      rw [add_div, mul_div_assoc, div_self (by positivity), mul_one]
    have hsg : ((if (if neg then ['-'] else [] : Str) = ['-'] then -1 else 1 : ℚ)) = if neg then -1 else 1 := by cases neg <;> rfl
    by_cases htiny : Spec.Tiny exp
    · obtain ⟨es, hes⟩ := htiny
      obtain ⟨_, hes0, hesd⟩ := hexp _ hes
      have h10' : ip < 10 := h10 (by rw [hes]; simp)
      have he0 : strToNat es ≠ 0 := by
        intro h
        exact hz ⟨es, hes⟩ (by simp [hes, Spec.floatExp, h])
      have htext := floatText neg ip frac exp
      rw [hes] at htext
      simp only [List.singleton_append] at htext
      obtain ⟨hbig, hsmall⟩ := C06_exact (sgn := if neg then ['-'] else []) (ip := natToStr ip) (fs := frac) (es := es) (dot := decide (frac ≠ []))
        hsgn hip hf hdot hne hesd hes0
      rw [← htext] at hbig hsmall
      have hval : Spec.floatVal neg ip frac exp = (if neg then -1 else 1) * ((strToNat (natToStr ip ++ frac) : ℚ) / 10 ^ frac.length) / 10 ^ strToNat es := by
        simp only [Spec.floatVal, hes, Spec.floatExp, if_true, hM, zpow_neg, zpow_natCast]
        rw [div_eq_mul_inv _ ((10 : ℚ) ^ strToNat es)]
      cases neg with
      | true =>
        have herr := (hsmall (by rintro ⟨h, _⟩; exact h rfl)).2.1 he0 (by simp)
        constructor
        · intro w h
          obtain ⟨d, _, h2⟩ := hok h
          rw [hes, herr] at h2; cases h2
        · rintro ⟨d, h, _⟩
          exact absurd ⟨rfl, es, hes⟩ h
      | false =>
        have hag : Agrees (cdOfStr (FloatTok.lit false ip frac (some (['-'], es))).text) (Spec.fix (Spec.floatVal false ip frac exp)) := by
          rw [hval]
          by_cases hg : (if false then ['-'] else [] : Str) ≠ ['-'] ∧ (9 + 1 / 2 ^ 50 : ℚ) < (strToNat (natToStr ip ++ frac) : ℚ) / 10 ^ frac.length
          · have := hbig hg
            simpa using this
          · have := (hsmall hg).2.2 he0 rfl
            have hexpn : (natToStr ip).length + frac.length + strToNat es - 1 = frac.length + strToNat es := by
              rw [natToStr_len_one h10']; omega
            rw [hexpn, pow_add, ← div_div] at this
            simpa using this
        constructor
        · intro w h
          obtain ⟨d, hw, h2⟩ := hok h
          refine ⟨d, hw, cdOfStr_isCD h2, by simp, ?_⟩
          rw [hes] at h2
          exact fix_agrees_ok hag h2
        · rintro ⟨d, _, h⟩
          obtain ⟨d', h1, _⟩ := fix_agrees_some hag h
          exact ⟨.dec d', by rw [normValue, hes, h1]; rfl⟩
    · have hag : Agrees (cdOfStr (FloatTok.lit neg ip frac exp).text) (Spec.fix (Spec.floatVal neg ip frac exp)) := by
        rw [floatText, Spec.floatVal, hM, ← hsg]
        refine C06_other hsgn hip hf hdot hne ?_
        cases hx : exp with
        | none => exact .inl ⟨rfl, rfl⟩
        | some p =>
          obtain ⟨h1, h2, h3⟩ := hexp p hx
          refine .inr ⟨'e', p.1, p.2, rfl, .inl rfl, h1, ?_, h3, h2, rfl⟩
          rintro ⟨_, h4⟩
          exact htiny ⟨p.2, by rw [hx, ← h4]⟩
      constructor
      · intro w h
        obtain ⟨d, hw, h2⟩ := hok h
        exact ⟨d, hw, cdOfStr_isCD h2, fun h => htiny h.2, fix_agrees_ok hag h2⟩
      · rintro ⟨d, _, h⟩
        obtain ⟨d', h1, _⟩ := fix_agrees_some hag h
        exact ⟨.dec d', by rw [normValue, h1]; rfl⟩

/-- Float arguments are as Python prints them. -/
def PrintedArgs (kw : Dict Str PyVal) : Prop := ∀ k t, (k, PyVal.flt t) ∈ kw → Spec.Printed t

theorem fixKwargs_passed : ∀ {kw kw' : Dict Str PyVal}, PrintedArgs kw → fixKwargs kw = .ok kw' →
    List.Forall₂ (fun a b => b.1 = a.1 ∧ Spec.Passed a.2 b.2) kw kw' := by
  intro kw
  induction kw with
  | nil => intro kw' _ h; cases h; exact .nil
  | cons p kw ih =>
    intro kw' hp h
    obtain ⟨k, v⟩ := p
    rw [fixKwargs] at h
    cases hv : normValue v with
    | error e => rw [hv] at h; cases h
    | ok v' =>
      cases hr : fixKwargs kw with
      | error e => rw [hv, hr] at h; cases h
      | ok r =>
        rw [hv, hr] at h
        cases h
        refine .cons ⟨rfl, ?_⟩ (ih (fun k t ht => hp k t (List.mem_cons_of_mem _ ht)) hr)
        cases v with
        | flt t => exact (normValue_float (hp k t List.mem_cons_self)).1 _ hv
        | _ => (cases hv; rfl)

theorem fixKwargs_total : ∀ {kw : Dict Str PyVal}, PrintedArgs kw → (∀ k t, (k, PyVal.flt t) ∈ kw → ∃ d, Spec.Becomes t d) →
    ∃ kw', fixKwargs kw = .ok kw' := by
  intro kw
  induction kw with
  | nil => intro _ _; exact ⟨[], rfl⟩
  | cons p kw ih =>
    intro hp hb
    obtain ⟨k, v⟩ := p
    obtain ⟨r, hr⟩ := ih (fun k t ht => hp k t (List.mem_cons_of_mem _ ht)) (fun k t ht => hb k t (List.mem_cons_of_mem _ ht))
    have : ∃ v', normValue v = .ok v' := by
      cases v with
      | flt t => exact (normValue_float (hp k t List.mem_cons_self)).2 (hb k t List.mem_cons_self)
      | _ => exact ⟨_, rfl⟩
    obtain ⟨v', hv⟩ := this
    exact ⟨(k, v') :: r, by rw [fixKwargs, hv, hr]; rfl⟩

/-- **C73.** In every transaction, whatever the state of the process: either the function never runs (the outcome is the same for
every function body), or the call ends up in a function of a host module, or the function runs on the arguments given, each float
argument replaced by the decimal of the same value (rounded once) and every other argument unchanged. If one of the float
arguments has no decimal, the function never runs. -/
theorem C73_arguments {H : Host} {cfg : ExecCfg} {tx : Tx} {m : Bool} {w : World} {exported : Bool} {body₀ : Dict Str PyVal → Prog}
    (hfn : tx.code.fn = some (exported, body₀)) (hp : PrintedArgs tx.kwargs) :
    let with_ := fun body => { tx with code := { tx.code with fn := some (exported, body) } }
    (∃ e w1, ∀ body, attempt H cfg (with_ body) m w = (.error e, w1)) ∨
    (∃ w1, ∀ body, attempt H cfg (with_ body) m w = (H.hostCall tx.contract tx.function, w1)) ∨
    (∃ kwargs w1, List.Forall₂ (fun a b => b.1 = a.1 ∧ Spec.Passed a.2 b.2) tx.kwargs kwargs ∧
      ∀ body, attempt H cfg (with_ body) m w =
        ((if exported then Prog.call tx.contract (body kwargs) fun r => match r with | .ok v => .ret v | .error e => .raise e
          else body kwargs) : Prog).run H w1) := by
  intro with_
  have hpre : ∀ body, attemptPre H cfg (with_ body) m w = attemptPre H cfg tx m w := fun _ => rfl
  cases hpp : attemptPre H cfg tx m w with
  | mk r w1 =>
    cases r with
    | error e =>
      left
      refine ⟨e, w1, fun body => ?_⟩
      rw [attempt_pre, hpre body, hpp]
    | ok host =>
      cases host with
      | true =>
        right; left
        refine ⟨(invoke H tx m true w1).2, fun body => ?_⟩
        rw [attempt_pre, hpre body, hpp]
        rfl
      | false =>
        cases hk : fixKwargs tx.kwargs with
        | error e =>
          left
          refine ⟨e, (if tx.contract = py! "submission" then
            { w1 with base := { w1.base with submission := (Dict.get? tx.kwargs (py! "name")).getD .none } } else w1), fun body => ?_⟩
          rw [attempt_pre, hpre body, hpp]
          have hk' : fixKwargs (with_ body).kwargs = .error e := hk
          simp only [invoke, Bool.false_eq_true, if_false, hk']
          rfl
        | ok kwargs =>
          right; right
          refine ⟨kwargs, setUp tx m (if tx.contract = py! "submission" then
            { w1 with base := { w1.base with submission := (Dict.get? tx.kwargs (py! "name")).getD .none } } else w1),
            fixKwargs_passed hp hk, fun body => ?_⟩
          rw [attempt_pre, hpre body, hpp]
          have hk' : fixKwargs (with_ body).kwargs = .ok kwargs := hk
          simp only [invoke, Bool.false_eq_true, if_false, hk', callEntry]
          cases exported <;> rfl

theorem fixKwargs_again : ∀ {kw kw' : Dict Str PyVal}, fixKwargs kw = .ok kw' → fixKwargs kw' = .ok kw' := by
  intro kw
  induction kw with
  | nil => intro kw' h; cases h; rfl
  | cons p kw ih =>
    intro kw' h
    obtain ⟨k, v⟩ := p
    rw [fixKwargs] at h
    cases hv : normValue v with
    | error e => rw [hv] at h; cases h
    | ok v' =>
      cases hr : fixKwargs kw with
      | error e => rw [hv, hr] at h; cases h
      | ok r =>
        rw [hv, hr] at h
        cases h
        have hv' : normValue v' = .ok v' := by
          cases v with
          | flt t =>
            rw [normValue] at hv
            cases hc : cdOfStr t.text with
            | error e => rw [hc] at hv; cases hv
            | ok d => rw [hc] at hv; cases hv; rfl
          | _ => (cases hv; rfl)
        rw [fixKwargs, hv', ih hr]; rfl

/-- **C73, floats are as good as decimals.** If every float argument has a decimal, the transaction does exactly what the same
transaction with these decimals does (contracts other than `submission`, whose `name` is taken before the conversion). -/
theorem C73_same {H : Host} {cfg : ExecCfg} {tx : Tx} {m : Bool} {w : World} (hc : tx.contract ≠ py! "submission")
    (hp : PrintedArgs tx.kwargs) (hb : ∀ k t, (k, PyVal.flt t) ∈ tx.kwargs → ∃ d, Spec.Becomes t d) :
    ∃ kwargs, List.Forall₂ (fun a b => b.1 = a.1 ∧ Spec.Passed a.2 b.2) tx.kwargs kwargs ∧ (∀ k t, (k, PyVal.flt t) ∉ kwargs) ∧
      attempt H cfg tx m w = attempt H cfg { tx with kwargs := kwargs } m w := by
  obtain ⟨kwargs, hk⟩ := fixKwargs_total hp hb
  have hpass := fixKwargs_passed hp hk
  refine ⟨kwargs, hpass, fun k t hm => ?_, ?_⟩
  · obtain ⟨hl, hg⟩ := List.forall₂_iff_get.1 hpass
    obtain ⟨i, hi, he⟩ := List.getElem_of_mem hm
    obtain ⟨a, h1⟩ : ∃ a : Str × PyVal, Spec.Passed a.2 (.flt t) := by
      have := (hg i (hl ▸ hi) hi).2
      rw [show kwargs.get ⟨i, hi⟩ = (k, PyVal.flt t) from he] at this
      exact ⟨_, this⟩
    cases ha : a.2 with
    | flt t' =>
      rw [ha] at h1
      obtain ⟨d, h2, _⟩ := h1
      cases h2
    | _ => rw [ha] at h1; cases h1
  · have hpre : attemptPre H cfg { tx with kwargs := kwargs } m w = attemptPre H cfg tx m w := rfl
    rw [attempt_pre, attempt_pre, hpre]
    cases hpp : attemptPre H cfg tx m w with
    | mk r w1 =>
      cases r with
      | error e => rfl
      | ok host =>
        cases host with
        | true => rfl
        | false =>
          simp only [invoke, Bool.false_eq_true, if_false, hk, fixKwargs_again hk, if_neg hc]
          rfl

/-- **C73, the exceptions.** A tiny negative float has no decimal (the transaction fails), and a float inside a list
reaches the function as a float. -/
theorem C73_refuted :
    (∀ d, ¬ Spec.Becomes (.lit true 1 (py! "5") (some (['-'], py! "05"))) d) ∧
    fixKwargs [(py! "x", .flt (.lit true 1 (py! "5") (some (['-'], py! "05"))))] = .error .invalidOperation ∧
    (∀ w, Spec.Passed (.list [.flt (.lit false 0 (py! "5") none)]) w ↔ w = .list [.flt (.lit false 0 (py! "5") none)]) := by
  refine ⟨?_, by decide +kernel, fun w => Iff.rfl⟩
  rintro d ⟨h, _⟩
  exact h ⟨rfl, _, rfl⟩

/-- Ordinary arguments meet the hypotheses: the floats 0.5 and 1.5e-05 are as Python prints them and have decimals. -/
example : PrintedArgs [(py! "a", .flt (.lit false 0 (py! "5") none)), (py! "b", .flt (.lit false 1 (py! "5") (some (['-'], py! "05")))), (py! "c", .int 3)] ∧
    fixKwargs [(py! "a", .flt (.lit false 0 (py! "5") none)), (py! "b", .flt (.lit false 1 (py! "5") (some (['-'], py! "05")))), (py! "c", .int 3)] =
      .ok [(py! "a", .dec ⟨false, 5, -1⟩), (py! "b", .dec ⟨false, 15, -6⟩), (py! "c", .int 3)] := by
  refine ⟨?_, by decide +kernel⟩
  intro k t h
  simp only [List.mem_cons, Prod.mk.injEq, PyVal.flt.injEq, List.not_mem_nil, or_false, reduceCtorEq, and_false] at h
  rcases h with ⟨_, rfl⟩ | ⟨_, rfl⟩
  · refine ⟨⟨by decide, .inl (by decide), by simp⟩, by simp, ?_⟩
    rintro ⟨es, h⟩; cases h
  · refine ⟨⟨by decide, .inl (by decide), ?_⟩, by simp, ?_⟩
    · intro p hp; cases hp; exact ⟨.inr (.inr rfl), by decide, by decide⟩
    · intro _; decide

end Verif
