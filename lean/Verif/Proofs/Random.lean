import Verif.Proofs.Runtime
import Verif.Spec.Random
/-!
# Random numbers: the world implements the reference machine
-/
namespace Verif

/-- The world's generator is the reference machine's. -/
def RandRel (w : World) (g : Spec.Gen) : Prop :=
  match g with
  | none => w.seeded = false
  | some (s, reqs) => w.seeded = true ∧ w.rng = Spec.Gen.state s reqs

/-- Two worlds with the same generator and environment. -/
def SameRand (w w' : World) : Prop := w'.seeded = w.seeded ∧ w'.rng = w.rng ∧ w'.env = w.env

theorem SameRand.rel {w w' : World} {g : Spec.Gen} (h : SameRand w w') (hr : RandRel w g) : RandRel w' g := by
  cases g with
  | none => exact h.1.trans hr
  | some x => exact ⟨h.1.trans hr.1, h.2.1.trans hr.2⟩

theorem Action.run_sameRand (H : Host) (w : World) (a : Action) (ha : Spec.isRandom a = false) : SameRand w (a.run H w).2 := by
  refine ⟨?_, ?_, (Action.run_world H w a).2.2.1⟩
  · cases a with
    | newLog ev ps => simp only [Action.run, Verif.newLog]; repeat' split
                      all_goals rfl
    | emit l data =>
      simp only [Action.run]
      split
      · rfl
      · simp only [emitEvent]; repeat' split
        all_goals rfl
    | seed _ => simp [Spec.isRandom] at ha
    | getrandbits _ => simp [Spec.isRandom] at ha
    | draw _ => simp [Spec.isRandom] at ha
    | _ => rfl
  · cases a with
    | newLog ev ps => simp only [Action.run, Verif.newLog]; repeat' split
                      all_goals rfl
    | emit l data =>
      simp only [Action.run]
      split
      · rfl
      · simp only [emitEvent]; repeat' split
        all_goals rfl
    | seed _ => simp [Spec.isRandom] at ha
    | getrandbits _ => simp [Spec.isRandom] at ha
    | draw _ => simp [Spec.isRandom] at ha
    | _ => rfl

theorem enter_sameRand (c : Str) (w : World) : SameRand w (enter c w).2 := by
  obtain ⟨r, s, h⟩ := enter_frame c w; rw [h]; exact ⟨rfl, rfl, rfl⟩

theorem popState_sameRand (w : World) : SameRand w w.popState := by
  obtain ⟨s, h⟩ := popState_frame w; rw [h]; exact ⟨rfl, rfl, rfl⟩

theorem importStart_sameRand (H : Host) (w : World) (name : Str) (dyn : Bool) : SameRand w (importStart H w name dyn).2 := by
  obtain ⟨r, h⟩ := importStart_frame H w name dyn; rw [h]; exact ⟨rfl, rfl, rfl⟩

theorem drawBits_spec (H : Host) (s : Str) : ∀ (k : Nat) (reqs : List DrawReq),
    drawBits H (Spec.Gen.state s reqs) k =
      (Spec.bits H s reqs k, Spec.Gen.state s (reqs ++ List.replicate k .bit)) := by
  intro k
  induction k with
  | zero => intro reqs; simp [drawBits, Spec.bits]
  | succ n ih =>
    intro reqs
    have : ({ Spec.Gen.state s reqs with drawn := (Spec.Gen.state s reqs).drawn ++ [.bit] } : RngState) =
        Spec.Gen.state s (reqs ++ [.bit]) := rfl
    simp only [drawBits, this, ih, Spec.bits, List.replicate_succ, List.append_assoc, List.cons_append, List.nil_append]

theorem drawBits_length (H : Host) : ∀ (k : Nat) (r : RngState), (drawBits H r k).1.length = k := by
  intro k
  induction k with
  | zero => intro r; rfl
  | succ n ih => intro r; simp only [drawBits, List.length_cons, ih]

theorem bits_length (H : Host) (s : Str) : ∀ (k : Nat) (reqs : List DrawReq), (Spec.bits H s reqs k).length = k := by
  intro k
  induction k with
  | zero => intro r; rfl
  | succ n ih => intro r; simp only [Spec.bits, List.length_cons, ih]

theorem ofBits_go (bs : List Bool) : ∀ n : Nat,
    bs.foldl (fun n b => 2 * n + (if b then 1 else 0)) n = n * 2 ^ bs.length + Spec.number bs := by
  induction bs with
  | nil => intro n; simp [Spec.number]
  | cons b bs ih =>
    intro n
    rw [List.foldl_cons, ih]
    cases b <;> simp only [Spec.number, List.length_cons, pow_succ, if_true, Bool.false_eq_true, if_false] <;> ring

theorem ofBits_number (bs : List Bool) : ofBits bs = Spec.number bs := by
  unfold ofBits; rw [ofBits_go]; simp

theorem number_lt : ∀ bs : List Bool, Spec.number bs < 2 ^ bs.length := by
  intro bs
  induction bs with
  | nil => simp [Spec.number]
  | cons b bs ih =>
    cases b <;> simp only [Spec.number, List.length_cons, pow_succ, if_true, Bool.false_eq_true, if_false] <;> omega

theorem seedText_spec (H : Host) (env : Dict Str PyVal) (salt : Option Str) :
    seedText H env salt = match Spec.seedOf H env salt with | none => .error .typeError | some s => .ok s := by
  have hgiven : ∀ k, Spec.given env k = if truthy (dget env k) then some (dget env k) else none := by
    intro k
    unfold Spec.given dget
    cases Dict.get? env k with
    | none => rfl
    | some v => rfl
  have hheight : (if (dget env (py! "block_num")).isNone then py! "0" else H.str (dget env (py! "block_num"))) = Spec.heightText H env := by
    unfold Spec.heightText dget
    cases Dict.get? env (py! "block_num") with
    | none => rfl
    | some v => cases v <;> rfl
  have hzero : ∀ k, orZero (dget env k) = match Spec.hashText env k with | none => .error .typeError | some s => .ok s := by
    intro k
    unfold orZero Spec.hashText
    rw [hgiven]
    cases ht : truthy (dget env k) with
    | false => rfl
    | true =>
      simp only [if_true]
      cases dget env k <;> rfl
  have hsalt : (match salt with
      | some k =>
        if truthy (dget env k) then H.str (dget env k)
        else if truthy (dget env (py! "AUXILIARY_SALT")) then H.str (dget env (py! "AUXILIARY_SALT")) else []
      | none => if truthy (dget env (py! "AUXILIARY_SALT")) then H.str (dget env (py! "AUXILIARY_SALT")) else [] : Str) =
      Spec.saltText H env salt := by
    unfold Spec.saltText
    rw [hgiven]
    cases salt with
    | none => cases truthy (dget env (py! "AUXILIARY_SALT")) <;> rfl
    | some k =>
      simp only [Option.bind_some, hgiven]
      cases truthy (dget env k) <;> cases truthy (dget env (py! "AUXILIARY_SALT")) <;> rfl
  unfold seedText Spec.seedOf
  simp only [hheight, hzero, hsalt]
  cases Spec.hashText env (py! "block_hash") with
  | none => rfl
  | some a =>
    cases Spec.hashText env (py! "__input_hash") with
    | none => rfl
    | some b => exact congrArg (fun x => Except.ok (Spec.heightText H env ++ a ++ b ++ x)) hsalt

theorem seedOf_congr (H : Host) {env env' : Dict Str PyVal} {salt : Option Str} (h : seedText H env salt = seedText H env' salt) :
    Spec.seedOf H env salt = Spec.seedOf H env' salt := by
  rw [seedText_spec, seedText_spec] at h
  cases h1 : Spec.seedOf H env salt <;> cases h2 : Spec.seedOf H env' salt <;> rw [h1, h2] at h <;> cases h <;> rfl

/-- One call of the random module. -/
theorem Action.run_answer (H : Host) (w : World) (a : Action) (g : Spec.Gen) (ha : Spec.isRandom a = true)
    (hr : RandRel w g) :
    (a.run H w).1 = (Spec.answer H w.env g a).1 ∧ RandRel (a.run H w).2 (Spec.answer H w.env g a).2 ∧
    (a.run H w).2.env = w.env := by
  refine ⟨?_, ?_, (Action.run_world H w a).2.2.1⟩
  all_goals
    cases a with
    | seed salt =>
      simp only [Action.run, doSeed, Spec.answer, seedText_spec]
      cases Spec.seedOf H w.env salt with
      | none => first | rfl | exact hr
      | some s => first | rfl | exact ⟨rfl, rfl⟩
    | getrandbits k =>
      simp only [Action.run, doGetrandbits, Spec.answer]
      cases g with
      | none =>
        have hs : w.seeded = false := hr
        rw [hs]; first | rfl | exact hs
      | some x =>
        obtain ⟨s, reqs⟩ := x
        obtain ⟨hs, hg⟩ := hr
        have hs : w.seeded = true := hs
        rw [hs, hg, drawBits_spec]
        simp only [Bool.not_true, Bool.false_eq_true, if_false]
        have hl := bits_length H s k reqs
        by_cases hk : k = 0
        · subst hk
          first
            | rfl
            | exact ⟨rfl, rfl⟩
        · have hb : Spec.bits H s reqs k ≠ [] := by
            intro h0; rw [h0] at hl; exact hk hl.symm
          rw [if_neg hb]
          first
            | rw [if_neg hk, ofBits_number]
            | exact ⟨rfl, rfl⟩
    | draw q =>
      simp only [Action.run, doDraw, Spec.answer]
      cases g with
      | none =>
        have hs : w.seeded = false := hr
        rw [hs]; first | rfl | exact hs
      | some x =>
        obtain ⟨s, reqs⟩ := x
        obtain ⟨hs, hg⟩ := hr
        have hs : w.seeded = true := hs
        rw [hs, hg]
        first
          | rfl
          | exact ⟨rfl, rfl⟩
    | _ => simp [Spec.isRandom] at ha

/-- The trace of a list of events. -/
def traceOf (H : Host) (es : List (World × Spec.Ev)) : List (Action × Except PyErr PyVal) :=
  es.filterMap fun e =>
    match e.2 with
    | .act a => if Spec.isRandom a then some (a, (a.run H e.1).1) else none
    | _ => none

/-- The trace agrees with the reference machine, from generator `g` to `g'`. -/
def Follows (H : Host) (env : Dict Str PyVal) (t : List (Action × Except PyErr PyVal)) (g g' : Spec.Gen) : Prop :=
  Spec.answers H env g (t.map Prod.fst) = (t.map Prod.snd, g')

theorem Follows.nil (H : Host) (env : Dict Str PyVal) (g : Spec.Gen) : Follows H env [] g g := rfl

theorem Follows.append {H : Host} {env : Dict Str PyVal} : ∀ {t t' : List (Action × Except PyErr PyVal)} {g g' g'' : Spec.Gen},
    Follows H env t g g' → Follows H env t' g' g'' → Follows H env (t ++ t') g g'' := by
  intro t
  induction t with
  | nil => intro t' g g' g'' h h'; cases h; exact h'
  | cons x t ih =>
    intro t' g g' g'' h h'
    obtain ⟨a, r⟩ := x
    unfold Follows at h ⊢
    simp only [List.map_cons, Spec.answers, List.cons_append, Prod.mk.injEq, List.cons.injEq] at h ⊢
    obtain ⟨⟨h1, h2⟩, h3⟩ := h
    have := ih (t' := t') (g := (Spec.answer H env g a).2) (g' := g') (g'' := g'') (by unfold Follows; rw [← h2, ← h3]) h'
    unfold Follows at this
    rw [this]
    exact ⟨⟨h1, rfl⟩, rfl⟩

/-- **Every run follows the reference machine.** -/
theorem Prog.run_random (H : Host) : ∀ (p : Prog) (w : World) (g : Spec.Gen), RandRel w g →
    ∃ g', Follows H w.env (traceOf H (Spec.events H p w)) g g' ∧ RandRel (p.run H w).2 g' ∧ (p.run H w).2.env = w.env := by
  intro p
  induction p with
  | ret v => intro w g h; exact ⟨g, rfl, h, rfl⟩
  | raise e => intro w g h; exact ⟨g, rfl, h, rfl⟩
  | act a k ih =>
    intro w g h
    simp only [Spec.events, Prog.run]
    cases ha : Spec.isRandom a with
    | true =>
      obtain ⟨h1, h2, h3⟩ := Action.run_answer H w a g ha h
      obtain ⟨g', f1, f2, f3⟩ := ih (a.run H w).1 (a.run H w).2 _ h2
      refine ⟨g', ?_, f2, f3.trans h3⟩
      rw [h3] at f1
      have hx : Follows H w.env [(a, (a.run H w).1)] g (Spec.answer H w.env g a).2 := by
        unfold Follows
        simp only [List.map_cons, List.map_nil, Spec.answers]
        rw [h1]
      have := hx.append f1
      simpa [traceOf, ha] using this
    | false =>
      have hs := Action.run_sameRand H w a ha
      obtain ⟨g', f1, f2, f3⟩ := ih (a.run H w).1 (a.run H w).2 g (hs.rel h)
      refine ⟨g', ?_, f2, f3.trans hs.2.2⟩
      rw [hs.2.2] at f1
      simpa [traceOf, ha] using f1
  | call c body k ihb ihk =>
    intro w g h
    have hs := enter_sameRand c w
    simp only [Spec.events, Prog.run]
    cases he : enter c w with
    | mk r w1 =>
      rw [he] at hs
      cases r with
      | error e =>
        obtain ⟨g', f1, f2, f3⟩ := ihk (.error e) w1 g (hs.rel h)
        refine ⟨g', ?_, f2, f3.trans hs.2.2⟩
        rw [hs.2.2] at f1
        simpa [traceOf] using f1
      | ok u =>
        obtain ⟨g1, b1, b2, b3⟩ := ihb w1 g (hs.rel h)
        have hp := popState_sameRand (body.run H w1).2
        obtain ⟨g', f1, f2, f3⟩ := ihk (body.run H w1).1 (body.run H w1).2.popState g1 (hp.rel b2)
        have e1 : (body.run H w1).2.popState.env = w.env := hp.2.2.trans (b3.trans hs.2.2)
        refine ⟨g', ?_, f2, f3.trans e1⟩
        rw [e1] at f1
        rw [hs.2.2] at b1
        have := b1.append f1
        simpa [traceOf] using this
  | load name dyn body k ihb ihk =>
    intro w g h
    have hs := importStart_sameRand H w name dyn
    simp only [Spec.events, Prog.run]
    cases he : importStart H w name dyn with
    | mk r w1 =>
      rw [he] at hs
      have simple : ∀ r, ∃ g', Follows H w.env (traceOf H (Spec.events H (k r) w1)) g g' ∧
          RandRel ((k r).run H w1).2 g' ∧ ((k r).run H w1).2.env = w.env := by
        intro r
        obtain ⟨g', f1, f2, f3⟩ := ihk r w1 g (hs.rel h)
        refine ⟨g', ?_, f2, f3.trans hs.2.2⟩
        rw [hs.2.2] at f1; exact f1
      cases r with
      | error e => simpa [traceOf] using simple (.error e)
      | ok f =>
        cases f with
        | missing => simpa [traceOf] using simple (.error .importError)
        | host => simpa [traceOf] using simple (.ok .none)
        | loaded => simpa [traceOf] using simple (.ok .none)
        | contract =>
          obtain ⟨g1, b1, b2, b3⟩ := ihb w1 g (hs.rel h)
          cases hb : body.run H w1 with
          | mk rb w2 =>
            rw [hb] at b2 b3
            rw [hs.2.2] at b1
            cases rb with
            | error e =>
              obtain ⟨g', f1, f2, f3⟩ := ihk (.error e) w2 g1 b2
              have e1 : w2.env = w.env := b3.trans hs.2.2
              simp only [hb]
              refine ⟨g', ?_, f2, f3.trans e1⟩
              rw [e1] at f1
              have := b1.append f1
              simpa [traceOf, hb] using this
            | ok v =>
              obtain ⟨g', f1, f2, f3⟩ := ihk (.ok .none) (w2.addLoaded name) g1 b2
              have e1 : (w2.addLoaded name).env = w.env := b3.trans hs.2.2
              simp only [hb]
              refine ⟨g', ?_, f2, f3.trans e1⟩
              rw [e1] at f1
              have := b1.append f1
              simpa [traceOf, hb] using this

theorem seedText_congr (H : Host) {env env' : Dict Str PyVal} {salt : Option Str}
    (h1 : dget env (py! "block_num") = dget env' (py! "block_num"))
    (h2 : dget env (py! "block_hash") = dget env' (py! "block_hash"))
    (h3 : dget env (py! "__input_hash") = dget env' (py! "__input_hash"))
    (h4 : dget env (py! "AUXILIARY_SALT") = dget env' (py! "AUXILIARY_SALT"))
    (h5 : ∀ k, salt = some k → dget env k = dget env' k) : seedText H env salt = seedText H env' salt := by
  unfold seedText
  cases salt with
  | none => rw [h1, h2, h3, h4]
  | some k => simp only [h1, h2, h3, h4, h5 k rfl]

theorem answers_congr (H : Host) {env env' : Dict Str PyVal} : ∀ (as : List Action) (g : Spec.Gen),
    (∀ k, Spec.looksAt as k → dget env k = dget env' k) → Spec.answers H env g as = Spec.answers H env' g as := by
  intro as
  induction as with
  | nil => intro g _; rfl
  | cons a as ih =>
    intro g h
    have hh : ∀ k, Spec.looksAt as k → dget env k = dget env' k := by
      intro k hk
      refine h k ?_
      unfold Spec.looksAt at hk ⊢
      rcases hk with hk | hk | hk | hk | hk <;> simp [hk]
    have ha : Spec.answer H env g a = Spec.answer H env' g a := by
      cases a with
      | seed salt =>
        have : seedText H env salt = seedText H env' salt := by
          refine seedText_congr H ?_ ?_ ?_ ?_ ?_
          · exact h _ (.inl rfl)
          · exact h _ (.inr (.inl rfl))
          · exact h _ (.inr (.inr (.inl rfl)))
          · exact h _ (.inr (.inr (.inr (.inl rfl))))
          · rintro k rfl; exact h _ (.inr (.inr (.inr (.inr (by simp)))))
        simp only [Spec.answer, seedOf_congr H this]
      | _ => rfl
    simp only [Spec.answers, ha, ih _ hh]

end Verif
