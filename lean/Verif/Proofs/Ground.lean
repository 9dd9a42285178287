import Verif.Props.Imports
import Verif.Props.Deploy
import Verif.Props.Finish
/-!
# What a module that has been loaded imports
-/
namespace Verif.Lang
open Verif

theorem api_ok {H : Host} {a : Action} {k : PyVal → Prog} {w w' : World} {v : PyVal} (h : (api a k).run H w = (.ok v, w')) :
    ∃ u w1, a.run H w = (.ok u, w1) ∧ (k u).run H w1 = (.ok v, w') := by
  simp only [api, Prog.run] at h
  cases hr : a.run H w with
  | mk r w1 =>
    rw [hr] at h
    cases r with
    | error e => cases h
    | ok u => exact ⟨u, w1, rfl, h⟩

theorem orRaise_ok {α : Type} {H : Host} {r : Except PyErr α} {k : α → Prog} {w w' : World} {v : PyVal} (h : (orRaise r k).run H w = (.ok v, w')) :
    ∃ u, r = .ok u ∧ (k u).run H w = (.ok v, w') := by
  cases r with
  | error e => cases h
  | ok u => exact ⟨u, rfl, h⟩

/-- Imports are restricted, and what is loaded is grounded. -/
def LoadsGrounded (code : Str → Option Module) (w : World) : Prop := w.restricted = true ∧ ∀ x ∈ w.loaded, Grounded code x

theorem LoadsGrounded.act {code : Str → Option Module} {H : Host} {w w1 : World} {a : Action} {u : PyVal} (h : LoadsGrounded code w)
    (hr : a.run H w = (.ok u, w1)) : LoadsGrounded code w1 := by
  have := Action.run_world H w a
  rw [hr] at this
  exact ⟨this.2.2.2.2.1.trans h.1, by rw [this.2.2.2.1]; exact h.2⟩

theorem built_ok {code : Str → Option Module} {H : Host} {v : Val} {k : Prog} {w w' : World} {r : PyVal} (hw : LoadsGrounded code w)
    (h : (built v k).run H w = (.ok r, w')) : ∃ w1, LoadsGrounded code w1 ∧ k.run H w1 = (.ok r, w') := by
  unfold built at h
  split at h
  · obtain ⟨u, w1, h1, h2⟩ := api_ok h
    exact ⟨w1, hw.act h1, h2⟩
  · exact ⟨w, hw, h⟩

theorem topProg_grounded {code : Str → Option Module} {H : Host} {load : Str → Prog} {D : Data} {own : List Str} {cost : Top → Nat × Nat}
    (hl : ∀ d w v w', LoadsGrounded code w → (load d).run H w = (.ok v, w') → Grounded code d ∧ LoadsGrounded code w') :
    ∀ (m : Module) {w w' : World} {v : PyVal}, LoadsGrounded code w → (topProg load D own cost m).run H w = (.ok v, w') →
      (∀ d a, Top.import d a ∈ m → Grounded code d) ∧ LoadsGrounded code w'
  | [], w, w', v, hw, h => by cases h; exact ⟨fun _ _ h => (by cases h), hw⟩
  | t :: m, w, w', v, hw, h => by
    rw [topProg] at h
    obtain ⟨u, w1, h1, h2⟩ := api_ok h
    have hw1 := hw.act h1
    suffices hs : (∀ d a, t = Top.import d a → Grounded code d) ∧ ∃ w2, LoadsGrounded code w2 ∧ (topProg load D own cost m).run H w2 = (.ok v, w') by
      obtain ⟨hs, w2, hw2, h3⟩ := hs
      obtain ⟨i1, i2⟩ := topProg_grounded hl m hw2 h3
      refine ⟨fun d a hd => ?_, i2⟩
      rcases List.mem_cons.1 hd with hd | hd
      · exact hs d a hd.symm
      · exact i1 d a hd
    cases t with
    | decl x cls kws =>
      obtain ⟨v', _, h3⟩ := orRaise_ok h2
      obtain ⟨w2, hw2, h4⟩ := built_ok hw1 h3
      exact ⟨fun _ _ h => (by cases h), w2, hw2, h4⟩
    | assign x e =>
      obtain ⟨v', _, h3⟩ := orRaise_ok h2
      exact ⟨fun _ _ h => (by cases h), w1, hw1, h3⟩
    | «def» f =>
      obtain ⟨v', _, h3⟩ := orRaise_ok h2
      exact ⟨fun _ _ h => (by cases h), w1, hw1, h3⟩
    | «import» n a =>
      simp only [topStep, Prog.run] at h2
      have hfr := importStart_frame H w1 n false
      cases hi : importStart H w1 n false with
      | mk r w2 =>
        rw [hi] at h2 hfr
        obtain ⟨rd, hfr⟩ := hfr
        have hw2 : LoadsGrounded code w2 := by
          simp only at hfr
          rw [hfr]
          exact hw1
        cases r with
        | error e => cases h2
        | ok f =>
          rcases restricted_import hw1.1 hi with ⟨rfl, hmem⟩ | ⟨rfl, _⟩
          · refine ⟨fun d a' h => ?_, w2, hw2, h2⟩
            cases h
            exact hw1.2 _ hmem
          · simp only at h2
            cases hb : (load n).run H w2 with
            | mk r w3 =>
              rw [hb] at h2
              cases r with
              | error e => cases h2
              | ok v3 =>
                obtain ⟨i1, i2⟩ := hl n w2 v3 w3 hw2 hb
                refine ⟨fun d a' h => (by cases h; exact i1), w3.addLoaded n, ⟨i2.1, fun x hx => ?_⟩, h2⟩
                rcases List.mem_cons.1 hx with rfl | hx
                · exact i1
                · exact i2.2 x hx

/-- A module that has been loaded is grounded. -/
theorem top_grounded (C : Chain) (H : Host) : ∀ (n : Nat) (c : Str) (w : World) (v : PyVal) (w' : World), LoadsGrounded C.code w →
    (C.top n c).run H w = (.ok v, w') → Grounded C.code c ∧ LoadsGrounded C.code w'
  | 0, _, _, _, _, _, h => by cases h
  | n + 1, c, w, v, w', hw, h => by
    rw [Chain.top] at h
    cases hc : C.code c with
    | none => rw [hc] at h; cases h
    | some m =>
      rw [hc] at h
      obtain ⟨i1, i2⟩ := topProg_grounded (top_grounded C H n) m hw h
      refine ⟨.mk (by rw [hc]; simp) fun d ⟨m', a, h1, h2⟩ => ?_, i2⟩
      rw [hc] at h1
      cases h1
      exact i1 d a h2

theorem deploy_grounded {C : Chain} {H : Host} {n : Nat} {name : Str} {args : PyVal} {w w' : World} {v : PyVal} (hw : LoadsGrounded C.code w)
    (h : (C.deploy n name args).run H w = (.ok v, w')) : Grounded C.code name := by
  unfold Chain.deploy at h
  rw [Prog.run_bind] at h
  cases hr : (C.top n name).run H w with
  | mk r w1 =>
    rw [hr] at h
    obtain ⟨u, hu, _⟩ := orRaise_ok h
    cases hu
    exact (top_grounded C H n name w u w1 hw hr).1

/-- The world in which `submit_contract` of a transaction that succeeds starts. -/
theorem submit_world {H : Host} {cfg : ExecCfg} {tx : Tx} {w w' : World} {o : Output} {F : Dict Str PyVal → Prog} {kw : Dict Str PyVal}
    (hhost : H.imported tx.contract = false ∧ H.importable tx.contract = false) (htop : tx.code.top = .ret .none)
    (hfn : tx.code.fn = some (true, F)) (hkw : fixKwargs tx.kwargs = .ok kw)
    (h : execute H cfg tx w = (.ok o, w')) (hs : o.status = 0) :
    ∃ w0 v w4, (F kw).run H w0 = (.ok v, w4) ∧ w0.restricted = true ∧ ∀ x ∈ w0.loaded, x = tx.contract ∨ x ∈ w.loaded := by
  obtain ⟨v, w1, ha, hres, _⟩ := execute_success h hs
  rcases attempt_ok ha with ⟨hh, _⟩ | ⟨w0, w2, p, hp, hf, hrun⟩
  · rw [hhost.1, hhost.2] at hh; simp at hh
  · obtain ⟨r, own, hw0⟩ := txPrepared_frame hp
    obtain ⟨fn, kwargs, w3, sub, hfn', hkw', rfl, rfl, _, hw3⟩ := fnWorld_cases hf
    rw [hfn] at hfn'
    cases hfn'
    rw [hkw] at hkw'
    cases hkw'
    have hl : w3.base = w0.base ∧ ∀ x ∈ w3.loaded, x = tx.contract ∨ x ∈ w.loaded := by
      rcases hw3 with ⟨r, rfl, _⟩ | ⟨wt, v, wv, ht, hr, rfl⟩
      · exact ⟨rfl, fun x hx => .inr (by rw [hw0] at hx; exact hx)⟩
      · rw [htop] at hr
        cases hr
        obtain ⟨r', hft⟩ := topWorld_frame ht
        rw [hft]
        refine ⟨rfl, fun x hx => ?_⟩
        rcases List.mem_cons.1 hx with hx | hx
        · exact .inl hx
        · exact .inr (by rw [hw0] at hx; exact hx)
    simp only [Spec.entryProg, if_true] at hrun
    simp only [Prog.run, enter] at hrun
    generalize hws : setUp tx (tx.metered cfg) { w3 with base := { w3.base with submission := sub } } = ws at hrun
    have hthis : ws.current.this = some tx.contract := by
      have hcur : ws.current = { w3.base with submission := sub } := by rw [← hws]; rfl
      rw [hcur, hl.1, hw0]; rfl
    rw [if_neg (by rw [hthis]; simp)] at hrun
    have hins : ws.insState = ws := by rw [← hws]; rfl
    rw [hins] at hrun
    simp only at hrun
    cases hb : (F kw).run H ws with
    | mk r w4 =>
      rw [hb] at hrun
      cases r with
      | error e => cases hrun
      | ok v' => exact ⟨ws, v', w4, hb, by rw [← hws]; rfl, by rw [← hws]; exact hl.2⟩

/-- What a successful submission deploys is grounded. -/
theorem deployed_grounded {N : Node} (hN : RoundTrip N) {H : Host} {cfg : ExecCfg} {tx : Tx} {w w' : World} {o : Output}
    (hg : GenuineState N w.driver) (hby : w.driver.bypass = false) (ht : NodeTx N H w.driver tx) (hcon : tx.contract = py! "submission")
    (hfun : tx.function = py! "submit_contract")
    (hhost : H.imported (py! "submission") = false ∧ H.importable (py! "submission") = false) (hfee : PlainFees cfg)
    (hload : w.loaded = []) (he : execute H cfg tx w = (.ok o, w')) (hs : o.status = 0) :
    ∃ name, N.code w.driver name = none ∧ N.code w'.driver name ≠ none ∧ (∀ c, c ≠ name → N.code w'.driver c = N.code w.driver c) ∧ Grounded (N.code w'.driver) name := by
  obtain ⟨kwargs, name, source, m, _, hkw, h1, h2, hm, _, hfree, hafter, _⟩ := C97_deployed hN hg hby ht hcon hfun hhost hfee he hs
  refine ⟨name, hfree, by rw [hafter name, if_pos rfl]; simp, fun c hc => by rw [hafter c, if_neg hc], ?_⟩
  have hcode' : N.code w'.driver = ((N.chain w.driver).plus name (compileModule name m)).code := by
    funext c
    exact hafter c
  rw [hcode']
  obtain ⟨n, hcode⟩ := ht.code
  obtain ⟨fn, kwargs', hf, hkw', hne⟩ := success_call (by rw [hcon]; exact hhost) he hs
  rw [hkw] at hkw'
  cases hkw'
  have hf' := hf
  rw [hcode, hcon, hfun] at hf'
  obtain ⟨hwr, ⟨e, h⟩ | ⟨name', source', h1', h2', h⟩⟩ := submit_call hf' kwargs
  · exact absurd h (hne e)
  rw [h1] at h1'
  cases h1'
  rw [h2] at h2'
  cases h2'
  obtain ⟨b, F⟩ := fn
  cases hwr
  have htop : tx.code.top = .ret .none := by
    rw [hcode, hcon]; unfold Node.codeFor; rw [if_pos rfl]
  obtain ⟨w0, v, w4, hrun, hr, hl⟩ := submit_world (by rw [hcon]; exact hhost) htop hf hkw he hs
  simp only at h
  rw [h] at hrun
  obtain ⟨text, answer, r, w1, hp, hdep, _⟩ := submit_split hrun
  unfold Node.deploy at hdep
  rw [hm] at hdep
  refine deploy_grounded (C := (N.chain w.driver).plus name (compileModule name m)) ⟨?_, fun x hx => ?_⟩ hdep
  · exact hr
  rcases hl x hx with hx | hx
  · rw [hx, hcon]; exact .submission
  · rw [hload] at hx; cases hx

end Verif.Lang
