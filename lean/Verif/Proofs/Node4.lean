import Verif.Proofs.Node3
/-! # Nodes: one contract on it -/
namespace Verif.Lang
open Verif Verif.Spec

/-- What is run for contract `c`: its exported functions; submissions under its name; changes of its developer. -/
def GuardFn (N : Node) (H : Host) (c : Str) (mod : Module) (b : Prog) : Prop :=
  (Exported N.D c mod b ∧ b.All (UserAction NoColon)) ∨ (∃ code owner top, b = submitContract H N.tools c code owner top) ∨
    ∃ new, b = changeDeveloper c new

theorem outside_submits {c : Str} {F : Prog → Prop} (hc : '.' ∉ c) {name : Str} (hn : '.' ∉ name) (hne : name ≠ c) :
    Submits (Outside c F) name (fun _ => True) := by
  have hact : ∀ {a : Action} {f : PyVal → Prog}, Spares c a → (∀ v, Outside c F (f v)) → Outside c F (perform a f) := fun h hf =>
    ⟨h, fun r => by cases r with | ok v => exact hf v | error e => exact trivial⟩
  have hk : ∀ {s}, ¬ Under c (makeKey name s) := by
    rintro s ⟨t, h⟩
    refine hne ?_
    unfold makeKey at h
    rw [List.append_assoc] at h
    have := congrArg (List.takeWhile (· ≠ '.')) h
    have htw : ∀ (x y : Str), '.' ∉ x → List.takeWhile (fun a => decide (a ≠ '.')) (x ++ '.' :: y) = x := by
      intro x y hx
      rw [List.takeWhile_append_of_pos (by intro a ha; simp; rintro rfl; exact hx ha)]
      simp
    have e : List.takeWhile (fun a => decide (a ≠ '.')) (c ++ (['.'] ++ t)) = c := htw c t hc
    rw [e, htw name s hn] at this
    exact this.symm
  exact
    { ret := fun _ => trivial
      raise := fun _ => trivial
      get := fun h => hact trivial h
      caller := fun h => hact trivial h
      signer := fun h => hact trivial h
      env := fun h => hact trivial h
      compiled := fun _ h => hact hk h
      record := fun _ _ _ h => hact hk h
      bind := fun hp hf => bind_outside hp fun r => by cases r with | ok v => exact hf v | error e => exact trivial }

/-- The code of a contract that has some. -/
theorem code_of {N : Node} {d : Driver} {c : Str} {v0 : PyVal} {b0 : List (Fin 256)} {mod : Module} (hc : Spec.Plain c) (hs : c ≠ py! "submission")
    (hcode : d.find (codeKey c) = .ok v0) (hv : v0 ≠ .none) (hcomp : d.find (compiledKey c) = .ok (.bytes b0)) (hload : N.load b0 = some mod) :
    N.code d c = some mod := by
  unfold Node.code
  rw [if_neg (by rintro (h | h | h | h | h) <;> first | exact hs h | exact hc.1 h | exact hc.2.1 h | exact hc.2.2.1 h | exact hc.2.2.2 h),
    hcode, hcomp]
  cases v0 <;> first | exact hload | exact (hv rfl).elim

theorem nodeTx_outside {N : Node} {H : Host} {d : Driver} (hg : GenuineState N d) {tx : Tx} (ht : NodeTx N H d tx) {c : Str} {mod : Module}
    {v0 : PyVal} {b0 : List (Fin 256)} (hc : Spec.Plain c) (hcs : c ≠ py! "submission") (hcode0 : d.find (codeKey c) = .ok v0) (hv0 : v0 ≠ .none)
    (hcomp0 : d.find (compiledKey c) = .ok (.bytes b0)) (hload : N.load b0 = some mod) :
    TxOutside c (GuardFn N H c mod) tx := by
  obtain ⟨src, hD, hs⟩ := chain_deployed hg
  obtain ⟨mc, hmc, rfl⟩ : ∃ mc, src c = some mc ∧ mod = compileModule c mc := by
    have h : (N.chain d).code c = _ := code_of hc hcs hcode0 hv0 hcomp0 hload
    rw [hD.compiled] at h
    obtain ⟨mc, h1, h2⟩ := Option.map_eq_some_iff.1 h
    exact ⟨mc, h1, h2.symm⟩
  have hany := fun k => nodeTx_any hg ht k
  refine
    { top := ?_
      fn := ?_
      topNoCatch := (hany []).1.1
      fnNoCatch := fun fn hf kwargs => ((hany []).2 fn kwargs hf).1
      noMutate := fun k => ⟨(hany _).1.2, fun fn hf kwargs => ((hany _).2 fn kwargs hf).2⟩ }
  all_goals by_cases hsub : tx.contract = py! "submission"
  · obtain ⟨n, hcode⟩ := ht.code
    rw [hcode, hsub]
    unfold Node.codeFor
    rw [if_pos rfl]
    exact trivial
  · obtain ⟨n, hcode⟩ := ht.code
    have hlt : LangTx N.D c mc tx := ⟨N.info, src, N.chain d, n, rfl, hD, fun c m h => (hs c m h).1, hmc, ht.pub, by
      rw [hcode]; unfold Node.codeFor; rw [if_neg hsub]⟩
    exact Outside.mono (fun b h => .inl h) (Outside.and_all (C93_transaction hlt).top (langTx_user hg ht hsub).1)
  · intro fn kwargs hf hk
    obtain ⟨n, hcode⟩ := ht.code
    have hf' := hf
    rw [hcode, hsub] at hf'
    obtain ⟨f1, f2, f3⟩ := ht.fair hsub kwargs hk
    obtain ⟨e1, h⟩ := submission_cases hf' kwargs
    unfold entryProg
    rw [e1, if_pos rfl]
    refine ⟨fun e => (hcs (e.symm.trans hsub)).elim, fun _ => ?_, fun r => by cases r <;> exact trivial⟩
    rcases h with ⟨e, h⟩ | ⟨name, source, owner, args, h1, h2, _, h⟩ | ⟨contract, new, h1, h⟩
    · rw [h]; exact .inr trivial
    · rw [h]
      by_cases hne : name = c
      · subst hne; exact .inl (.inr (.inl ⟨_, _, _, rfl⟩))
      refine .inr (submitContract_P (outside_submits hc.2.1 (f1 name h1).1.2.1 hne) fun t hp => ⟨fun _ _ => trivial, ?_⟩)
      change N.parse name source = .ok t at hp
      unfold Node.parse at hp
      split at hp
      · cases hp
      rename_i m hm
      obtain ⟨t', ht', rfl⟩ := map_ok hp
      have hdis := f2 source m h2 hm
      have hD' := plus_deployed hD (m := m) (name := name) ⟨t', ht'⟩ (f1 name h1).1.2.1
      have hr := outside_ready (D := N.D) rfl hD' (c := c) (mc := mc) (by
        intro c' m' h
        unfold plusSrc at h
        split at h
        · cases h; exact hdis.1
        · exact (hs c' m' h).1) (by unfold plusSrc; rw [if_neg (Ne.symm hne)]; exact hmc)
      have hout : Outside c (Exported N.D c (compileModule c mc)) (N.deploy n d name source args) := by
        unfold Node.deploy
        rw [hm]
        exact deploy_P (outside_closed N.D c _) (outside_allows c _) hr (fun i e => (hne e).elim)
          (fun hp hf => bind_outside hp fun r => by cases r with | ok v => exact hf v | error e => exact trivial)
          (fun c i h => plus_name hD' h) n args
      exact Outside.mono (fun b h => .inl h) (Outside.and_all hout (deploy_user hg (f1 name h1).1 hm ⟨t', ht'⟩ hdis.1 hdis.2 n args))
    · rw [h]
      by_cases hne : contract = c
      · subst hne; exact .inl (.inr (.inr ⟨_, rfl⟩))
      have hS := outside_submits (c := c) (F := GuardFn N H c (compileModule c mc)) hc.2.1 (f3 contract h1).2.1 hne
      refine .inr (hS.get fun dev => hS.caller fun caller => ?_)
      split
      · exact trivial
      · exact hS.record (s := py! "__developer__") (by decide) (by decide) (fun h => absurd h (by decide)) fun _ => trivial
  · intro fn kwargs hf hk
    obtain ⟨n, hcode⟩ := ht.code
    have hlt : LangTx N.D c mc tx := ⟨N.info, src, N.chain d, n, rfl, hD, fun c m h => (hs c m h).1, hmc, ht.pub, by
      rw [hcode]; unfold Node.codeFor; rw [if_neg hsub]⟩
    refine Outside.mono (fun b h => .inl h) (Outside.and_all ((C93_transaction hlt).fn fn kwargs hf hk) ?_)
    have hu := (langTx_user hg ht hsub).2 fn kwargs hf
    unfold entryProg
    split
    · exact ⟨hu, fun r => by cases r <;> exact trivial⟩
    · exact hu

/-- The code of `c` is `v0`, compiled to `b0`. -/
def CodeIs (v0 : PyVal) (b0 : List (Fin 256)) (s : Str → Except PyErr PyVal) : Prop :=
  s (py! "__code__") = .ok v0 ∧ s (py! "__compiled__") = .ok (.bytes b0)

theorem guardFn_keeps {N : Node} {H : Host} {c : Str} {v0 : PyVal} (hv0 : v0 ≠ .none) {b0 : List (Fin 256)} (hc : Spec.Plain c) {mod : Module}
    {R : (Str → Except PyErr PyVal) → (Str → Except PyErr PyVal) → Prop} (hdev : ∀ s t, SameButDeveloper s t → R s t)
    (hF : ∀ body, Exported N.D c mod body → KeepsState H c R body) {b : Prog} (hb : GuardFn N H c mod b) :
    KeepsState H c (fun s t => CodeIs v0 b0 s → CodeIs v0 b0 t ∧ R s t) b := by
  intro w v w' hrun hcode
  have e : ∀ d : Driver, stateOf c d (py! "__code__") = d.find (codeKey c) := fun d => by rw [stateOf_eq]; rfl
  have e' : ∀ d : Driver, stateOf c d (py! "__compiled__") = d.find (compiledKey c) := fun d => by rw [stateOf_eq]; rfl
  unfold CodeIs at hcode ⊢
  rw [e, e'] at hcode ⊢
  rcases hb with ⟨h1, h2⟩ | ⟨code, owner, top, rfl⟩ | ⟨new, rfl⟩
  · refine ⟨⟨?_, ?_⟩, hF b h1 w v w' hrun⟩
    · have := record_run (H := H) (n := c) (s := py! "__code__") hc.2.2.1 (by decide) b h2 w
      rw [hrun] at this
      exact this.trans hcode.1
    · have := record_run (H := H) (n := c) (s := py! "__compiled__") hc.2.2.1 (by decide) b h2 w
      rw [hrun] at this
      exact this.trans hcode.2
  · obtain ⟨e, r, h⟩ := C51_taken (H := H) (T := N.tools) (name := c) (code := code) (owner := owner) (top := top) (w := w)
      ⟨_, hcode.1, hv0⟩
    rw [h] at hrun
    cases hrun
  · obtain ⟨_, h2, h3, h4⟩ := C53_only_record hrun
    have hb := (Prog.run_outside H (changeDeveloper c new) w).sameDisk.2.1
    rw [hrun] at hb
    have hsame : ∀ n, n ≠ py! "__developer__" → w'.driver.find (c ++ '.' :: n) = w.driver.find (c ++ '.' :: n) := by
      intro n hn
      refine Driver.find_congr_at (h2 _ fun h => hn ?_) (by rw [h4]) h3 hb
      unfold developerKey makeKey at h
      simpa using h
    refine ⟨⟨(hsame _ (by decide)).trans hcode.1, (hsame _ (by decide)).trans hcode.2⟩, hdev _ _ fun n hn => ?_⟩
    rw [stateOf_eq, stateOf_eq]
    exact (hsame n hn).symm

end Verif.Lang
