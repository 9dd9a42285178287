import Verif.Spec.SourceNode
import Verif.Proofs.Node4
import Verif.Proofs.Source5
import Verif.Props.Source
/-! # Nodes run their sources: code -/
namespace Verif.Lang
open Verif Verif.Spec

/-- A transaction depends on its code through the top level and the function called with its arguments. -/
theorem execute_code {H : Host} {cfg : ExecCfg} {tx : Tx} {code : Code} (htop : tx.code.top = code.top)
    (hfn : (tx.code.fn = none ∧ code.fn = none) ∨ ∃ f g, tx.code.fn = some f ∧ code.fn = some g ∧ f.1 = g.1 ∧
      ∀ kwargs, fixKwargs tx.kwargs = .ok kwargs → f.2 kwargs = g.2 kwargs) (w : World) :
    execute H cfg tx w = execute H cfg { tx with code := code } w := by
  have hinv : ∀ metering host w, invoke H tx metering host w = invoke H { tx with code := code } metering host w := by
    intro metering host w
    unfold invoke
    split
    · rfl
    · rcases hfn with ⟨h1, h2⟩ | ⟨f, g, h1, h2, h3, h4⟩
      · rw [h1, h2]
      · rw [h1, h2]
        dsimp only
        cases hk : fixKwargs tx.kwargs with
        | error e => rfl
        | ok kwargs =>
          dsimp only
          unfold callEntry
          rw [h3, h4 _ hk]
          rfl
  have hload : ∀ w, loadEntry H tx w = loadEntry H { tx with code := code } w := by
    intro w
    unfold loadEntry
    dsimp only
    rw [htop]
  have hatt : ∀ metering w, attempt H cfg tx metering w = attempt H cfg { tx with code := code } metering w := by
    intro metering w
    unfold attempt
    simp only [hload, hinv]
    rfl
  unfold execute tryBlock
  simp only [hatt]
  rfl

theorem submitContract_top {H : Host} {T : Toolchain} {name code : Str} {owner : PyVal} {top top' : Prog}
    (h : ∀ t, T.parse name code = .ok t → top = top') : submitContract H T name code owner top = submitContract H T name code owner top' := by
  unfold submitContract submit
  cases hp : T.parse name code with
  | error e => rfl
  | ok t => rw [h t hp]

/-- The constructor is what is found under its name. -/
theorem constructor_get {D : Data} {own : List Str} {c : Str} : ∀ {m : Module} (i : Nat),
    (∀ t ∈ m, (∀ f, t ≠ .def f) → t.bound ≠ Src.constructorName) → (∀ f, Top.def f ∈ m → f.name ≠ Src.constructorName) →
    Dict.get? (Src.bindings D own c i m).reverse Src.constructorName = (Src.constructorFrom i m).map fun i => .ok (.fn c i)
  | [], i, _, _ => rfl
  | t :: m, i, h1, h2 => by
    have ih := fun i => constructor_get (D := D) (own := own) (c := c) (m := m) i (fun t ht => h1 t (List.mem_cons_of_mem _ ht))
      (fun f hf => h2 f (List.mem_cons_of_mem _ hf))
    have hone : ∀ (k : Str) (v : Except PyErr Val), k ≠ Src.constructorName → Dict.get? [(k, v)] Src.constructorName = none := fun k v h => by
      rw [Dict.get?_cons, if_neg h]; rfl
    cases t with
    | «import» n a =>
      have h : a.getD n ≠ _ := h1 _ List.mem_cons_self (by simp)
      rw [Src.bindings, List.reverse_cons, Dict.get?_append, ih, hone _ _ h]
      simp [Src.constructorFrom]
    | decl x cls kws =>
      have h : x ≠ _ := h1 _ List.mem_cons_self (by simp)
      rw [Src.bindings, List.reverse_cons, Dict.get?_append, ih, hone _ _ h]
      simp [Src.constructorFrom]
    | assign x e =>
      have h : x ≠ _ := h1 _ List.mem_cons_self (by simp)
      rw [Src.bindings, List.reverse_cons, Dict.get?_append, ih, hone _ _ h]
      simp [Src.constructorFrom]
    | «def» f =>
      rw [Src.bindings, List.reverse_cons, Dict.get?_append, ih, Src.constructorFrom]
      unfold Src.funName
      split
      · rw [Dict.get?_cons, if_pos rfl]
        cases Src.constructorFrom (i + 1) m <;> rfl
      · rw [hone _ _ (h2 f List.mem_cons_self)]
        simp

theorem constructor_member {I : PyInfo} {c : Str} {m : Module} (ha : Accepted I c (moduleAst m)) (hw : WellNamed m) (hf : Fits c m) {S : Chain}
    (h : S.code c = some m) : Src.member S c Src.constructorName = (Src.constructorFrom 0 m).map fun i => .ok (.fn c i) := by
  unfold Src.member
  rw [h]
  have hp : Src.constructorName ∉ privateNames m := fun hx => absurd rfl (hf.scope.plain _ ((hf.priv _).2 hx))
  simp only [Option.bind, hp, if_false]
  refine constructor_get 0 (fun t ht hnd e => ?_) fun f hf' e => hw.functions f hf' (by rw [e]; rfl)
  have hname : ∀ {t : Top} {id : Str}, t ∈ m → Ast.name id ∈ t.toAst.nodes → Plain id := fun ht hn =>
    ((C39_names ha).1 _ (top_nodes ht hn)).1.1
  cases t with
  | «import» n a => exact (hw.imports n a ht).1 (by rw [show a.getD n = _ from e]; rfl)
  | decl x cls kws =>
    refine hname (id := x) ht ?_ (by rw [show x = _ from e]; rfl)
    simp [Top.toAst, Ast.nodes, nodesAll]
  | assign x e' =>
    refine hname (id := x) ht ?_ (by rw [show x = _ from e]; rfl)
    simp [Top.toAst, Ast.nodes, nodesAll]
  | «def» f => exact hnd f rfl

theorem arguments_eq (args : PyVal) : constructorArgs args = Src.arguments args := by
  unfold constructorArgs Src.arguments
  cases args <;> try rfl
  rename_i kvs
  dsimp only
  induction kvs with
  | nil => rfl
  | cons p kvs ih =>
    obtain ⟨k, v⟩ := p
    rw [List.mapM_cons, ih]
    cases k <;> try rfl
    simp only [List.all_cons, Bool.true_and, List.filterMap_cons]
    split <;> rfl

/-- Deploying the compiled form is deploying the source. -/
theorem deploy_comp {I : PyInfo} {S C : Chain} (hC : Compiles I S C) (hf : ∀ c m, S.code c = some m → Fits c m)
    (hb : S.D.builtin (py! "decimal") = true) {name : Str} {m : Module} (h : S.code name = some m) (hw : WellNamed m) (n : Nat) (args : PyVal) :
    C.deploy n name args = Src.deploy S n name m args := by
  have hnow : C.boundNow name = Src.boundNow S name := by
    unfold Chain.boundNow Src.boundNow
    rw [member_comp hC hf name (.inl (by decide))]
    generalize Src.member S name (py! "now") = r
    rcases r with _ | (e | v)
    · rfl
    · rfl
    · cases v <;> rfl
  unfold Chain.deploy Src.deploy
  rw [top_comp hC hf, hnow]
  congr 1
  funext r
  congr 1
  funext _
  rw [member_comp hC hf name (.inr rfl), show py! "____" = Src.constructorName from rfl,
    constructor_member (hC.accepted _ _ h) hw (hf _ _ h) h]
  cases Src.constructorFrom 0 m with
  | none => rfl
  | some i => simp only [Option.map_some, call_comp hC hf hb, arguments_eq]

/-! ### The node's chain -/

theorem Runs.compiles {N : Node} {src : Sources} {d : Driver} (h : Runs N src d) : Compiles N.info (N.sources src) (N.chain d) where
  data := rfl
  out := rfl
  code := h.code
  accepted := h.accepted
  cost c m s hm := by
    have hm : src c = some m := hm
    unfold Node.sources
    simp only [hm]
    rfl
  topCost c m t hm := by
    have hm : src c = some m := hm
    unfold Node.sources
    simp only [hm]
    rfl

theorem Runs.fits {N : Node} {src : Sources} {d : Driver} (h : Runs N src d) : ∀ c m, (N.sources src).code c = some m → Fits c m := fun c m hm =>
  Lang.fits (h.accepted c m hm) (h.disciplined c m hm).mentions (h.named c m hm)

theorem plus_compiles {N : Node} {src : Sources} {d : Driver} (h : Runs N src d) {name : Str} {m : Module} (ha : Accepted N.info name (moduleAst m)) :
    Compiles N.info (N.sources (src.plus name m)) ((N.chain d).plus name (compileModule name m)) where
  data := rfl
  out := rfl
  code c := by
    show (if c = name then _ else _) = Option.map _ (if c = name then _ else _)
    split
    · rename_i e; subst e; rfl
    · exact h.code c
  accepted c m' hm := by
    change (if c = name then _ else _) = _ at hm
    split at hm
    · rename_i e; subst e; cases hm; exact ha
    · exact h.accepted c m' hm
  cost c m' s hm := by
    have hm : src.plus name m c = some m' := hm
    unfold Node.sources
    simp only [hm]
    rfl
  topCost c m' t hm := by
    have hm : src.plus name m c = some m' := hm
    unfold Node.sources
    simp only [hm]
    rfl

theorem plus_fits {N : Node} {src : Sources} {d : Driver} (h : Runs N src d) {name : Str} {m : Module} (ha : Accepted N.info name (moduleAst m))
    (hd : Disciplined m) (hw : WellNamed m) : ∀ c m', (N.sources (src.plus name m)).code c = some m' → Fits c m' := by
  intro c m' hm
  change (if c = name then _ else _) = _ at hm
  split at hm
  · rename_i e; subst e; cases hm; exact Lang.fits ha hd.mentions hw
  · exact h.fits c m' hm

/-- A transaction on a node is the transaction on its sources. -/
theorem execute_sources {N : Node} (hb : N.D.builtin (py! "decimal") = true) {H : Host} {src : Sources} {d : Driver} (h : Runs N src d)
    {n : Nat} {tx : Tx} (hcode : tx.code = N.codeFor H n d tx.contract tx.function) (hpub : startsWith tx.function (py! "__") = false)
    (hfair : tx.contract = py! "submission" → ∀ kwargs, fixKwargs tx.kwargs = .ok kwargs → FairArgs N kwargs) (hnamed : NamedTx N tx)
    (cfg : ExecCfg) (w : World) :
    execute H cfg tx w = execute H cfg { tx with code := N.sourceFor H n src tx.contract tx.function } w := by
  by_cases hsub : tx.contract = py! "submission"
  · refine execute_code ?_ ?_ w
    · rw [hcode, hsub]; unfold Node.codeFor Node.sourceFor; rw [if_pos rfl, if_pos rfl]
    · rw [hcode, hsub]
      unfold Node.codeFor Node.sourceFor
      rw [if_pos rfl, if_pos rfl]
      dsimp only
      by_cases h1 : tx.function = py! "submit_contract"
      · rw [if_pos h1, if_pos h1]
        refine .inr ⟨_, _, rfl, rfl, rfl, fun kwargs hk => ?_⟩
        obtain ⟨_, f2, _⟩ := hfair hsub kwargs hk
        have hn := fun source m => hnamed hsub kwargs source m hk
        simp only [submitFn, bindParams]
        split
        swap
        · rfl
        split
        · rename_i name source h1 h2
          refine submitContract_top fun t ht => ?_
          have h2' : dget kwargs (py! "code") = .str source := by rw [← h2]; simp [dget, Dict.get?]
          change N.parse name source = .ok t at ht
          unfold Node.parse at ht
          unfold Node.deploy
          cases hm : N.read source with
          | none => rw [hm] at ht
          | some m =>
            rw [hm] at ht
            obtain ⟨t', ht', rfl⟩ := map_ok ht
            have hd := (f2 source m h2' hm).1
            have hw := hn source m h2' hm
            exact deploy_comp (plus_compiles h ⟨t', ht'⟩) (plus_fits h ⟨t', ht'⟩ hd hw) hb
              (show (if name = name then some m else _) = some m from if_pos rfl) hw n _
        · rfl
      · rw [if_neg h1, if_neg h1]
        by_cases h2 : tx.function = py! "change_developer"
        · rw [if_pos h2]
          exact .inr ⟨_, _, rfl, rfl, rfl, fun _ _ => rfl⟩
        · rw [if_neg h2]
          exact .inl ⟨rfl, rfl⟩
  · have e : tx.code = N.sourceFor H n src tx.contract tx.function := by
      rw [hcode]
      unfold Node.codeFor Node.sourceFor
      rw [if_neg hsub, if_neg hsub]
      exact C94_code h.compiles (fun c m hm => ⟨(h.disciplined c m hm).mentions, h.named c m hm⟩) hb n tx.contract tx.function (.inl hpub)
    rw [← e]

end Verif.Lang
