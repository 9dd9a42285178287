import Verif.Proofs.Source4
/-!
# Compiled chains do what their sources say
-/
namespace Verif.Lang
open Verif Verif.Spec

section
variable {I : PyInfo} {S C : Chain} (hC : Compiles I S C) (hf : ∀ c m, S.code c = some m → Fits c m)
include hC hf

theorem code_none {c : Str} (h : S.code c = none) : C.code c = none := by
  rw [hC.code, h]
  rfl

theorem code_some {c : Str} {m : Module} (h : S.code c = some m) : C.code c = some (m.map (Top.comp (moduleAst m).names c)) := by
  rw [hC.code, h]
  rfl

theorem global_comp {c : Str} {m : Module} (h : S.code c = some m) {id : Str} (hid : OkId id) :
    C.global c (rename (moduleAst m).names id) = Src.global S c id := by
  unfold Chain.global Src.global
  rw [code_some hC hf h, h]
  simp only [Option.bind]
  rw [hC.data]
  exact globalOf_comp (hf c m h).scope (hf c m h).tops hid

theorem member_comp (c : Str) {a : Str} (ha : OkId a) : C.global c a = Src.member S c a := by
  cases h : S.code c with
  | none =>
    unfold Chain.global Src.member
    rw [code_none hC hf h, h]
    rfl
  | some m =>
    have fit := hf c m h
    have hb := bound_comp fit.tops
    by_cases hp : a ∈ privateNames m
    · have hn := (fit.priv a).2 hp
      have hplain := fit.scope.plain a hn
      unfold Chain.global Src.member
      rw [code_some hC hf h, h]
      simp only [Option.bind, hp, if_true]
      refine globalOf_unbound fun hm => ?_
      rw [hb] at hm
      obtain ⟨x, _, e⟩ := List.mem_map.1 hm
      obtain ⟨h1, rfl⟩ := (rename_eq_plain hplain).1 e
      exact h1 hn
    · have hn : a ∉ (moduleAst m).names := mt (fit.priv a).1 hp
      have := global_comp hC hf h ha
      rw [rename_out hn] at this
      rw [this]
      unfold Src.global Src.member
      rw [h]
      simp only [Option.bind, hp, if_false]

theorem wrapper_comp {c : Str} {m : Module} (h : S.code c = some m) :
    C.systemWrapper c (rename (moduleAst m).names (py! "__export")) = true := by
  have fit := hf c m h
  rw [rename_out (id := py! "__export") fun hn => fit.scope.plain _ hn rfl]
  have : C.global c (py! "__export") = none := by
    unfold Chain.global
    rw [code_some hC hf h]
    simp only [Option.bind]
    refine globalOf_unbound fun hm => ?_
    rw [bound_comp fit.tops] at hm
    obtain ⟨x, hx, e⟩ := List.mem_map.1 hm
    by_cases hn : x ∈ (moduleAst m).names
    · rw [rename_in hn] at e
      have : x = py! "export" := by simpa using e
      exact fit.wrapper (this ▸ hn)
    · rw [rename_out hn] at e
      rcases fit.scope.ok x hx with h | h
      · exact h (by rw [e]; rfl)
      · rw [h] at e
        exact absurd e (by decide)
  unfold Chain.systemWrapper
  rw [this]
  rfl

theorem topProg_comp {load : Str → Prog} {c : Str} {m : Module} (h : S.code c = some m) : ∀ {m' : Module}, (∀ t ∈ m', t ∈ m) →
    topProg load C.D ((m.map (Top.comp (moduleAst m).names c)).map Top.bound) (C.topCost c) (m'.map (Top.comp (moduleAst m).names c)) =
      Src.topProg load S.D (m.map Src.bound) c (S.topCost c) m'
  | [], _ => rfl
  | t :: m', hm => by
    have fit := hf c m h
    have ih := topProg_comp (load := load) h (m' := m') fun t ht => hm t (List.mem_cons_of_mem _ ht)
    have ht := fit.tops t (hm t List.mem_cons_self)
    simp only [List.map_cons, topProg, Src.topProg, hC.topCost c m t h]
    rw [ih, bound_comp fit.tops, hC.data]
    congr 1
    funext _
    cases t with
    | «import» n a => rfl
    | decl x cls kws => rw [comp_decl, topStep, Src.topStep, declVal_comp fit.scope (ht.cls _ _ _ rfl) ht.all]
    | assign x e => rw [Top.comp, topStep, Src.topStep, compAssigned_src ht.all, pureVal_comp fit.scope ht.all]
    | «def» f =>
      rw [Top.comp, topStep, Src.topStep]
      rw [defaultVals_comp c fit.scope ht.all.1]

theorem top_comp : ∀ (n : Nat) (c : Str), C.top n c = Src.top S n c
  | 0, _ => by rw [Chain.top, Src.top, hC.out]
  | n + 1, c => by
    simp only [Chain.top, Src.top]
    cases h : S.code c with
    | none => rw [code_none hC hf h]
    | some m =>
      rw [code_some hC hf h, show C.top n = Src.top S n from funext (top_comp n)]
      exact topProg_comp hC hf h fun _ h => h

variable (hb : S.D.builtin (py! "decimal") = true)
include hb

theorem twin {n : Nat} (hcall : C.call n = Src.call S n) {c : Str} {m : Module} (h : S.code c = some m) :
    Twin (moduleAst m).names c (Src.machine S n) (C.machine n) where
  plain := (hf c m h).scope.plain
  data := hC.data
  global := fun id hid => global_comp hC hf h hid
  unbound := by
    intro id hn hin
    change Src.global S c id = none at hn
    unfold Src.global at hn
    rw [h] at hn
    exact globalOf_bound hn ((hf c m h).scope.sub id hin)
  decimal := by
    change C.global c (py! "decimal") = none
    unfold Chain.global
    rw [code_some hC hf h]
    refine globalOf_unbound ?_
    rw [bound_comp (hf c m h).tops]
    exact (hf c m h).scope.decimal'
  builtin := hb
  member := fun c' a ha => member_comp hC hf c' (.inl ha)
  call := hcall
  top := funext (top_comp hC hf n)
  cost := fun s => hC.cost c m s h
  loops := rfl
  out := hC.out

/-- Running a function from its start. -/
theorem run_comp {n : Nat} (hcall : C.call n = Src.call S n) {c : Str} {m : Module} (h : S.code c = some m) {f : Fun} (hfm : f ∈ funs m)
    (vs : List Val) (ks : List (Str × Val)) {k k' : Flow → Locals → Prog} (hk : SameK (moduleAst m).names k k') :
    (orRaise ((f.comp (moduleAst m).names c).start C.D ((m.map (Top.comp (moduleAst m).names c)).map Top.bound) vs ks)
      fun l => execAll (C.machine n) c (f.comp (moduleAst m).names c).body l k') =
    orRaise (f.start S.D (m.map Src.bound) vs ks) fun l => execAll (Src.machine S n) c f.body l k := by
  have fit := hf c m h
  have ht := fit.tops _ (funs_mem.1 hfm)
  rw [bound_comp fit.tops, hC.data]
  rcases start_comp (D := S.D) (c := c) fit.scope ht.all.1 ht.all.2 (fit.args f (funs_mem.1 hfm)) (fit.decimal f (funs_mem.1 hfm)) vs ks with
    ⟨e, h1, h2⟩ | ⟨l, l', h1, h2, hs⟩
  · rw [h1, h2]
    rfl
  · rw [h1, h2]
    exact execAll_comp (twin hC hf hb hcall h) f.body ht.all.2 l l' k k' hs hk

theorem call_comp : ∀ n, C.call n = Src.call S n
  | 0 => by funext c i vs ks k; rw [Chain.call, Src.call, hC.out]
  | n + 1 => by
    have ih := call_comp n
    funext c i vs ks k
    simp only [Chain.call, Src.call]
    cases h : S.code c with
    | none => rw [code_none hC hf h]
    | some m =>
      rw [code_some hC hf h]
      simp only [funs_comp, List.getElem?_map]
      cases hi : (funs m)[i]? with
      | none => rfl
      | some f =>
        have hfm := List.mem_of_getElem? hi
        simp only [Option.map_some]
        cases hd : f.deco with
        | none =>
          have hd' : (f.comp (moduleAst m).names c).deco = .none := by simp [Fun.comp, hd]
          simp only [hd']
          exact run_comp hC hf hb ih h hfm vs ks fun _ _ _ _ => rfl
        | construct =>
          have hd' : (f.comp (moduleAst m).names c).deco = .none := by simp [Fun.comp, hd]
          simp only [hd']
          exact run_comp hC hf hb ih h hfm vs ks fun _ _ _ _ => rfl
        | «export» =>
          have hd' : (f.comp (moduleAst m).names c).deco = .wrapped (rename (moduleAst m).names (py! "__export")) c := by simp [Fun.comp, hd]
          simp only [hd', wrapper_comp hC hf h, if_true]
          congr 1
          exact run_comp hC hf hb ih h hfm vs ks fun _ _ _ _ => rfl
        | wrapped w d => exact ((hf c m h).deco f (funs_mem.1 hfm) w d hd).elim

theorem body_comp (n : Nat) {c : Str} {m : Module} (h : S.code c = some m) {f : Fun} (hfm : f ∈ funs m) (vs : List Val) (ks : List (Str × Val)) :
    C.body n c (m.map (Top.comp (moduleAst m).names c)) (f.comp (moduleAst m).names c) vs ks = Src.body S n c m f vs ks :=
  run_comp hC hf hb (call_comp hC hf hb n) h hfm vs ks fun _ _ _ _ => rfl

theorem entry_comp (n : Nat) (c : Str) {fname : Str} (hn : OkId fname) : C.entry n c fname = Src.entry S n c fname := by
  unfold Chain.entry Src.entry
  cases h : S.code c with
  | none => rw [code_none hC hf h]
  | some m =>
    rw [code_some hC hf h]
    have hm := member_comp hC hf c hn
    unfold Chain.global at hm
    rw [code_some hC hf h] at hm
    simp only [Option.bind] at hm
    simp only [hm]
    cases hmem : Src.member S c fname with
    | none => rfl
    | some r =>
    cases r with
    | error e => rfl
    | ok v =>
    cases v with
    | fn c0 i =>
      simp only [funs_comp, List.getElem?_map]
      cases hi : (funs m)[i]? with
      | none => rfl
      | some f =>
        have hfm := List.mem_of_getElem? hi
        simp only [Option.map_some]
        cases hd : f.deco with
        | none =>
          have hd' : (f.comp (moduleAst m).names c).deco = .none := by simp [Fun.comp, hd]
          simp only [hd', body_comp hC hf hb n h hfm]
          rfl
        | construct =>
          have hd' : (f.comp (moduleAst m).names c).deco = .none := by simp [Fun.comp, hd]
          simp only [hd', body_comp hC hf hb n h hfm]
          rfl
        | «export» =>
          have hd' : (f.comp (moduleAst m).names c).deco = .wrapped (rename (moduleAst m).names (py! "__export")) c := by simp [Fun.comp, hd]
          simp only [hd', wrapper_comp hC hf h, if_true, body_comp hC hf hb n h hfm]
          rfl
        | wrapped w d => exact ((hf c m h).deco f (funs_mem.1 hfm) w d hd).elim
    | _ => rfl

end

end Verif.Lang
