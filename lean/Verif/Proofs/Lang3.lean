import Verif.Proofs.Lang2
import Verif.Props.Guard
/-!
# What the names of compiled modules stand for
-/
namespace Verif.Lang
open Verif Verif.Spec

/-! ### Bindings -/

/-- What a binding of a module is. -/
def BindingOf (D : Data) (own : List Str) (c x : Str) (r : Except PyErr Val) (m : Module) (i : Nat) : Prop :=
  (∃ n a, Top.import n a ∈ m ∧ x = a.getD n ∧ r = .ok (.mod n)) ∨
  (∃ cls kws, Top.decl x cls kws ∈ m ∧ r = declVal D own cls kws) ∨
  (∃ e, Top.assign x e ∈ m ∧ r = pureVal D own e) ∨
  ∃ f j, (funs m)[j]? = some f ∧ x = f.name ∧ r = .ok (.fn c (i + j))

theorem bindings_mem {D : Data} {own : List Str} {c x : Str} {r : Except PyErr Val} : ∀ {m : Module} {i : Nat},
    (x, r) ∈ bindings D own c i m → BindingOf D own c x r m i
  | [], _, h => by cases h
  | t :: m, i, h => by
    have tail : funs (t :: m) = funs m → (x, r) ∈ bindings D own c i m → BindingOf D own c x r (t :: m) i := fun hf h => by
      rcases bindings_mem h with ⟨n, a, h1, h2, h3⟩ | ⟨cls, kws, h1, h2⟩ | ⟨e, h1, h2⟩ | ⟨f, j, h1, h2, h3⟩
      · exact .inl ⟨n, a, List.mem_cons_of_mem t h1, h2, h3⟩
      · exact .inr (.inl ⟨cls, kws, List.mem_cons_of_mem t h1, h2⟩)
      · exact .inr (.inr (.inl ⟨e, List.mem_cons_of_mem t h1, h2⟩))
      · exact .inr (.inr (.inr ⟨f, j, hf ▸ h1, h2, h3⟩))
    cases t with
    | «import» n a =>
      rcases List.mem_cons.1 h with h | h
      · cases h
        exact .inl ⟨n, a, by simp, rfl, rfl⟩
      · exact tail rfl h
    | decl y cls kws =>
      rcases List.mem_cons.1 h with h | h
      · cases h
        exact .inr (.inl ⟨cls, kws, by simp, rfl⟩)
      · exact tail rfl h
    | assign y e =>
      rcases List.mem_cons.1 h with h | h
      · cases h
        exact .inr (.inr (.inl ⟨e, by simp, rfl⟩))
      · exact tail rfl h
    | «def» f =>
      have hf : funs (.def f :: m) = f :: funs m := rfl
      rcases List.mem_cons.1 h with h | h
      · cases h
        exact .inr (.inr (.inr ⟨f, 0, by rw [hf]; rfl, rfl, rfl⟩))
      · rcases bindings_mem h with ⟨n, a, h1, h2, h3⟩ | ⟨cls, kws, h1, h2⟩ | ⟨e, h1, h2⟩ | ⟨g, j, h1, h2, h3⟩
        · exact .inl ⟨n, a, List.mem_cons_of_mem _ h1, h2, h3⟩
        · exact .inr (.inl ⟨cls, kws, List.mem_cons_of_mem _ h1, h2⟩)
        · exact .inr (.inr (.inl ⟨e, List.mem_cons_of_mem _ h1, h2⟩))
        · refine .inr (.inr (.inr ⟨g, j + 1, by rw [hf]; simpa using h1, h2, ?_⟩))
          rw [h3]
          congr 2
          omega

theorem globalOf_mem {D : Data} {c : Str} {m : Module} {id : Str} {r : Except PyErr Val} (h : globalOf D c m id = some r) :
    (id, r) ∈ bindings D (m.map Top.bound) c 0 m :=
  List.mem_reverse.1 (Dict.get?_mem' h)

/-! ### Constructed objects -/

theorem Dict.get?_append {α : Type} (a b : List (Str × α)) (k : Str) : Dict.get? (a ++ b) k = (Dict.get? a k).or (Dict.get? b k) := by
  induction a with
  | nil => simp [Dict.get?]
  | cons p a ih =>
    obtain ⟨k', v⟩ := p
    simp only [List.cons_append, Dict.get?]
    split
    · rfl
    · exact ih

theorem fillArgs_get {ks ds : List (Str × Val)} {p : Str} : ∀ {ps : List Str} {r : List (Str × Val)}, fillArgs ks ds ps = .ok r →
    p ∈ ps → Dict.get? r p = (Dict.get? ks p).or (Dict.get? ds p)
  | [], _, _, h => by cases h
  | q :: ps, r, h, hp => by
    simp only [fillArgs] at h
    split at h
    · cases h
    rename_i v hv
    obtain ⟨r', hr, rfl⟩ := map_ok h
    simp only [Dict.get?]
    split
    · rename_i e
      rw [← e, hv]
    · rename_i e
      rcases List.mem_cons.1 hp with hp | hp
      · exact (e (by rw [hp])).elim
      · exact fillArgs_get hr hp

theorem bindArgs_get {ps : List Str} {ds ks b : List (Str × Val)} {p : Str} (h : bindArgs ps ds [] ks = .ok b) (hp : p ∈ ps) :
    Dict.get? b p = (Dict.get? ks p).or (Dict.get? ds p) := by
  unfold bindArgs at h
  simp only [List.length_nil, Nat.not_lt_zero, if_false, List.drop_zero] at h
  split at h
  · obtain ⟨r, hr, rfl⟩ := map_ok h
    have : ps.zip ([] : List Val) = [] := by cases ps <;> rfl
    rw [this]
    exact fillArgs_get hr hp
  · cases h

theorem pureKws_append {D : Data} {own : List Str} : ∀ {a b : List (Str × Expr)} {r : List (Str × Val)}, pureKws D own (a ++ b) = .ok r →
    ∃ r1 r2, pureKws D own a = .ok r1 ∧ pureKws D own b = .ok r2 ∧ r = r1 ++ r2
  | [], _, r, h => ⟨[], r, rfl, h, rfl⟩
  | (x, e) :: a, b, r, h => by
    obtain ⟨v, hv, h⟩ := bind_ok h
    obtain ⟨s, hs, h⟩ := bind_ok h
    cases h
    obtain ⟨r1, r2, h1, h2, rfl⟩ := pureKws_append hs
    refine ⟨(x, v) :: r1, r2, ?_, h2, rfl⟩
    rw [pureKws, hv, h1]
    rfl

theorem pureKws_keys {D : Data} {own : List Str} : ∀ {a : List (Str × Expr)} {r : List (Str × Val)}, pureKws D own a = .ok r →
    r.map Prod.fst = a.map Prod.fst
  | [], r, h => by cases h; rfl
  | (x, e) :: a, r, h => by
    obtain ⟨v, hv, h⟩ := bind_ok h
    obtain ⟨s, hs, h⟩ := bind_ok h
    cases h
    simp [pureKws_keys hs]

theorem Dict.get?_none {α : Type} {d : List (Str × α)} {k : Str} (h : k ∉ d.map Prod.fst) : Dict.get? d k = none := by
  induction d with
  | nil => rfl
  | cons p d ih =>
    obtain ⟨k', v⟩ := p
    simp only [List.map_cons, List.mem_cons, not_or] at h
    simp only [Dict.get?]
    rw [if_neg (fun e => h.1 e.symm), ih h.2]

theorem compKws_keys (ns : List Str) : ∀ kws : List (Str × Expr), (compKws ns kws).map Prod.fst = kws.map Prod.fst
  | [] => rfl
  | (_, _) :: kws => by simp [compKws, compKws_keys ns kws]

theorem kwToAsts_mem : ∀ {kws : List (Str × Expr)} {k : Str}, k ∈ kws.map Prod.fst → ∃ v, Ast.keyword (some k) v ∈ kwToAsts kws
  | (x, e) :: kws, k, h => by
    simp only [List.map_cons, List.mem_cons] at h
    rcases h with rfl | h
    · exact ⟨e.toAst, by simp [kwToAsts]⟩
    · obtain ⟨v, hv⟩ := kwToAsts_mem h
      exact ⟨v, by simp [kwToAsts, hv]⟩

/-- The arguments of a construction by the declaring contract: `contract` and `name` are the compiler's. -/
theorem own_arg {D : Data} {own : List Str} {c x : Str} {kws : List (Str × Expr)} {ks : List (Str × Val)}
    (h : pureKws D own (kws ++ ownKws c x) = .ok ks) (h1 : py! "contract" ∉ kws.map Prod.fst) (h2 : py! "name" ∉ kws.map Prod.fst) :
    Dict.get? ks (py! "contract") = some (.data (.str c)) ∧ Dict.get? ks (py! "name") = some (.data (.str x)) := by
  obtain ⟨r1, r2, k1, k2, rfl⟩ := pureKws_append h
  have hk := pureKws_keys k1
  rw [Dict.get?_append, Dict.get?_append, Dict.get?_none (d := r1) (by rw [hk]; exact h1),
    Dict.get?_none (d := r1) (k := py! "name") (by rw [hk]; exact h2)]
  cases k2
  exact ⟨rfl, rfl⟩

/-- What a class constructs: storage of the contract given, or a read-only view. -/
theorem construct_kind {cls : Str} {ks : List (Str × Val)} {v : Val} (h : construct cls [] ks = .ok v) :
    (∃ cn nm, Dict.get? ks (py! "contract") = some (.data (.str cn)) ∧ Dict.get? ks (py! "name") = some (.data (.str nm)) ∧
      ((cls = py! "Variable" ∧ ∃ t dv, v = .var (.make cn nm t dv)) ∨ (cls = py! "Hash" ∧ ∃ dv, v = .hash (.make cn nm dv)))) ∨
    ((cls = py! "ForeignVariable" ∨ cls = py! "ForeignHash" ∨ cls = py! "LogEvent") ∧
      ((∃ x, v = .fvar x) ∨ (∃ h, v = .fhash h) ∨ ∃ e ps, v = .event e ps)) := by
  have str : ∀ {b : List (Str × Val)} {p s : Str}, strArg b p = .ok s → Dict.get? b p = some (.data (.str s)) := by
    intro b p s hs
    unfold strArg at hs
    split at hs
    · rename_i s' e
      cases hs
      exact e
    · cases hs
  unfold construct at h
  simp only at h
  split at h
  · rename_i hc
    obtain ⟨b, hb, h⟩ := bind_ok h
    obtain ⟨cn, h1, h⟩ := bind_ok h
    obtain ⟨nm, h2, h⟩ := bind_ok h
    obtain ⟨dv, _, h⟩ := bind_ok h
    cases h
    have e1 := str h1
    have e2 := str h2
    rw [bindArgs_get hb (by decide)] at e1 e2
    simp only [Dict.get?] at e1 e2
    refine .inl ⟨cn, nm, ?_, ?_, .inl ⟨hc, _, _, rfl⟩⟩
    · simpa using e1
    · simpa using e2
  split at h
  · rename_i hc
    obtain ⟨b, hb, h⟩ := bind_ok h
    obtain ⟨cn, h1, h⟩ := bind_ok h
    obtain ⟨nm, h2, h⟩ := bind_ok h
    obtain ⟨dv, _, h⟩ := bind_ok h
    cases h
    have e1 := str h1
    have e2 := str h2
    rw [bindArgs_get hb (by decide)] at e1 e2
    simp only [Dict.get?] at e1 e2
    refine .inl ⟨cn, nm, ?_, ?_, .inr ⟨hc, _, rfl⟩⟩
    · simpa using e1
    · simpa using e2
  split at h
  · rename_i hc
    obtain ⟨b, hb, h⟩ := bind_ok h
    obtain ⟨_, _, h⟩ := bind_ok h
    obtain ⟨_, _, h⟩ := bind_ok h
    obtain ⟨_, _, h⟩ := bind_ok h
    obtain ⟨_, _, h⟩ := bind_ok h
    cases h
    exact .inr ⟨.inl hc, .inl ⟨_, rfl⟩⟩
  split at h
  · rename_i hc
    obtain ⟨b, hb, h⟩ := bind_ok h
    obtain ⟨_, _, h⟩ := bind_ok h
    obtain ⟨_, _, h⟩ := bind_ok h
    obtain ⟨_, _, h⟩ := bind_ok h
    obtain ⟨_, _, h⟩ := bind_ok h
    cases h
    exact .inr ⟨.inr (.inl hc), .inr (.inl ⟨_, rfl⟩)⟩
  split at h
  · rename_i hc
    obtain ⟨b, hb, h⟩ := bind_ok h
    split at h
    · cases h
      exact .inr ⟨.inr (.inr hc), .inr (.inr ⟨_, _, rfl⟩)⟩
    · cases h
  · cases h

/-! ### Accepted contracts -/

theorem startsWith_privatize (s : Str) : startsWith (privatize s) (py! "_") = true := rfl

theorem deployed_nodes {I : PyInfo} {c : Str} {m : Module} (h : Accepted I c (moduleAst m)) {t : Top} (ht : t ∈ m) :
    t.All Public Public := by
  obtain ⟨h1, h2, _⟩ := C39_names h
  exact top_all ⟨fun id hi => (h1 id (top_nodes ht hi)).1, fun v a hi => (h2 v a (top_nodes ht hi)).1⟩

/-- Compiled code of a disciplined contract: no storage class, no driver. -/
def Clean (id : Str) : Prop := id ∉ ormClasses ∧ id ≠ py! "__Driver"

/-- Attributes are not private either. -/
def CleanAttr (a : Str) : Prop := Clean a ∧ a.head? ≠ some '_'

theorem privatize_notOrm (s : Str) : privatize s ∉ ormClasses := by
  intro h
  simp [ormClasses, privatize] at h

theorem clean_of {id : Str} (h1 : Public id) (h2 : id ∉ storageClasses) : Clean id := by
  refine ⟨h2, fun e => h1.1 ?_⟩
  rw [e]
  rfl

theorem renames_clean {m : Module} (hd : Disciplined m) :
    Renames (moduleAst m).names (fun x => Public x ∧ x ∉ storageClasses) (fun x => Public x ∧ x ∉ storageClasses) Clean CleanAttr where
  name := by
    intro id hi
    unfold rename
    split
    · rename_i hc
      refine ⟨privatize_notOrm id, fun e => hd.names ?_⟩
      have : id = py! "Driver" := by
        unfold privatize at e
        simpa using e
      exact (names_iff _ _).1 (this ▸ (by simpa using hc))
    · exact clean_of hi.1 hi.2
  attr := fun a ha => ⟨clean_of ha.1 ha.2, ha.1.1⟩
  decimal := ⟨by decide, by decide⟩

theorem compiled_all {I : PyInfo} {c : Str} {m : Module} (h : Accepted I c (moduleAst m)) (hd : Disciplined m) {t : Top} (ht : t ∈ m) :
    (t.comp (moduleAst m).names c).All Clean CleanAttr := by
  have hr := renames_clean hd
  have ha := (deployed_nodes h ht).and (hd.mentions t ht)
  cases t with
  | «import» n a => exact trivial
  | decl x cls kws =>
    simp only [Top.comp]
    split
    · exact kwsAll_append (kwsAll_comp hr ha) ⟨trivial, trivial, trivial⟩
    · exact kwsAll_comp hr ha
  | assign x e => exact compAssigned_all hr ha c x
  | «def» f => exact ⟨exprsAll_comp hr ha.1, stmtsAll_comp hr c ha.2⟩

theorem funs_mem {m : Module} {f : Fun} : f ∈ funs m ↔ Top.def f ∈ m := by
  unfold funs
  rw [List.mem_filterMap]
  constructor
  · rintro ⟨t, ht, h⟩
    cases t <;> cases h
    exact ht
  · exact fun h => ⟨_, h, rfl⟩

theorem compile_mem {c : Str} {m : Module} {t' : Top} (h : t' ∈ compileModule c m) :
    ∃ t ∈ m, t' = t.comp (moduleAst m).names c := by
  obtain ⟨t, ht, e⟩ := List.mem_map.1 h
  exact ⟨t, ht, e.symm⟩

theorem compiled_fun {c : Str} {m : Module} {f' : Fun} (h : f' ∈ funs (compileModule c m)) :
    ∃ f, Top.def f ∈ m ∧ f' = f.comp (moduleAst m).names c := by
  obtain ⟨t, ht, e⟩ := compile_mem (funs_mem.1 h)
  cases t with
  | «import» n a => cases e
  | decl x cls kws => simp only [Top.comp] at e; split at e <;> cases e
  | assign x e' => cases e
  | «def» f => cases e; exact ⟨f, ht, rfl⟩

theorem fun_deco {I : PyInfo} {c : Str} {m : Module} (h : Accepted I c (moduleAst m)) {f : Fun} (hf : Top.def f ∈ m) (w d : Str) :
    f.deco ≠ .wrapped w d := by
  intro e
  obtain ⟨t', ht⟩ := h
  have := compile_fn ht f.name (f.args.map argToAst) (toAsts f.defaults) (stmtsToAst f.body) f.deco.toAst []
    (top_nodes hf (by simp [Top.toAst, Fun.toAst, Ast.nodes]))
  rw [e] at this
  rcases this with h | h | h <;> cases h

/-- A compiled function that is wrapped is wrapped for its own contract. -/
theorem compiled_deco {I : PyInfo} {c : Str} {m : Module} (h : Accepted I c (moduleAst m)) {f' : Fun}
    (hf : f' ∈ funs (compileModule c m)) {w d : Str} (hd : f'.deco = .wrapped w d) : d = c := by
  obtain ⟨f, hm, rfl⟩ := compiled_fun hf
  simp only [Fun.comp] at hd
  split at hd
  · cases hd; rfl
  · cases hd
  · exact (fun_deco h hm w d hd).elim

/-- A compiled function with a public name is wrapped. -/
theorem compiled_public {I : PyInfo} {c : Str} {m : Module} (h : Accepted I c (moduleAst m)) {f' : Fun}
    (hf : f' ∈ funs (compileModule c m)) (hn : startsWith f'.name (py! "__") = false) : ∃ w, f'.deco = .wrapped w c := by
  obtain ⟨f, hm, rfl⟩ := compiled_fun hf
  simp only [Fun.comp] at hn ⊢
  cases hd : f.deco with
  | none => rw [hd] at hn; cases hn
  | construct => rw [hd] at hn; cases hn
  | «export» => exact ⟨_, rfl⟩
  | wrapped w d => exact (fun_deco h hm w d hd).elim

/-- A compiled declaration that constructs something. -/
theorem compiled_decl {I : PyInfo} {c : Str} {m : Module} (h : Accepted I c (moduleAst m)) {x cls : Str} {kws : List (Str × Expr)}
    (hx : Top.decl x cls kws ∈ compileModule c m) {D : Data} {own : List Str} {v : Val} (hv : declVal D own cls kws = .ok v) :
    x.head? = some '_' ∧ ∃ y, (∃ cls0 kws0, Top.decl y cls0 kws0 ∈ m) ∧ ((∃ t dv, v = .var (.make c y t dv)) ∨ (∃ dv, v = .hash (.make c y dv)) ∨ (∃ u, v = .fvar u) ∨ (∃ u, v = .fhash u) ∨ ∃ e ps, v = .event e ps) := by
  have horm : cls ∈ ormClasses := by
    unfold declVal at hv
    split at hv
    · cases hv
    · obtain ⟨ks, _, hk⟩ := bind_ok hv
      rcases construct_kind hk with ⟨_, _, _, _, ⟨rfl, _⟩ | ⟨rfl, _⟩⟩ | ⟨rfl | rfl | rfl, _⟩ <;> decide
  obtain ⟨t', ht'⟩ := h
  have hm := compile_module ht'
  subst hm
  have hn : Ast.assign [.name x] (.call (.name cls) [] (kwToAsts kws)) ∈ (moduleAst (compileModule c m)).nodes :=
    top_nodes hx (by simp [Top.toAst, Ast.nodes])
  obtain ⟨y, tl, ks0, e1, e2, _, _, hk⟩ := C44_bound ht' hn horm
  cases e1
  refine ⟨rfl, ?_⟩
  obtain ⟨t, ht, e⟩ := compile_mem hx
  have hkw : ∃ kws0 z, kws = kws0 ++ ownKws c z ∧ ks0 = kwToAsts kws0 ∧ y = z ∧ ∃ cls0 kws0, Top.decl z cls0 kws0 ∈ m := by
    cases t with
    | «import» n a => cases e
    | assign x e' => cases e
    | «def» f => cases e
    | decl z cls0 kws0 =>
      simp only [Top.comp] at e
      split at e
      · simp only [Top.decl.injEq] at e
        refine ⟨_, z, e.2.2, ?_, ?_, _, _, ht⟩
        all_goals
          rw [e.2.2, kwToAsts_append] at e2
          have := List.append_inj' e2 rfl
        · exact this.1.symm
        · have := this.2
          simp [ownKws, kwToAsts, binding, Expr.toAst] at this
          exact this.symm
      · rename_i hno
        simp only [Top.decl.injEq] at e
        have : cls0 ∈ ormClasses := by
          have := e.2.1
          unfold rename at this
          split at this
          · exact (privatize_notOrm cls0 (this ▸ horm)).elim
          · exact this ▸ horm
        exact (hno (by simpa using this)).elim
  obtain ⟨kws0, z, rfl, rfl, rfl, hdecl⟩ := hkw
  refine ⟨y, hdecl, ?_⟩
  unfold declVal at hv
  split at hv
  · cases hv
  · obtain ⟨ks, hks, hc⟩ := bind_ok hv
    rcases construct_kind hc with ⟨cn, nm, g1, g2, g3⟩ | ⟨_, g⟩
    · have hown : cls ∈ [py! "Variable", py! "Hash", py! "LogEvent"] := by
        rcases g3 with ⟨rfl, _⟩ | ⟨rfl, _⟩ <;> decide
      have hno := hk hown
      have k1 : py! "contract" ∉ kws0.map Prod.fst := fun hm => by
        obtain ⟨u, hu⟩ := kwToAsts_mem hm
        exact (hno u).1 hu
      have k2 : py! "name" ∉ kws0.map Prod.fst := fun hm => by
        obtain ⟨u, hu⟩ := kwToAsts_mem hm
        exact (hno u).2 hu
      obtain ⟨e1, e2⟩ := own_arg hks k1 k2
      rw [e1] at g1
      rw [e2] at g2
      cases g1
      cases g2
      rcases g3 with ⟨_, t, dv, rfl⟩ | ⟨_, dv, rfl⟩
      · exact .inl ⟨t, dv, rfl⟩
      · exact .inr (.inl ⟨dv, rfl⟩)
    · exact .inr (.inr g)

end Verif.Lang
