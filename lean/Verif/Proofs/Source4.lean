import Verif.Proofs.Source3
/-!
# Chains of compiled contracts
-/
namespace Verif.Lang
open Verif Verif.Spec

theorem fillArgs_keys {ks ds : List (Str × Val)} : ∀ {ps : List Str} {r : List (Str × Val)}, fillArgs ks ds ps = .ok r → ∀ p ∈ r, p.1 ∈ ps
  | [], r, h => by cases h; simp
  | q :: ps, r, h => by
    simp only [fillArgs] at h
    split at h
    · cases h
    obtain ⟨r', hr, rfl⟩ := map_ok h
    intro p hp
    rcases List.mem_cons.1 hp with rfl | hp
    · simp
    · exact List.mem_cons_of_mem _ (fillArgs_keys hr p hp)

theorem bindArgs_keys {ps : List Str} {ds ks b : List (Str × Val)} {vs : List Val} (h : bindArgs ps ds vs ks = .ok b) : ∀ p ∈ b, p.1 ∈ ps := by
  unfold bindArgs at h
  split at h
  · cases h
  split at h
  · obtain ⟨r, hr, rfl⟩ := map_ok h
    intro p hp
    rcases List.mem_append.1 hp with hp | hp
    · exact (List.of_mem_zip (a := p.1) (b := p.2) hp).1
    · exact List.mem_of_mem_drop (fillArgs_keys hr p hp)
  · cases h

section
variable {ns : List Str}

mutual
theorem bound_stmt : ∀ (s : Stmt), s.All SrcName SrcName → (∀ x ∈ s.bound, Plain x) ∧ ∀ c, (s.comp ns c).bound = s.bound.map (rename ns)
  | .assign x e, h => by
    refine ⟨fun y hy => ?_, fun c => by simp [Stmt.comp, Stmt.bound]⟩
    simp only [Stmt.bound, List.mem_singleton] at hy
    rw [hy]
    exact h.1.1
  | .aug _ x e, h => by
    refine ⟨fun y hy => ?_, fun c => by simp [Stmt.comp, Stmt.bound]⟩
    simp only [Stmt.bound, List.mem_singleton] at hy
    rw [hy]
    exact h.1.1
  | .ite _ b o, h => by
    obtain ⟨h1, h2⟩ := bound_stmts b h.2.1
    obtain ⟨h3, h4⟩ := bound_stmts o h.2.2
    refine ⟨fun x hx => ?_, fun c => by simp [Stmt.comp, Stmt.bound, h2 c, h4 c]⟩
    rcases List.mem_append.1 hx with hx | hx
    · exact h1 x hx
    · exact h3 x hx
  | .while _ b, h => by
    obtain ⟨h1, h2⟩ := bound_stmts b h.2
    exact ⟨h1, fun c => by simp [Stmt.comp, Stmt.bound, h2 c]⟩
  | .for x _ b, h => by
    obtain ⟨h1, h2⟩ := bound_stmts b h.2.2
    refine ⟨fun y hx => ?_, fun c => by simp [Stmt.comp, Stmt.bound, h2 c]⟩
    rcases List.mem_cons.1 hx with rfl | hx
    · exact h.1.1
    · exact h1 y hx
  | .assignSub _ _ _, _ => ⟨by simp [Stmt.bound], fun c => by simp [Stmt.comp, Stmt.bound]⟩
  | .augSub _ _ _ _, _ => ⟨by simp [Stmt.bound], fun c => by simp [Stmt.comp, Stmt.bound]⟩
  | .expr _, _ => ⟨by simp [Stmt.bound], fun c => by simp [Stmt.comp, Stmt.bound]⟩
  | .assert _ _, _ => ⟨by simp [Stmt.bound], fun c => by simp [Stmt.comp, Stmt.bound]⟩
  | .ret _, _ => ⟨by simp [Stmt.bound], fun c => by simp [Stmt.comp, Stmt.bound]⟩
  | .pass, _ => ⟨by simp [Stmt.bound], fun c => by simp [Stmt.comp, Stmt.bound]⟩
  | .break, _ => ⟨by simp [Stmt.bound], fun c => by simp [Stmt.comp, Stmt.bound]⟩
  | .continue, _ => ⟨by simp [Stmt.bound], fun c => by simp [Stmt.comp, Stmt.bound]⟩
theorem bound_stmts : ∀ (ss : List Stmt), stmtsAll SrcName SrcName ss →
    (∀ x ∈ boundAll ss, Plain x) ∧ ∀ c, boundAll (compStmts ns c ss) = (boundAll ss).map (rename ns)
  | [], _ => ⟨by simp [boundAll], fun c => rfl⟩
  | s :: ss, h => by
    obtain ⟨h1, h2⟩ := bound_stmt s h.1
    obtain ⟨h3, h4⟩ := bound_stmts ss h.2
    refine ⟨fun x hx => ?_, fun c => by simp [compStmts, boundAll, h2 c, h4 c]⟩
    rcases List.mem_append.1 hx with hx | hx
    · exact h1 x hx
    · exact h3 x hx
end

theorem defaultVals_comp {own : List Str} {D : Data} {f : Fun} (c : Str) (hs : Scope ns own) (hdef : exprsAll SrcName SrcName f.defaults) :
    (f.comp ns c).defaultVals D (own.map (rename ns)) = f.defaultVals D own := by
  have ha : (f.comp ns c).args.map Prod.fst = f.args.map Prod.fst := by simp [Fun.comp]
  have hl : (f.comp ns c).args.length = f.args.length := by simp [Fun.comp]
  unfold Fun.defaultVals
  rw [show (f.comp ns c).defaults = compAll ns f.defaults from rfl, pureVals_comp hs hdef, ha, hl]

/-- Starting a function gives the same local variables, or the same exception. -/
theorem start_comp {own : List Str} {D : Data} {f : Fun} {c : Str} (hs : Scope ns own) (hdef : exprsAll SrcName SrcName f.defaults)
    (hbody : stmtsAll SrcName SrcName f.body) (hargs : ∀ a ∈ f.args, Plain a.1 ∧ a.1 ∉ ns ∧ a.1 ≠ py! "decimal")
    (hdec : py! "decimal" ∉ boundAll f.body) (vs : List Val) (ks : List (Str × Val)) :
    (∃ e, f.start D own vs ks = .error e ∧ (f.comp ns c).start D (own.map (rename ns)) vs ks = .error e) ∨
    ∃ l l', f.start D own vs ks = .ok l ∧ (f.comp ns c).start D (own.map (rename ns)) vs ks = .ok l' ∧ Same ns l l' := by
  have ha : (f.comp ns c).args.map Prod.fst = f.args.map Prod.fst := by simp [Fun.comp]
  have hdv := defaultVals_comp (D := D) c hs hdef
  unfold Fun.start
  rw [hdv, ha]
  cases hd : f.defaultVals D own with
  | error e => exact .inl ⟨e, rfl, rfl⟩
  | ok ds =>
    simp only [bind, Except.bind]
    cases hb : bindArgs (f.args.map Prod.fst) ds vs ks with
    | error e => exact .inl ⟨e, rfl, rfl⟩
    | ok b =>
      refine .inr ⟨_, _, rfl, rfl, ?_⟩
      obtain ⟨h1, h2⟩ := bound_stmts (ns := ns) f.body hbody
      have hin : ∀ id, Plain id → (rename ns id ∈ f.args.map Prod.fst ↔ id ∈ f.args.map Prod.fst) := by
        intro id hid
        by_cases hn : id ∈ ns
        · constructor
          · intro h
            obtain ⟨a, ha, e⟩ := List.mem_map.1 h
            rw [rename_in hn] at e
            exact ((hargs a ha).1 (by rw [e]; rfl)).elim
          · intro h
            obtain ⟨a, ha, e⟩ := List.mem_map.1 h
            exact ((hargs a ha).2.1 (by rw [e]; exact hn)).elim
        · rw [rename_out hn]
      have hbody' : ∀ id, Plain id → (rename ns id ∈ boundAll (compStmts ns c f.body) ↔ id ∈ boundAll f.body) := by
        intro id hid
        rw [h2 c]
        exact own_iff hs.plain (fun x hx => .inl (h1 x hx)) (.inl hid)
      refine ⟨fun id hid => ?_, fun id hid => ?_, ?_⟩
      · rw [Bool.eq_iff_iff, List.contains_iff_mem, List.contains_iff_mem]
        simp only [List.mem_append, hin id hid]
        exact or_congr Iff.rfl (hbody' id hid)
      · by_cases hn : id ∈ ns
        · have none : ∀ {x : Str}, x ∉ f.args.map Prod.fst → Dict.get? b x = none := fun {x} hx =>
            Dict.get?_none fun hm => by
              obtain ⟨p, hp, rfl⟩ := List.mem_map.1 hm
              exact hx (bindArgs_keys hb p hp)
          have hno : id ∉ f.args.map Prod.fst := fun hm => by
            obtain ⟨a, ha, rfl⟩ := List.mem_map.1 hm
            exact (hargs a ha).2.1 hn
          rw [none hno, none (mt (hin id hid).1 hno)]
        · rw [rename_out hn]
      · rw [Bool.eq_false_iff]
        intro h
        rw [List.contains_iff_mem] at h
        rcases List.mem_append.1 h with h | h
        · obtain ⟨a, ha, e⟩ := List.mem_map.1 h
          exact (hargs a ha).2.2 e
        · change _ ∈ boundAll (compStmts ns c f.body) at h
          rw [h2 c] at h
          obtain ⟨x, hx, e⟩ := List.mem_map.1 h
          obtain ⟨_, rfl⟩ := (rename_eq_plain plain_decimal).1 e
          exact hdec hx

end

/-! ### Accepted modules -/

/-- An accepted, well-named module that mentions the storage classes in its declarations only. -/
structure Fits (c : Str) (m : Module) : Prop where
  scope : Scope (moduleAst m).names (m.map Src.bound)
  tops : ∀ t ∈ m, TopOk (moduleAst m).names c t
  priv : ∀ x, x ∈ (moduleAst m).names ↔ x ∈ privateNames m
  args : ∀ f, Top.def f ∈ m → ∀ a ∈ f.args, Plain a.1 ∧ a.1 ∉ (moduleAst m).names ∧ a.1 ≠ py! "decimal"
  decimal : ∀ f, Top.def f ∈ m → py! "decimal" ∉ boundAll f.body
  wrapper : py! "export" ∉ (moduleAst m).names
  deco : ∀ f, Top.def f ∈ m → ∀ w d, f.deco ≠ .wrapped w d

theorem fits {I : PyInfo} {c : Str} {m : Module} (ha : Accepted I c (moduleAst m)) (hm : ∀ t ∈ m, t.All NoOrm NoOrm) (hw : WellNamed m) :
    Fits c m := by
  have hdeco : ∀ f, Top.def f ∈ m → ∀ w d, f.deco ≠ .wrapped w d := fun f hf w d => fun_deco ha hf w d
  have hpriv := names_private hm hdeco
  have hname : ∀ {t : Top} {id : Str}, t ∈ m → Ast.name id ∈ t.toAst.nodes → Plain id := fun ht hn =>
    ((C39_names ha).1 _ (top_nodes ht hn)).1.1
  have hbound : ∀ t ∈ m, OkId (Src.bound t) := by
    intro t ht
    cases t with
    | «import» n a => exact .inl (hw.imports n a ht).1
    | decl x cls kws => exact .inl (hname (id := x) ht (by simp [Top.toAst, Ast.nodes, nodesAll]))
    | assign x e => exact .inl (hname (id := x) ht (by simp [Top.toAst, Ast.nodes, nodesAll]))
    | «def» f =>
      simp only [Src.bound, Src.funName]
      split
      · exact .inr rfl
      · exact .inl (hw.functions f ht)
  have hplain : ∀ x ∈ (moduleAst m).names, Plain x := by
    intro x hx
    obtain ⟨t, ht, e⟩ := List.mem_filterMap.1 ((hpriv x).1 hx)
    cases t with
    | «import» n a => cases e
    | assign y e' => cases e
    | decl y cls kws =>
      simp only at e
      split at e
      · cases e
        exact hname ht (by simp [Top.toAst, Ast.nodes, nodesAll])
      · cases e
    | «def» f =>
      simp only at e
      split at e
      · cases e
        exact hw.functions f ht
      · cases e
  refine
    { scope := ⟨hplain, ?_, ?_, ?_⟩
      tops := ?_
      priv := hpriv
      args := fun f hf a h => by
        obtain ⟨h1, h2, h3⟩ := hw.args f hf a h
        exact ⟨h1, mt (hpriv _).1 h2, h3⟩
      decimal := hw.decimal.2
      wrapper := mt (hpriv _).1 hw.wrapper
      deco := hdeco }
  · intro x hx
    obtain ⟨t, ht, rfl⟩ := List.mem_map.1 hx
    exact hbound t ht
  · intro x hx
    obtain ⟨t, ht, e⟩ := List.mem_filterMap.1 ((hpriv x).1 hx)
    refine List.mem_map.2 ⟨t, ht, ?_⟩
    cases t with
    | «import» n a => cases e
    | assign y e' => cases e
    | decl y cls kws =>
      simp only at e
      split at e
      · cases e; rfl
      · cases e
    | «def» f =>
      simp only at e
      split at e
      · rename_i hd
        cases e
        simp [Src.bound, Src.funName, hd]
      · cases e
  · intro hx
    obtain ⟨t, ht, e⟩ := List.mem_map.1 hx
    refine hw.decimal.1 (List.mem_map.2 ⟨t, ht, ?_⟩)
    cases t with
    | «def» f =>
      simp only [Src.bound, Src.funName] at e
      split at e
      · exact absurd e (by decide)
      · exact e
    | _ => exact e
  · intro t ht
    have hall : t.All Plain Plain := top_all ⟨fun id hi => ((C39_names ha).1 id (top_nodes ht hi)).1.1,
      fun v a hi => ((C39_names ha).2.1 v a (top_nodes ht hi)).1.1⟩
    refine ⟨hall.and (hm t ht), ?_, hbound t ht, ?_⟩
    · rintro x cls kws rfl
      exact hname ht (by simp [Top.toAst, Ast.nodes])
    · cases t with
      | «import» n a =>
        exact (rename_out (mt (hpriv _).1 (hw.imports n a ht).2)).symm
      | decl x cls kws => rw [comp_decl]; rfl
      | assign x e => rfl
      | «def» f =>
        change (f.comp _ c).name = rename _ (Src.funName f)
        cases hd : f.deco with
        | none =>
          have hin : f.name ∈ (moduleAst m).names := (hpriv _).2 (List.mem_filterMap.2 ⟨_, ht, by simp [hd]⟩)
          simp only [Fun.comp, Src.funName, hd]
          rw [if_neg (by simp), rename_in hin]
          rfl
        | construct =>
          simp only [Fun.comp, Src.funName, hd, if_true]
          exact (rename_out fun h => hplain _ h rfl).symm
        | «export» =>
          simp only [Fun.comp, Src.funName, hd]
          rw [if_neg (by simp), rename_out (mt (hpriv _).1 (hw.exported f ht hd))]
        | wrapped w d => exact (hdeco f ht w d hd).elim

end Verif.Lang
