import Verif.Props.Accept
/-!
# C42: what `__export` is in a compiled contract
-/
namespace Verif
open Spec AstDemo

theorem transformAll_name {ns : List Str} {c x : Str} {as as' : List Ast} (h : transformAll ns c as = .ok as')
    (hx : Ast.name x ∈ as') : ∃ id, Ast.name id ∈ as ∧ rename ns id = x := by
  obtain ⟨a, ha, ht⟩ := transformAll_mem h _ hx
  exact transform_name_of ha ht
where
  transform_name_of {ns : List Str} {c x : Str} {as : List Ast} {a : Ast} (ha : a ∈ as) (ht : a.transform ns c = .ok (.name x)) :
      ∃ id, Ast.name id ∈ as ∧ rename ns id = x := by
    cases a with
    | name id =>
      have ht : (Except.ok (.name (rename ns id)) : Except PyErr Ast) = .ok (.name x) := ht
      injection ht with ht; injection ht with ht
      exact ⟨id, ha, ht⟩
    | «attribute» v a => obtain ⟨_, _, h⟩ := Except.map_ok ht; cases h
    | const k => cases k <;> cases ht
    | call f as ks => obtain ⟨_, _, _, _, _, _, h⟩ := transform_call_inv ht; cases h
    | keyword a v => obtain ⟨_, _, h⟩ := Except.map_ok ht; cases h
    | assign ts v =>
      obtain ⟨_, _, _, _, ⟨_, h⟩ | ⟨_, _, _, _, _, _, _, _, _, _, _, _, h⟩⟩ := transform_assign_inv ht <;> cases h
    | arg x ann => obtain ⟨_, _, h⟩ := Except.map_ok ht; cases h
    | functionDef nm as os b ds rs => obtain ⟨_, _, _, _, _, _, _, _, _, _, _, h⟩ := transform_fn_inv ht; cases h
    | «import» names => cases ht
    | importFrom m names => cases ht
    | node k ids cs => obtain ⟨_, _, h⟩ := Except.map_ok ht; cases h

/-- Names among the children of a transformed node: renamed names of children, or the decorator. -/
theorem child_name {ns : List Str} {c x : Str} {n n' : Ast} (hd : ∀ nm as os b ds rs, n = .functionDef nm as os b ds rs → AllowedDecorators ds)
    (h : n.transform ns c = .ok n') (hx : Ast.name x ∈ n'.children) :
    (∃ id, Ast.name id ∈ n.children ∧ rename ns id = x) ∨
      (∃ text, n' = .call (.name (py! "decimal")) [.const (.str text)] [] ∧ x = py! "decimal") := by
  cases n with
  | name id => cases h; simp [Ast.children] at hx
  | «attribute» v a =>
    obtain ⟨v', h1, rfl⟩ := Except.map_ok h
    have hx := List.mem_singleton.1 hx
    subst hx
    exact .inl (transformAll_name.transform_name_of (as := [v]) List.mem_cons_self h1)
  | const k =>
    cases k with
    | float text =>
      cases h
      have hx : Ast.name x ∈ [Ast.name (py! "decimal"), .const (.str text)] := hx
      simp at hx
      exact .inr ⟨text, rfl, hx⟩
    | _ => cases h; simp [Ast.children] at hx
  | call f as ks =>
    obtain ⟨f', as', ks', h1, h2, h3, rfl⟩ := transform_call_inv h
    rcases List.mem_append.1 (show Ast.name x ∈ (f' :: as') ++ ks' from hx) with hx | hx
    · rcases List.mem_cons.1 hx with hx | hx
      · subst hx
        exact .inl (transformAll_name.transform_name_of (by simp [Ast.children]) h1)
      · obtain ⟨id, hi, hr⟩ := transformAll_name h2 hx
        exact .inl ⟨id, by simp [Ast.children, hi], hr⟩
    · obtain ⟨id, hi, hr⟩ := transformAll_name h3 hx
      exact .inl ⟨id, by simp [Ast.children, hi], hr⟩
  | keyword a v =>
    obtain ⟨v', h1, rfl⟩ := Except.map_ok h
    have hx := List.mem_singleton.1 hx
    subst hx
    exact .inl (transformAll_name.transform_name_of (as := [v]) List.mem_cons_self h1)
  | assign ts v =>
    obtain ⟨ts', v', h1, h2, h3⟩ := transform_assign_inv h
    rcases h3 with ⟨_, rfl⟩ | ⟨_, _, _, _, _, _, _, _, _, _, _, _, rfl⟩
    · rcases List.mem_append.1 (show Ast.name x ∈ ts' ++ [v'] from hx) with hx | hx
      · obtain ⟨id, hi, hr⟩ := transformAll_name h1 hx
        exact .inl ⟨id, by simp [Ast.children, hi], hr⟩
      · have hx := List.mem_singleton.1 hx
        subst hx
        exact .inl (transformAll_name.transform_name_of (by simp [Ast.children]) h2)
    · rcases List.mem_append.1 hx with hx | hx
      · obtain ⟨id, hi, hr⟩ := transformAll_name h1 hx
        exact .inl ⟨id, by simp [Ast.children, hi], hr⟩
      · simp at hx
  | arg y ann =>
    obtain ⟨ann', h1, rfl⟩ := Except.map_ok h
    exact .inl (transformAll_name h1 hx)
  | functionDef nm as os b ds rs =>
    obtain ⟨nm', as', os', b', ds', rs', h0, h1, h2, h3, h4, rfl⟩ := transform_fn_inv h
    have hx : Ast.name x ∈ as' ++ os' ++ b' ++ ds' ++ rs' := hx
    simp only [List.mem_append] at hx
    rcases hx with (((hx | hx) | hx) | hx) | hx
    · obtain ⟨id, hi, hr⟩ := transformAll_name h1 hx; exact .inl ⟨id, by simp [Ast.children, hi], hr⟩
    · obtain ⟨id, hi, hr⟩ := transformAll_name h2 hx; exact .inl ⟨id, by simp [Ast.children, hi], hr⟩
    · obtain ⟨id, hi, hr⟩ := transformAll_name h3 hx; exact .inl ⟨id, by simp [Ast.children, hi], hr⟩
    · rcases newHeader_inv (hd _ _ _ _ _ _ rfl) h0 with ⟨_, _, rfl⟩ | ⟨_, _, rfl⟩ | ⟨_, _, rfl⟩ <;> simp at hx
    · obtain ⟨id, hi, hr⟩ := transformAll_name h4 hx; exact .inl ⟨id, by simp [Ast.children, hi], hr⟩
  | «import» names => cases h; simp [Ast.children] at hx
  | importFrom m names => cases h; simp [Ast.children] at hx
  | node k ids cs =>
    obtain ⟨cs', h1, rfl⟩ := Except.map_ok h
    exact .inl (transformAll_name h1 hx)

/-- C42, the wrapper cannot be replaced: if a contract has no function named `__export` and no private function or
storage declaration named `export` (which would be compiled to `__export`), then its compiled form defines no function
`__export`, and the only place where the name `__export` occurs is the decorator `__export('<contract>')`. Functions
whose name does not start with `__` carry this decorator. -/
theorem C42_wrapper {I : PyInfo} {c : Str} {t t' : Ast} (h : t.compile I c = .ok t')
    (hf : ∀ f ∈ functions t, f.name ≠ py! "__export") (ho : ¬ OwnName t (py! "export")) :
    (∀ f' ∈ functions t', f'.name ≠ py! "__export" ∧
      (f'.name.take 2 ≠ py! "__" → f'.decorators = [.call (.name (py! "__export")) [.const (.str c)] []])) ∧
    (∀ n ∈ t'.nodes, Ast.name (py! "__export") ∈ n.children → n = .call (.name (py! "__export")) [.const (.str c)] []) := by
  have hne : py! "export" ∉ t.names := fun hm => ho ((names_iff t _).1 hm)
  have hne2 : py! "__export" ∉ t.names := by
    intro hm
    rcases (names_iff t _).1 hm with ⟨f, hf', _, he⟩ | hd
    · exact hf f hf' he
    · exact (declared_public ⟨t', h⟩ hd).1 rfl
  refine ⟨fun f' hf' => ⟨?_, fun hn => ?_⟩, fun n hn hx => ?_⟩
  · obtain ⟨w, _, hc⟩ := C42_functions h
    obtain ⟨f, hfm, hfc⟩ := forall₂_left hc f' hf'
    rcases hfc.2 with ⟨_, e, _⟩ | ⟨_, e, _⟩ | ⟨hd, e, _⟩
    · rw [e]; exact hf f hfm
    · rw [e]; decide
    · rw [e]
      intro he
      have : f.name = py! "export" := by
        have := congrArg (List.drop 2) he
        exact this
      exact ho (.inl ⟨f, hfm, hd, this⟩)
  · exact C42_reachable h (fun f hfm _ => hf f hfm) f' hf' hn
  · obtain ⟨s, _, _, h3⟩ := compile_inv h
    have names := (C39_names ⟨t', h⟩).1
    have absurdName : ∀ {m : Ast}, m ∈ t.nodes → ∀ {id : Str}, Ast.name id ∈ m.children → rename t.names id ≠ py! "__export" := by
      intro m hm id hi hr
      have hid : Ast.name id ∈ t.nodes := nodes_trans t m hm _ (by
        rw [nodes_children]; exact List.mem_cons_of_mem _ (nodesAll_mem.2 ⟨_, hi, self_mem _⟩))
      have hp := (names id hid).1
      unfold rename at hr
      split at hr
      · rename_i hc
        have : id = py! "export" := by
          have := congrArg (List.drop 2) hr
          exact this
        subst this
        exact hne (List.contains_iff_mem.1 hc)
      · subst hr; exact hp.1 rfl
    cases transform_origin t.names c t t' (compile_fn h) h3 n hn with
    | source m _ hm ht =>
      rcases child_name (fun nm as os b ds rs e => compile_fn h nm as os b ds rs (e ▸ hm)) ht hx with ⟨id, hi, hr⟩ | ⟨text, e, e'⟩
      · exact absurd hr (absurdName hm hi)
      · exact absurd e' (by decide)
    | added _ ha =>
      cases ha with
      | str s => simp [Ast.children] at hx
      | decimal text => simp [Ast.children] at hx
      | decimalName => simp [Ast.children] at hx
      | export_ => simp [rename, hne2]
      | exportName => simp [Ast.children] at hx
      | keyword k x => simp [Ast.children] at hx
    | orm cls x as' ks' hcls hv =>
      obtain ⟨v, hv, ht⟩ := hv
      have hx' : Ast.name (py! "__export") ∈ (Ast.call (.name (rename t.names cls)) as' ks').children := by
        have hx : Ast.name (py! "__export") ∈ (Ast.name (rename t.names cls) :: as') ++ (ks' ++ extra c x) := hx
        show _ ∈ (Ast.name (rename t.names cls) :: as') ++ ks'
        simpa [extra] using hx
      rcases child_name (fun nm as os b ds rs e => compile_fn h nm as os b ds rs (e ▸ hv)) ht hx' with ⟨id, hi, hr⟩ | ⟨text, e, e'⟩
      · exact absurd hr (absurdName hv hi)
      · exact absurd e' (by decide)

/-- C42, the example meets these conditions and has an exported function. -/
example : (∀ f ∈ functions token, f.name ≠ py! "__export") ∧ ¬ OwnName token (py! "export") ∧
    py! "put" ∈ (functions token').map Fn.name := by
  have hfs : ∀ f ∈ functions token, f.name = py! "seed" ∨ f.name = py! "put" ∨ f.name = py! "helper" := by
    intro f hf
    simp only [functions, token, mod, expr, ret, sub, Ast.nodes, nodesAll, List.filterMap, fnOf, List.cons_append, List.append_nil, List.nil_append,
      List.mem_cons, List.not_mem_nil, or_false] at hf
    rcases hf with rfl | rfl | rfl <;> simp
  refine ⟨fun f hf => ?_, ?_, ?_⟩
  · rcases hfs f hf with h | h | h <;> rw [h] <;> decide
  · rintro (⟨f, hf, _, he⟩ | hd)
    · rcases hfs f hf with h | h | h <;> rw [h] at he <;> exact absurd he (by decide)
    · have : py! "export" ∈ [py! "v", py! "h"] := hd
      exact absurd this (by decide)
  · decide

/-- `def identity(f): return f`, `def export(n): return identity`, `@export def get(): return 1` -/
def AstDemo.shadowed : Ast := mod [
  .functionDef (py! "identity") [.arg (py! "f") []] [] [ret (.name (py! "f"))] [] [],
  .functionDef (py! "export") [.arg (py! "n") []] [] [ret (.name (py! "identity"))] [] [],
  get]

/-- C42 refuted a second time: a private function named `export` is compiled to `__export`, in front of the
functions decorated with `__export('<contract>')`. It takes the place of the system's wrapper, so `get` runs without
the change of context that the wrapper makes. -/
theorem C42_shadow_refuted : ∃ t', shadowed.compile info (py! "con_x") = .ok t' ∧
    t' = mod [
      .functionDef (py! "__identity") [.arg (py! "f") []] [] [ret (.name (py! "f"))] [] [],
      .functionDef (py! "__export") [.arg (py! "n") []] [] [ret (.name (py! "__identity"))] [] [],
      .functionDef (py! "get") [] [] [ret (.const (.int 1))] [.call (.name (py! "__export")) [.const (.str (py! "con_x"))] []] []] :=
  ⟨_, rfl, rfl⟩

end Verif
