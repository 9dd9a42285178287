import Verif.Proofs.Ast5
/-!
# Names, and reading compiled contracts
-/
namespace Verif
open Spec

mutual
theorem names_mem : ∀ (t : Ast) (x : Str), x ∈ t.names ↔ ∃ n ∈ t.nodes, x ∈ n.ownNames
  | .name _, x => by simp [Ast.names, Ast.nodes, Ast.ownNames]
  | .attribute v a, x => by
    rw [Ast.names, Ast.nodes]; simp only [List.mem_append, List.mem_cons, exists_eq_or_imp, names_mem v x]
  | .const _, x => by simp [Ast.names, Ast.nodes, Ast.ownNames]
  | .call f as ks, x => by
    rw [Ast.names, Ast.nodes]
    simp only [List.mem_append, List.mem_cons, or_and_right, exists_or, exists_eq_left, names_mem f x, namesAll_mem as x, namesAll_mem ks x]
  | .keyword a v, x => by
    rw [Ast.names, Ast.nodes]; simp only [List.mem_append, List.mem_cons, exists_eq_or_imp, names_mem v x]
  | .assign ts v, x => by
    rw [Ast.names, Ast.nodes]
    simp only [List.mem_append, List.mem_cons, or_and_right, exists_or, exists_eq_left, names_mem v x, namesAll_mem ts x]
  | .arg _ ann, x => by
    rw [Ast.names, Ast.nodes]; simp only [List.mem_append, List.mem_cons, exists_eq_or_imp, namesAll_mem ann x]
  | .functionDef nm as os b ds rs, x => by
    rw [Ast.names, Ast.nodes]
    simp only [List.mem_append, List.mem_cons, or_and_right, exists_or, exists_eq_left, namesAll_mem as x, namesAll_mem os x,
      namesAll_mem b x, namesAll_mem ds x, namesAll_mem rs x]
  | .import _, x => by simp [Ast.names, Ast.nodes, Ast.ownNames]
  | .importFrom _ _, x => by simp [Ast.names, Ast.nodes, Ast.ownNames]
  | .node k ids cs, x => by
    rw [Ast.names, Ast.nodes]; simp only [List.mem_append, List.mem_cons, exists_eq_or_imp, namesAll_mem cs x]
theorem namesAll_mem : ∀ (ts : List Ast) (x : Str), x ∈ namesAll ts ↔ ∃ n ∈ nodesAll ts, x ∈ n.ownNames
  | [], x => by simp [namesAll, nodesAll]
  | t :: ts, x => by
    rw [namesAll, nodesAll]
    simp only [List.mem_append, or_and_right, exists_or, names_mem t x, namesAll_mem ts x]
end

/-- The names the compiler makes private: undecorated functions and declared storage. -/
theorem names_iff (t : Ast) (x : Str) :
    x ∈ t.names ↔ (∃ f ∈ functions t, f.decorators = [] ∧ f.name = x) ∨ x ∈ declared t := by
  rw [names_mem]
  constructor
  · rintro ⟨n, hn, hx⟩
    unfold Ast.ownNames at hx
    split at hx
    · simp only [List.mem_cons, List.not_mem_nil, or_false] at hx
      subst hx
      exact .inl ⟨_, List.mem_filterMap.2 ⟨_, hn, rfl⟩, rfl, rfl⟩
    · rename_i id tl v
      right
      split at hx
      · rename_i cls ho
        obtain ⟨as, ks, rfl, hc⟩ := ormCall_some ho
        simp only [List.mem_cons, List.not_mem_nil, or_false] at hx
        subst hx
        exact List.mem_filterMap.2 ⟨_, hn, by simp [orm_spec.1 hc]⟩
      · simp at hx
    · simp at hx
  · rintro (⟨f, hf, hd, rfl⟩ | hx)
    · obtain ⟨n, hn, h⟩ := List.mem_filterMap.1 hf
      refine ⟨n, hn, ?_⟩
      cases n <;> first | (cases h; done) | skip
      rename_i nm as os b ds rs
      cases h
      simp only at hd
      subst hd
      simp [Ast.ownNames]
    · obtain ⟨n, hn, h⟩ := List.mem_filterMap.1 hx
      refine ⟨n, hn, ?_⟩
      split at h
      · rename_i y tl cls as ks
        split at h
        · rename_i hc
          cases h
          simp [Ast.ownNames, ormCall_of hc]
        · cases h
      · cases h

/-! ## `ast.walk` -/

theorem nodes_children (t : Ast) : t.nodes = t :: nodesAll t.children := by
  cases t <;> rw [Ast.nodes] <;> simp [Ast.children, nodesAll, nodesAll_append]

mutual
theorem size_nodes : ∀ t : Ast, t.size = t.nodes.length
  | .name _ => by simp [Ast.size, Ast.nodes]
  | .attribute v _ => by simp [Ast.size, Ast.nodes, size_nodes v]
  | .const _ => by simp [Ast.size, Ast.nodes]
  | .call f as ks => by simp [Ast.size, Ast.nodes, size_nodes f, sizeAll_nodes as, sizeAll_nodes ks]; omega
  | .keyword _ v => by simp [Ast.size, Ast.nodes, size_nodes v]
  | .assign ts v => by simp [Ast.size, Ast.nodes, size_nodes v, sizeAll_nodes ts]
  | .arg _ ann => by simp [Ast.size, Ast.nodes, sizeAll_nodes ann]
  | .functionDef _ as os b ds rs => by
    simp [Ast.size, Ast.nodes, sizeAll_nodes as, sizeAll_nodes os, sizeAll_nodes b, sizeAll_nodes ds, sizeAll_nodes rs]; omega
  | .import _ => by simp [Ast.size, Ast.nodes]
  | .importFrom _ _ => by simp [Ast.size, Ast.nodes]
  | .node _ _ cs => by simp [Ast.size, Ast.nodes, sizeAll_nodes cs]
theorem sizeAll_nodes : ∀ ts : List Ast, sizeAll ts = (nodesAll ts).length
  | [] => by simp [sizeAll, nodesAll]
  | t :: ts => by simp [sizeAll, nodesAll, size_nodes t, sizeAll_nodes ts]
end

theorem walk_perm : ∀ (n : Nat) (q : List Ast), (nodesAll q).length ≤ n → (walk n q).Perm (nodesAll q) := by
  intro n
  induction n with
  | zero =>
    intro q h
    have : nodesAll q = [] := List.eq_nil_of_length_eq_zero (by omega)
    rw [this]; exact .nil
  | succ n ih =>
    intro q h
    cases q with
    | nil => exact .nil
    | cons t q =>
      rw [nodesAll, nodes_children] at h
      simp only [List.cons_append, List.length_cons, List.length_append] at h
      rw [walk, nodesAll, nodes_children, List.cons_append]
      refine (ih (q ++ t.children) (by rw [nodesAll_append, List.length_append]; omega)).cons t |>.trans ?_
      rw [nodesAll_append]
      exact (List.perm_append_comm).cons t

/-- `ast.walk` yields each node once. -/
theorem walk_nodes (t : Ast) : (walk t.size [t]).Perm t.nodes := by
  have := walk_perm t.size [t] (by rw [size_nodes]; simp [nodesAll])
  simpa [nodesAll] using this

theorem annotationText_iff {a : Ast} {ty : Str} : annotationText a = .ok ty ↔ typeText a = some ty := by
  unfold annotationText typeText
  split
  · simp
  · simp
  · simp

theorem methodArgs_of {as : List Ast} {r : List (Str × Str)} (h : typedArgs as = some r) : methodArgs as = .ok r := by
  induction as generalizing r with
  | nil => cases h; rfl
  | cons a as ih =>
    by_cases ha : ∃ x ann, a = .arg x ann
    · obtain ⟨x, ann, rfl⟩ := ha
      cases ann with
      | nil => cases h
      | cons a tl =>
        unfold typedArgs at h
        split at h
        · rename_i ty r' h1 h2
          cases h
          unfold methodArgs
          simp only [annotationText_iff.2 h1, ih h2, Except.map]
        · cases h
    · have h1 : typedArgs (a :: as) = typedArgs as := by
        cases a <;> first | rfl | exact absurd ⟨_, _, rfl⟩ ha
      have h2 : methodArgs (a :: as) = methodArgs as := by
        cases a <;> first | rfl | exact absurd ⟨_, _, rfl⟩ ha
      rw [h2]; rw [h1] at h; exact ih h

theorem typedArgs_of {as : List Ast} {r : List (Str × Str)} (h : methodArgs as = .ok r) : typedArgs as = some r := by
  induction as generalizing r with
  | nil => cases h; rfl
  | cons a as ih =>
    by_cases ha : ∃ x ann, a = .arg x ann
    · obtain ⟨x, ann, rfl⟩ := ha
      cases ann with
      | nil => cases h
      | cons a tl =>
        unfold methodArgs at h
        simp only at h
        cases ht : annotationText a with
        | error e => rw [ht] at h; cases h
        | ok ty =>
          rw [ht] at h
          cases hr : methodArgs as with
          | error e => rw [hr] at h; cases h
          | ok r' =>
            rw [hr] at h
            cases h
            unfold typedArgs
            rw [annotationText_iff.1 ht, ih hr]
    · have h1 : typedArgs (a :: as) = typedArgs as := by
        cases a <;> first | rfl | exact absurd ⟨_, _, rfl⟩ ha
      have h2 : methodArgs (a :: as) = methodArgs as := by
        cases a <;> first | rfl | exact absurd ⟨_, _, rfl⟩ ha
      rw [h1]; rw [h2] at h; exact ih h

theorem typedArgs_names {as : List Ast} {r : List (Str × Str)} (h : typedArgs as = some r) : r.map (·.1) = argNames as := by
  induction as generalizing r with
  | nil => cases h; rfl
  | cons a as ih =>
    by_cases ha : ∃ x ann, a = .arg x ann
    · obtain ⟨x, ann, rfl⟩ := ha
      cases ann with
      | nil => cases h
      | cons a tl =>
        unfold typedArgs at h
        split at h
        · rename_i ty r' h1 h2
          cases h
          rw [List.map_cons, ih h2]
          rfl
        · cases h
    · have h1 : typedArgs (a :: as) = typedArgs as := by
        cases a <;> first | rfl | exact absurd ⟨_, _, rfl⟩ ha
      have h2 : argNames (a :: as) = argNames as := by
        cases a <;> first | rfl | exact absurd ⟨_, _, rfl⟩ ha
      rw [h2]; rw [h1] at h; exact ih h

/-- The listing of a list of definitions. -/
theorem methodsOf_ok {ds : List Ast}
    (h : ∀ nm as os b es rs, Ast.functionDef nm as os b es rs ∈ ds → startsWith nm (py! "__") = false →
      (typedArgs as).isSome = true) :
    ∃ l, methodsOf ds = .ok l ∧
      l.map (fun m => (m.1, some m.2)) = ((ds.filterMap fnOf).filter (fun f => !startsWith f.name (py! "__"))).map
        (fun f => (f.name, typedArgs f.args)) := by
  induction ds with
  | nil => exact ⟨[], rfl, rfl⟩
  | cons d ds ih =>
    obtain ⟨l, h1, h2⟩ := ih (fun nm as os b es rs hm => h nm as os b es rs (List.mem_cons_of_mem _ hm))
    by_cases hd : ∃ nm as os b es rs, d = .functionDef nm as os b es rs
    · obtain ⟨nm, as, os, b, es, rs, rfl⟩ := hd
      rw [show (Ast.functionDef nm as os b es rs :: ds).filterMap fnOf = (⟨nm, as, es, rs⟩ : Fn) :: ds.filterMap fnOf from rfl]
      unfold methodsOf
      cases hp : startsWith nm (py! "__") with
      | true =>
        refine ⟨l, by rw [if_pos rfl]; exact h1, ?_⟩
        rw [h2, List.filter_cons_of_neg (by simp [hp])]
      | false =>
        have hs := h nm as os b es rs List.mem_cons_self hp
        obtain ⟨r, hr⟩ := Option.isSome_iff_exists.1 hs
        refine ⟨(nm, r) :: l, ?_, ?_⟩
        · rw [if_neg (by simp), methodArgs_of hr]
          simp only [h1, Except.map]
        · rw [List.filter_cons_of_pos (by simp [hp])]
          simp only [List.map_cons, h2, hr]
    · refine ⟨l, ?_, ?_⟩
      · rw [← h1]
        cases d <;> first | rfl | exact absurd ⟨_, _, _, _, _, _, rfl⟩ hd
      · rw [h2, List.filterMap_cons_none (by cases d <;> first | rfl | exact absurd ⟨_, _, _, _, _, _, rfl⟩ hd)]

theorem methodsOf_typed {ds : List Ast} {l : List (Str × List (Str × Str))} (h : methodsOf ds = .ok l) {nm : Str} {as os b es rs : List Ast}
    (hm : Ast.functionDef nm as os b es rs ∈ ds) (hn : startsWith nm (py! "__") = false) : (typedArgs as).isSome = true := by
  induction ds generalizing l with
  | nil => cases hm
  | cons d ds ih =>
    rcases List.mem_cons.1 hm with rfl | hm
    · unfold methodsOf at h
      rw [if_neg (by rw [hn]; simp)] at h
      cases ha : methodArgs as with
      | error e => rw [ha] at h; cases h
      | ok r => rw [typedArgs_of ha]; rfl
    · have : ∃ l', methodsOf ds = .ok l' := by
        cases d with
        | functionDef nm' as' os' b' es' rs' =>
          unfold methodsOf at h
          split at h
          · exact ⟨l, h⟩
          · split at h
            · cases h
            · cases hr : methodsOf ds with
              | error e => rw [hr] at h; cases h
              | ok l' => exact ⟨l', rfl⟩
        | _ => exact ⟨l, h⟩
      obtain ⟨l', h'⟩ := this
      exact ih h' hm

theorem filterMap_fnOf_filter (l : List Ast) : (l.filter Ast.isFunction).filterMap fnOf = l.filterMap fnOf := by
  rw [List.filterMap_filter]
  congr 1
  funext n
  cases n <;> rfl

theorem transform_argName {ns : List Str} {c : Str} {a u : Ast} (h1 : a.transform ns c = .ok u) : argName u = argName a := by
  cases a with
  | name id => cases h1; rfl
  | «attribute» v a => obtain ⟨_, _, rfl⟩ := Except.map_ok h1; rfl
  | const k => cases k <;> (cases h1; rfl)
  | call f as ks => obtain ⟨_, _, _, _, _, _, rfl⟩ := transform_call_inv h1; rfl
  | keyword a v => obtain ⟨_, _, rfl⟩ := Except.map_ok h1; rfl
  | assign ts v =>
    obtain ⟨_, _, _, _, ⟨_, rfl⟩ | ⟨_, _, _, _, _, _, _, _, _, _, _, _, rfl⟩⟩ := transform_assign_inv h1 <;> rfl
  | arg x ann => obtain ⟨_, _, rfl⟩ := Except.map_ok h1; rfl
  | functionDef nm as os b ds rs => obtain ⟨_, _, _, _, _, _, _, _, _, _, _, rfl⟩ := transform_fn_inv h1; rfl
  | «import» names => cases h1; rfl
  | importFrom m names => cases h1; rfl
  | node k ids cs => obtain ⟨_, _, rfl⟩ := Except.map_ok h1; rfl

/-- Types survive compilation as names or dotted names. -/
theorem transform_typed {ns : List Str} {c : Str} {as as' : List Ast} (h : transformAll ns c as = .ok as')
    (hs : ∀ x ann, Ast.arg x ann ∈ as → ∃ e tl ty, ann = e :: tl ∧ typeText e = some ty) : (typedArgs as').isSome = true := by
  induction as generalizing as' with
  | nil => cases h; rfl
  | cons a as ih =>
    obtain ⟨u, us, h1, h2, rfl⟩ := transformAll_cons_inv h
    have hi := ih h2 (fun x ann ha => hs x ann (List.mem_cons_of_mem _ ha))
    by_cases ha : ∃ x ann, a = .arg x ann
    · obtain ⟨x, ann, rfl⟩ := ha
      obtain ⟨e, tl, ty, rfl, hty⟩ := hs x ann List.mem_cons_self
      obtain ⟨ann', h3, rfl⟩ := Except.map_ok h1
      obtain ⟨e', tl', h4, h5, rfl⟩ := transformAll_cons_inv h3
      obtain ⟨r, hr⟩ := Option.isSome_iff_exists.1 hi
      have : ∃ ty', typeText e' = some ty' := by
        unfold typeText at hty
        split at hty
        · cases h4; exact ⟨_, rfl⟩
        · obtain ⟨v', h6, rfl⟩ := Except.map_ok h4
          cases h6; exact ⟨_, rfl⟩
        · cases hty
      obtain ⟨ty', hty'⟩ := this
      simp [typedArgs, hty', hr]
    · have hu : ¬ ∃ x ann, u = .arg x ann := by
        rintro ⟨x, ann, rfl⟩
        have := transform_argName h1
        cases a <;> first | exact ha ⟨_, _, rfl⟩ | cases this
      have h1 : typedArgs (u :: us) = typedArgs us := by
        cases u <;> first | rfl | exact absurd ⟨_, _, rfl⟩ hu
      rw [h1]; exact hi

theorem transform_argNames {ns : List Str} {c : Str} {as as' : List Ast} (h : transformAll ns c as = .ok as') :
    argNames as' = argNames as := by
  induction as generalizing as' with
  | nil => cases h; rfl
  | cons a as ih =>
    obtain ⟨u, us, h1, h2, rfl⟩ := transformAll_cons_inv h
    have hi := ih h2
    unfold argNames at hi ⊢
    have := transform_argName h1
    simp only [List.filterMap_cons, this, hi]

end Verif

namespace Verif
open Spec

theorem nodesAll_mem {ts : List Ast} {n : Ast} : n ∈ nodesAll ts ↔ ∃ t ∈ ts, n ∈ t.nodes := by
  induction ts with
  | nil => simp [nodesAll]
  | cons t ts ih => simp [nodesAll, ih]

/-- Nodes of nodes are nodes. -/
theorem nodes_trans (t n : Ast) (hn : n ∈ t.nodes) (m : Ast) (hm : m ∈ n.nodes) : m ∈ t.nodes := by
  generalize hk : t.nodes.length = k
  induction k using Nat.strongRecOn generalizing t with
  | _ k ih =>
    have hn' := hn
    rw [nodes_children] at hn'
    rcases List.mem_cons.1 hn' with rfl | hc
    · exact hm
    · obtain ⟨u, hu, hnu⟩ := nodesAll_mem.1 hc
      have hlen : u.nodes.length < k := by
        have : u.nodes.length ≤ (nodesAll t.children).length := by
          clear ih hn hn' hc hk hnu
          generalize t.children = cs at hu ⊢
          induction cs with
          | nil => simp at hu
          | cons a as ih =>
            rw [nodesAll, List.length_append]
            rcases List.mem_cons.1 hu with rfl | hu
            · omega
            · have := ih hu; omega
        rw [nodes_children t, List.length_cons] at hk
        omega
      rw [nodes_children]
      exact List.mem_cons_of_mem _ (nodesAll_mem.2 ⟨u, hu, ih _ hlen u hnu rfl⟩)

mutual
/-- Nodes other than names and calls keep their place. -/
theorem transform_fwd (ns : List Str) (c : Str) : ∀ (t t' : Ast), FnOk t.nodes → t.transform ns c = .ok t' →
    ∀ n ∈ t.nodes, (∃ id, n = .name id) ∨ (∃ f as ks, n = .call f as ks) ∨ ∃ n' ∈ t'.nodes, Tr ns c n n'
  | .name id, t', _, h, n, hn => by
    simp only [Ast.nodes, List.mem_cons, List.not_mem_nil, or_false] at hn
    exact .inl ⟨id, hn⟩
  | .attribute v a, t', hf, h, n, hn => by
    obtain ⟨v', h1, rfl⟩ := Except.map_ok h
    rw [Ast.nodes] at hn
    rcases List.mem_cons.1 hn with rfl | hn
    · exact .inr (.inr ⟨_, by rw [Ast.nodes]; exact List.mem_cons_self, h⟩)
    · rcases transform_fwd ns c v v' hf.tail h1 n hn with h | h | ⟨n', hm, h⟩
      · exact .inl h
      · exact .inr (.inl h)
      · exact .inr (.inr ⟨n', by rw [Ast.nodes]; exact List.mem_cons_of_mem _ hm, h⟩)
  | .const k, t', _, h, n, hn => by
    simp only [Ast.nodes, List.mem_cons, List.not_mem_nil, or_false] at hn
    subst hn
    exact .inr (.inr ⟨t', by rw [nodes_children]; exact List.mem_cons_self, h⟩)
  | .call f as ks, t', hf, h, n, hn => by
    obtain ⟨f', as', ks', h1, h2, h3, rfl⟩ := transform_call_inv h
    have hf := hf.tail
    rw [Ast.nodes] at hn
    rcases List.mem_cons.1 hn with rfl | hn
    · exact .inr (.inl ⟨_, _, _, rfl⟩)
    · simp only [List.mem_append] at hn
      have key : (∃ id, n = .name id) ∨ (∃ f as ks, n = .call f as ks) ∨
          ∃ n' ∈ f'.nodes ++ nodesAll as' ++ nodesAll ks', Tr ns c n n' := by
        rcases hn with (hn | hn) | hn
        · rcases transform_fwd ns c f f' hf.left.left h1 n hn with h | h | ⟨n', hm, h⟩
          · exact .inl h
          · exact .inr (.inl h)
          · exact .inr (.inr ⟨n', by simp [hm], h⟩)
        · rcases transformAll_fwd ns c as as' hf.left.right h2 n hn with h | h | ⟨n', hm, h⟩
          · exact .inl h
          · exact .inr (.inl h)
          · exact .inr (.inr ⟨n', by simp [hm], h⟩)
        · rcases transformAll_fwd ns c ks ks' hf.right h3 n hn with h | h | ⟨n', hm, h⟩
          · exact .inl h
          · exact .inr (.inl h)
          · exact .inr (.inr ⟨n', by simp [hm], h⟩)
      rcases key with h | h | ⟨n', hm, h⟩
      · exact .inl h
      · exact .inr (.inl h)
      · exact .inr (.inr ⟨n', by rw [Ast.nodes]; exact List.mem_cons_of_mem _ hm, h⟩)
  | .keyword a v, t', hf, h, n, hn => by
    obtain ⟨v', h1, rfl⟩ := Except.map_ok h
    rw [Ast.nodes] at hn
    rcases List.mem_cons.1 hn with rfl | hn
    · exact .inr (.inr ⟨_, by rw [Ast.nodes]; exact List.mem_cons_self, h⟩)
    · rcases transform_fwd ns c v v' hf.tail h1 n hn with h | h | ⟨n', hm, h⟩
      · exact .inl h
      · exact .inr (.inl h)
      · exact .inr (.inr ⟨n', by rw [Ast.nodes]; exact List.mem_cons_of_mem _ hm, h⟩)
  | .assign ts v, t', hf, h, n, hn => by
    obtain ⟨ts', v', h1, h2, h3⟩ := transform_assign_inv h
    have hf := hf.tail
    rw [Ast.nodes] at hn
    rcases List.mem_cons.1 hn with rfl | hn
    · exact .inr (.inr ⟨t', by rw [nodes_children]; exact List.mem_cons_self, h⟩)
    · have key : (∃ id, n = .name id) ∨ (∃ f as ks, n = .call f as ks) ∨
          ∃ n', (n' ∈ nodesAll ts' ∨ n' ∈ v'.nodes) ∧ Tr ns c n n' := by
        rcases List.mem_append.1 hn with hn | hn
        · rcases transformAll_fwd ns c ts ts' hf.left h1 n hn with h | h | ⟨n', hm, h⟩
          · exact .inl h
          · exact .inr (.inl h)
          · exact .inr (.inr ⟨n', .inl hm, h⟩)
        · rcases transform_fwd ns c v v' hf.right h2 n hn with h | h | ⟨n', hm, h⟩
          · exact .inl h
          · exact .inr (.inl h)
          · exact .inr (.inr ⟨n', .inr hm, h⟩)
      rcases h3 with ⟨_, rfl⟩ | ⟨cls, as, ks, as', ks', x, tl, rfl, hcls, _, rfl, _, rfl⟩
      · rcases key with h | h | ⟨n', hm, h⟩
        · exact .inl h
        · exact .inr (.inl h)
        · exact .inr (.inr ⟨n', by rw [Ast.nodes]; exact List.mem_cons_of_mem _ (List.mem_append.2 hm), h⟩)
      · rcases key with h | h | ⟨n', hm, h⟩
        · exact .inl h
        · exact .inr (.inl h)
        · by_cases hc : ∃ f as ks, n = .call f as ks
          · exact .inr (.inl hc)
          · refine .inr (.inr ⟨n', ?_, h⟩)
            simp only [Ast.nodes, nodesAll_append]
            simp only [Ast.nodes] at hm
            simp only [List.mem_cons, List.mem_append] at hm ⊢
            rcases hm with hm | rfl | ((hm | hm) | hm) | hm
            · simp [hm]
            · exfalso
              cases n with
              | name id => cases h
              | «attribute» v a => obtain ⟨_, _, hh⟩ := Except.map_ok h; cases hh
              | const k =>
                cases k with
                | float text =>
                  have e : rename ns cls = py! "decimal" := by
                    have h' : (Except.ok (.call (.name (py! "decimal")) [.const (.str text)] []) : Except PyErr Ast) =
                      .ok (.call (.name (rename ns cls)) as' ks') := h
                    injection h' with h'
                    injection h' with h'
                    injection h' with h'
                    exact h'.symm
                  unfold rename at e
                  split at e
                  · cases e
                  · subst e
                    revert hcls
                    decide
                | _ => cases h
              | call f as ks => exact hc ⟨_, _, _, rfl⟩
              | keyword a v => obtain ⟨_, _, hh⟩ := Except.map_ok h; cases hh
              | assign ts v =>
                obtain ⟨_, _, _, _, ⟨_, hh⟩ | ⟨_, _, _, _, _, _, _, _, _, _, _, _, hh⟩⟩ := transform_assign_inv h <;> cases hh
              | arg x ann => obtain ⟨_, _, hh⟩ := Except.map_ok h; cases hh
              | functionDef nm as os b ds rs => obtain ⟨_, _, _, _, _, _, _, _, _, _, _, hh⟩ := transform_fn_inv h; cases hh
              | «import» names => cases h
              | importFrom m names => cases h
              | node k ids cs => obtain ⟨_, _, hh⟩ := Except.map_ok h; cases hh
            · simp [hm]
            · cases hm
            · simp [hm]
            · simp [hm]
  | .arg x ann, t', hf, h, n, hn => by
    obtain ⟨v', h1, rfl⟩ := Except.map_ok h
    rw [Ast.nodes] at hn
    rcases List.mem_cons.1 hn with rfl | hn
    · exact .inr (.inr ⟨_, by rw [Ast.nodes]; exact List.mem_cons_self, h⟩)
    · rcases transformAll_fwd ns c ann v' hf.tail h1 n hn with h | h | ⟨n', hm, h⟩
      · exact .inl h
      · exact .inr (.inl h)
      · exact .inr (.inr ⟨n', by rw [Ast.nodes]; exact List.mem_cons_of_mem _ hm, h⟩)
  | .functionDef nm as os b ds rs, t', hf, h, n, hn => by
    obtain ⟨nm', as', os', b', ds', rs', h0, h1, h2, h3, h4, rfl⟩ := transform_fn_inv h
    have hd := hf nm as os b ds rs (by rw [Ast.nodes]; exact List.mem_cons_self)
    have hf := hf.tail
    rw [Ast.nodes] at hn
    rcases List.mem_cons.1 hn with rfl | hn
    · exact .inr (.inr ⟨_, by rw [Ast.nodes]; exact List.mem_cons_self, h⟩)
    · simp only [List.mem_append] at hn
      have key : (∃ id, n = .name id) ∨ (∃ f as ks, n = .call f as ks) ∨
          ∃ n' ∈ nodesAll as' ++ nodesAll os' ++ nodesAll b' ++ nodesAll ds' ++ nodesAll rs', Tr ns c n n' := by
        rcases hn with (((hn | hn) | hn) | hn) | hn
        · rcases transformAll_fwd ns c as as' hf.left.left.left.left h1 n hn with h | h | ⟨n', hm, h⟩
          · exact .inl h
          · exact .inr (.inl h)
          · exact .inr (.inr ⟨n', by simp [hm], h⟩)
        · rcases transformAll_fwd ns c os os' hf.left.left.left.right h2 n hn with h | h | ⟨n', hm, h⟩
          · exact .inl h
          · exact .inr (.inl h)
          · exact .inr (.inr ⟨n', by simp [hm], h⟩)
        · rcases transformAll_fwd ns c b b' hf.left.left.right h3 n hn with h | h | ⟨n', hm, h⟩
          · exact .inl h
          · exact .inr (.inl h)
          · exact .inr (.inr ⟨n', by simp [hm], h⟩)
        · left
          rcases hd with rfl | rfl | rfl
          · simp [nodesAll] at hn
          · simp only [nodesAll, Ast.nodes, List.append_nil, List.mem_cons, List.not_mem_nil, or_false] at hn; exact ⟨_, hn⟩
          · simp only [nodesAll, Ast.nodes, List.append_nil, List.mem_cons, List.not_mem_nil, or_false] at hn; exact ⟨_, hn⟩
        · rcases transformAll_fwd ns c rs rs' hf.right h4 n hn with h | h | ⟨n', hm, h⟩
          · exact .inl h
          · exact .inr (.inl h)
          · exact .inr (.inr ⟨n', by simp [hm], h⟩)
      rcases key with h | h | ⟨n', hm, h⟩
      · exact .inl h
      · exact .inr (.inl h)
      · exact .inr (.inr ⟨n', by rw [Ast.nodes]; exact List.mem_cons_of_mem _ hm, h⟩)
  | .import names, t', _, h, n, hn => by
    simp only [Ast.nodes, List.mem_cons, List.not_mem_nil, or_false] at hn
    subst hn
    exact .inr (.inr ⟨t', by rw [nodes_children]; exact List.mem_cons_self, h⟩)
  | .importFrom m names, t', _, h, n, hn => by
    simp only [Ast.nodes, List.mem_cons, List.not_mem_nil, or_false] at hn
    subst hn
    exact .inr (.inr ⟨t', by rw [nodes_children]; exact List.mem_cons_self, h⟩)
  | .node k ids cs, t', hf, h, n, hn => by
    obtain ⟨v', h1, rfl⟩ := Except.map_ok h
    rw [Ast.nodes] at hn
    rcases List.mem_cons.1 hn with rfl | hn
    · exact .inr (.inr ⟨_, by rw [Ast.nodes]; exact List.mem_cons_self, h⟩)
    · rcases transformAll_fwd ns c cs v' hf.tail h1 n hn with h | h | ⟨n', hm, h⟩
      · exact .inl h
      · exact .inr (.inl h)
      · exact .inr (.inr ⟨n', by rw [Ast.nodes]; exact List.mem_cons_of_mem _ hm, h⟩)
theorem transformAll_fwd (ns : List Str) (c : Str) : ∀ (ts ts' : List Ast), FnOk (nodesAll ts) → transformAll ns c ts = .ok ts' →
    ∀ n ∈ nodesAll ts, (∃ id, n = .name id) ∨ (∃ f as ks, n = .call f as ks) ∨ ∃ n' ∈ nodesAll ts', Tr ns c n n'
  | [], ts', _, h, n, hn => by simp [nodesAll] at hn
  | t :: ts, ts', hf, h, n, hn => by
    obtain ⟨u, us, h1, h2, rfl⟩ := transformAll_cons_inv h
    rw [nodesAll] at hf hn
    rcases List.mem_append.1 hn with hn | hn
    · rcases transform_fwd ns c t u hf.left h1 n hn with h | h | ⟨n', hm, h⟩
      · exact .inl h
      · exact .inr (.inl h)
      · exact .inr (.inr ⟨n', by simp [nodesAll, hm], h⟩)
    · rcases transformAll_fwd ns c ts us hf.right h2 n hn with h | h | ⟨n', hm, h⟩
      · exact .inl h
      · exact .inr (.inl h)
      · exact .inr (.inr ⟨n', by simp [nodesAll, hm], h⟩)
end

end Verif
