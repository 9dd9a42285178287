import Verif.Proofs.Ast4
import Mathlib.Data.List.Forall2
/-!
# The compiled tree
-/
namespace Verif
open Spec

/-- The two keywords the compiler adds. -/
def extra (c x : Str) : List Ast :=
  [.keyword (some (py! "contract")) (.const (.str c)), .keyword (some (py! "name")) (.const (.str x))]

theorem transform_call_inv {ns : List Str} {c : Str} {f : Ast} {as ks : List Ast} {t' : Ast}
    (h : (Ast.call f as ks).transform ns c = .ok t') :
    ∃ f' as' ks', f.transform ns c = .ok f' ∧ transformAll ns c as = .ok as' ∧ transformAll ns c ks = .ok ks' ∧
      t' = .call f' as' ks' := by
  rw [Ast.transform] at h
  cases h1 : f.transform ns c with
  | error e => rw [h1] at h; cases h
  | ok f' =>
    rw [h1] at h
    simp only at h
    cases h2 : transformAll ns c as with
    | error e => rw [h2] at h; cases h
    | ok as' =>
      rw [h2] at h
      obtain ⟨ks', h3, h4⟩ := Except.map_ok h
      exact ⟨f', as', ks', rfl, rfl, h3, h4⟩

theorem transform_assign_inv {ns : List Str} {c : Str} {ts : List Ast} {v t' : Ast}
    (h : (Ast.assign ts v).transform ns c = .ok t') :
    ∃ ts' v', transformAll ns c ts = .ok ts' ∧ v.transform ns c = .ok v' ∧
      ((ormCall v = .ok none ∧ t' = .assign ts' v') ∨
       ∃ cls as ks as' ks' x tl, v = .call (.name cls) as ks ∧ cls ∈ ormClasses ∧ ts = .name x :: tl ∧
         v' = .call (.name (rename ns cls)) as' ks' ∧ transformAll ns c ks = .ok ks' ∧
         t' = .assign ts' (.call (.name (rename ns cls)) as' (ks' ++ extra c x))) := by
  rw [Ast.transform] at h
  cases h1 : ormCall v with
  | error e => rw [h1] at h; cases h
  | ok orm =>
    rw [h1] at h
    simp only at h
    cases orm with
    | none =>
      simp only [Option.isSome_none, Bool.false_eq_true, if_false] at h
      cases h2 : transformAll ns c ts with
      | error e => rw [h2] at h; cases h
      | ok ts' =>
        rw [h2] at h
        simp only at h
        cases h3 : v.transform ns c with
        | error e => rw [h3] at h; cases h
        | ok v' =>
          rw [h3] at h
          cases h
          exact ⟨ts', v', rfl, rfl, .inl ⟨rfl, rfl⟩⟩
    | some cls =>
      obtain ⟨as, ks, rfl, hcls⟩ := ormCall_some h1
      simp only [Option.isSome_some, if_true] at h
      cases ts with
      | nil => cases h
      | cons t0 tl =>
        cases hx : t0.id? with
        | none => simp [hx] at h
        | some x =>
          obtain rfl := id?_some hx
          simp only [List.head?_cons, Option.bind_some, hx, Option.toList_some] at h
          cases h2 : transformAll ns c (.name x :: tl) with
          | error e => rw [h2] at h; cases h
          | ok ts' =>
            rw [h2] at h
            simp only at h
            cases h3 : (Ast.call (.name cls) as ks).transform ns c with
            | error e => rw [h3] at h; cases h
            | ok v' =>
              obtain ⟨f', as', ks', k1, k2, k3, rfl⟩ := transform_call_inv h3
              rw [h3] at h
              cases k1
              cases h
              exact ⟨ts', _, rfl, rfl, .inr ⟨cls, as, ks, as', ks', x, tl, rfl, hcls, rfl, rfl, k3, rfl⟩⟩

theorem transform_fn_inv {ns : List Str} {c nm : Str} {as os b ds rs : List Ast} {t' : Ast}
    (h : (Ast.functionDef nm as os b ds rs).transform ns c = .ok t') :
    ∃ nm' as' os' b' ds' rs', newHeader ns c nm ds = .ok (nm', ds') ∧ transformAll ns c as = .ok as' ∧
      transformAll ns c os = .ok os' ∧ transformAll ns c b = .ok b' ∧ transformAll ns c rs = .ok rs' ∧
      t' = .functionDef nm' as' os' b' ds' rs' := by
  rw [Ast.transform] at h
  cases h1 : newHeader ns c nm ds with
  | error e => rw [h1] at h; cases h
  | ok p =>
    obtain ⟨nm', ds'⟩ := p
    rw [h1] at h
    simp only at h
    cases h2 : transformAll ns c as with
    | error e => rw [h2] at h; cases h
    | ok as' =>
      rw [h2] at h
      simp only at h
      cases h3 : transformAll ns c os with
      | error e => rw [h3] at h; cases h
      | ok os' =>
        rw [h3] at h
        simp only at h
        cases h4 : transformAll ns c b with
        | error e => rw [h4] at h; cases h
        | ok b' =>
          rw [h4] at h
          obtain ⟨rs', h5, h6⟩ := Except.map_ok h
          exact ⟨nm', as', os', b', ds', rs', rfl, rfl, rfl, rfl, h5, h6⟩

theorem transformAll_cons_inv {ns : List Str} {c : Str} {t : Ast} {ts ts' : List Ast}
    (h : transformAll ns c (t :: ts) = .ok ts') :
    ∃ u us, t.transform ns c = .ok u ∧ transformAll ns c ts = .ok us ∧ ts' = u :: us := by
  rw [transformAll] at h
  cases h1 : t.transform ns c with
  | error e => rw [h1] at h; cases h
  | ok u =>
    rw [h1] at h
    obtain ⟨us, h2, h3⟩ := Except.map_ok h
    exact ⟨u, us, rfl, h2, h3⟩

/-- The new header for an allowed decorator. -/
theorem newHeader_inv {ns : List Str} {c nm nm' : Str} {ds ds' : List Ast} (hd : Spec.AllowedDecorators ds)
    (h : newHeader ns c nm ds = .ok (nm', ds')) :
    (ds = [] ∧ nm' = privatize nm ∧ ds' = []) ∨
    (ds = [.name (py! "export")] ∧ nm' = nm ∧ ds' = [.call (.name (rename ns (py! "__export"))) [.const (.str c)] []]) ∨
    (ds = [.name (py! "construct")] ∧ nm' = py! "____" ∧ ds' = []) := by
  rcases hd with rfl | rfl | rfl
  · cases h; exact .inl ⟨rfl, rfl, rfl⟩
  · exact .inr (.inl ⟨rfl, by
      have : newHeader ns c nm [.name (py! "export")] =
        .ok (nm, [.call (.name (rename ns (py! "__export"))) [.const (.str c)] []]) := rfl
      rw [this] at h; cases h; exact ⟨rfl, rfl⟩⟩)
  · exact .inr (.inr ⟨rfl, by
      have : newHeader ns c nm [.name (py! "construct")] = .ok (py! "____", []) := rfl
      rw [this] at h; cases h; exact ⟨rfl, rfl⟩⟩)

/-- A node that comes from a source node. -/
def Tr (ns : List Str) (c : Str) (n n' : Ast) : Prop := n.transform ns c = .ok n'

theorem transform_key {ns : List Str} {c : Str} {n n' : Ast} (h : n.transform ns c = .ok n') : n'.key = n.key := by
  cases n with
  | name id => cases h; rfl
  | «attribute» v a => obtain ⟨_, _, rfl⟩ := Except.map_ok h; rfl
  | const k => cases k <;> (cases h; rfl)
  | call f as ks => obtain ⟨_, _, _, _, _, _, rfl⟩ := transform_call_inv h; rfl
  | keyword a v => obtain ⟨_, _, rfl⟩ := Except.map_ok h; rfl
  | assign ts v =>
    obtain ⟨_, _, _, _, ⟨_, rfl⟩ | ⟨_, _, _, _, _, _, _, _, _, _, _, _, rfl⟩⟩ := transform_assign_inv h <;> rfl
  | arg x ann => obtain ⟨_, _, rfl⟩ := Except.map_ok h; rfl
  | functionDef nm as os b ds rs => obtain ⟨_, _, _, _, _, _, _, _, _, _, _, rfl⟩ := transform_fn_inv h; rfl
  | «import» names => cases h; rfl
  | importFrom m names => cases h; rfl
  | node k ids cs => obtain ⟨_, _, rfl⟩ := Except.map_ok h; rfl

theorem allowed_nokey {ds : List Ast} (hd : Spec.AllowedDecorators ds) : (nodesAll ds).filter Ast.key = [] := by
  rcases hd with rfl | rfl | rfl <;> rfl

theorem newHeader_nokey {ns : List Str} {c nm nm' : Str} {ds ds' : List Ast} (hd : Spec.AllowedDecorators ds)
    (h : newHeader ns c nm ds = .ok (nm', ds')) : (nodesAll ds').filter Ast.key = [] := by
  rcases newHeader_inv hd h with ⟨_, _, rfl⟩ | ⟨_, _, rfl⟩ | ⟨_, _, rfl⟩ <;> rfl

theorem nodesAll_append (xs ys : List Ast) : nodesAll (xs ++ ys) = nodesAll xs ++ nodesAll ys := by
  induction xs with
  | nil => rfl
  | cons x xs ih => simp [nodesAll, ih]

theorem extra_nokey (c x : Str) : (nodesAll (extra c x)).filter Ast.key = [] := rfl

/-- All functions in these nodes have allowed decorators. -/
def FnOk (l : List Ast) : Prop := ∀ nm as os b ds rs, Ast.functionDef nm as os b ds rs ∈ l → Spec.AllowedDecorators ds

theorem FnOk.left {xs ys : List Ast} (h : FnOk (xs ++ ys)) : FnOk xs :=
  fun nm as os b ds rs hm => h nm as os b ds rs (List.mem_append_left _ hm)
theorem FnOk.right {xs ys : List Ast} (h : FnOk (xs ++ ys)) : FnOk ys :=
  fun nm as os b ds rs hm => h nm as os b ds rs (List.mem_append_right _ hm)
theorem FnOk.tail {x : Ast} {ys : List Ast} (h : FnOk (x :: ys)) : FnOk ys :=
  fun nm as os b ds rs hm => h nm as os b ds rs (List.mem_cons_of_mem _ hm)

abbrev keys (l : List Ast) : List Ast := l.filter Ast.key

theorem keys_cons_no {n : Ast} {l : List Ast} (h : n.key = false) : keys (n :: l) = keys l := by
  simp [keys, h]
theorem keys_cons_yes {n : Ast} {l : List Ast} (h : n.key = true) : keys (n :: l) = n :: keys l := by
  simp [keys, h]

mutual
/-- Functions and assignments correspond one to one, in order. -/
theorem transform_keys (ns : List Str) (c : Str) : ∀ (t t' : Ast), FnOk t.nodes → t.transform ns c = .ok t' →
    List.Forall₂ (Tr ns c) (keys t.nodes) (keys t'.nodes)
  | .name id, t', _, h => by cases h; exact .nil
  | .attribute v a, t', hf, h => by
    obtain ⟨v', h1, rfl⟩ := Except.map_ok h
    exact transform_keys ns c v v' hf.tail h1
  | .const k, t', _, h => by cases k <;> (cases h; exact .nil)
  | .call f as ks, t', hf, h => by
    obtain ⟨f', as', ks', h1, h2, h3, rfl⟩ := transform_call_inv h
    have hf := hf.tail
    rw [Ast.nodes, Ast.nodes, keys_cons_no rfl, keys_cons_no rfl]
    simp only [keys, List.filter_append]
    exact List.rel_append (List.rel_append (transform_keys ns c f f' hf.left.left h1)
      (transformAll_keys ns c as as' hf.left.right h2)) (transformAll_keys ns c ks ks' hf.right h3)
  | .keyword a v, t', hf, h => by
    obtain ⟨v', h1, rfl⟩ := Except.map_ok h
    exact transform_keys ns c v v' hf.tail h1
  | .assign ts v, t', hf, h => by
    obtain ⟨ts', v', h1, h2, h3⟩ := transform_assign_inv h
    have hf := hf.tail
    have g1 := transformAll_keys ns c ts ts' hf.left h1
    have g2 := transform_keys ns c v v' hf.right h2
    have hn : keys t'.nodes = t' :: (keys (nodesAll ts') ++ keys v'.nodes) := by
      rcases h3 with ⟨_, rfl⟩ | ⟨cls, as, ks, as', ks', x, tl, _, _, _, rfl, _, rfl⟩
      · rw [Ast.nodes, keys_cons_yes rfl]; simp [keys, List.filter_append]
      · simp only [Ast.nodes, nodesAll_append, keys, List.filter_append]
        rw [List.filter_cons_of_pos rfl]
        simp only [List.filter_append]
        rw [List.filter_cons_of_neg (by simp [Ast.key]), List.filter_cons_of_neg (by simp [Ast.key])]
        simp only [List.filter_append, extra_nokey, List.append_nil]
    rw [hn, Ast.nodes, keys_cons_yes rfl]
    simp only [keys, List.filter_append]
    exact .cons h (List.rel_append g1 g2)
  | .arg x ann, t', hf, h => by
    obtain ⟨v', h1, rfl⟩ := Except.map_ok h
    exact transformAll_keys ns c ann v' hf.tail h1
  | .functionDef nm as os b ds rs, t', hf, h => by
    obtain ⟨nm', as', os', b', ds', rs', h0, h1, h2, h3, h4, rfl⟩ := transform_fn_inv h
    have hd := hf nm as os b ds rs (by rw [Ast.nodes]; exact List.mem_cons_self)
    have hf := hf.tail
    have e1 := allowed_nokey hd
    have e2 := newHeader_nokey hd h0
    rw [Ast.nodes, Ast.nodes, keys_cons_yes rfl, keys_cons_yes rfl]
    simp only [keys, List.filter_append]
    rw [e1, e2, List.append_nil, List.append_nil]
    refine .cons h ?_
    exact List.rel_append (List.rel_append (List.rel_append (transformAll_keys ns c as as' hf.left.left.left.left h1)
      (transformAll_keys ns c os os' hf.left.left.left.right h2))
      (transformAll_keys ns c b b' hf.left.left.right h3)) (transformAll_keys ns c rs rs' hf.right h4)
  | .import names, t', _, h => by cases h; exact .nil
  | .importFrom m names, t', _, h => by cases h; exact .nil
  | .node k ids cs, t', hf, h => by
    obtain ⟨v', h1, rfl⟩ := Except.map_ok h
    exact transformAll_keys ns c cs v' hf.tail h1
theorem transformAll_keys (ns : List Str) (c : Str) : ∀ (ts ts' : List Ast), FnOk (nodesAll ts) → transformAll ns c ts = .ok ts' →
    List.Forall₂ (Tr ns c) (keys (nodesAll ts)) (keys (nodesAll ts'))
  | [], ts', _, h => by cases h; exact .nil
  | t :: ts, ts', hf, h => by
    obtain ⟨u, us, h1, h2, rfl⟩ := transformAll_cons_inv h
    rw [nodesAll] at hf
    simp only [nodesAll, keys, List.filter_append]
    exact List.rel_append (transform_keys ns c t u hf.left h1) (transformAll_keys ns c ts us hf.right h2)
end

/-! ## Where the nodes of the compiled tree come from -/

/-- Nodes put in by the compiler. -/
inductive Added (ns : List Str) (c : Str) : Ast → Prop
  | str (s : Str) : Added ns c (.const (.str s))
  | decimal (text : Str) : Added ns c (.call (.name (py! "decimal")) [.const (.str text)] [])
  | decimalName : Added ns c (.name (py! "decimal"))
  | export_ : Added ns c (.call (.name (rename ns (py! "__export"))) [.const (.str c)] [])
  | exportName : Added ns c (.name (rename ns (py! "__export")))
  | keyword (k : Str) (x : Str) : Added ns c (.keyword (some k) (.const (.str x)))

theorem self_mem (t : Ast) : t ∈ t.nodes := by cases t <;> (rw [Ast.nodes]; exact List.mem_cons_self)

/-- Where a node of the compiled tree comes from. -/
inductive Origin (ns : List Str) (c : Str) (src : List Ast) : Ast → Prop
  | source (n n' : Ast) : n ∈ src → Tr ns c n n' → Origin ns c src n'
  | added (n' : Ast) : Added ns c n' → Origin ns c src n'
  | orm (cls x : Str) (as' ks' : List Ast) : cls ∈ ormClasses → (∃ v ∈ src, Tr ns c v (.call (.name (rename ns cls)) as' ks')) →
      Origin ns c src (.call (.name (rename ns cls)) as' (ks' ++ extra c x))

theorem Origin.mono {ns : List Str} {c : Str} {src src' : List Ast} {n : Ast} (h : Origin ns c src n)
    (hs : ∀ m ∈ src, m ∈ src') : Origin ns c src' n := by
  cases h with
  | source m _ hm ht => exact .source m _ (hs _ hm) ht
  | added _ h => exact .added _ h
  | orm cls x as' ks' h hv => obtain ⟨v, hv, ht⟩ := hv; exact .orm cls x as' ks' h ⟨v, hs _ hv, ht⟩

theorem newHeader_added {ns : List Str} {c nm nm' : Str} {ds ds' : List Ast} (hd : Spec.AllowedDecorators ds)
    (h : newHeader ns c nm ds = .ok (nm', ds')) : ∀ n ∈ nodesAll ds', Added ns c n := by
  rcases newHeader_inv hd h with ⟨_, _, rfl⟩ | ⟨_, _, rfl⟩ | ⟨_, _, rfl⟩
  · simp [nodesAll]
  · simp only [nodesAll, Ast.nodes, List.append_nil, List.mem_append, List.mem_cons, List.not_mem_nil, or_false]
    rintro n (rfl | rfl | rfl)
    · exact .export_
    · exact .exportName
    · exact .str _
  · simp [nodesAll]

theorem extra_added {ns : List Str} {c x : Str} : ∀ n ∈ nodesAll (extra c x), Added ns c n := by
  simp only [extra, nodesAll, Ast.nodes, List.append_nil, List.mem_append, List.mem_cons, List.not_mem_nil, or_false]
  rintro n ((rfl | rfl) | (rfl | rfl))
  · exact .keyword _ _
  · exact .str _
  · exact .keyword _ _
  · exact .str _

mutual
theorem transform_origin (ns : List Str) (c : Str) : ∀ (t t' : Ast), FnOk t.nodes → t.transform ns c = .ok t' →
    ∀ n ∈ t'.nodes, Origin ns c t.nodes n
  | .name id, t', _, h, n, hn => by
    have h0 := h
    cases h
    simp only [Ast.nodes, List.mem_cons, List.not_mem_nil, or_false] at hn
    subst hn
    exact .source (.name id) _ (by simp [Ast.nodes]) h0
  | .attribute v a, t', hf, h, n, hn => by
    obtain ⟨v', h1, rfl⟩ := Except.map_ok h
    rw [Ast.nodes] at hn
    rcases List.mem_cons.1 hn with rfl | hn
    · exact .source _ _ (by rw [Ast.nodes]; exact List.mem_cons_self) h
    · exact (transform_origin ns c v v' hf.tail h1 n hn).mono (by intro m hm; rw [Ast.nodes]; exact List.mem_cons_of_mem _ hm)
  | .const k, t', _, h, n, hn => by
    have h0 := h
    by_cases hk : ∃ text, k = .float text
    · obtain ⟨text, rfl⟩ := hk
      cases h
      simp only [Ast.nodes, nodesAll, List.append_nil, List.mem_cons, List.mem_append, List.not_mem_nil, or_false] at hn
      rcases hn with rfl | rfl | rfl
      · exact .added _ (.decimal _)
      · exact .added _ .decimalName
      · exact .added _ (.str _)
    · have ht : t' = .const k := by
        cases k <;> first | (cases h; rfl) | exact absurd ⟨_, rfl⟩ hk
      subst ht
      simp only [Ast.nodes, List.mem_cons, List.not_mem_nil, or_false] at hn
      subst hn
      exact .source (.const k) _ (by simp [Ast.nodes]) h0
  | .call f as ks, t', hf, h, n, hn => by
    obtain ⟨f', as', ks', h1, h2, h3, rfl⟩ := transform_call_inv h
    have hf := hf.tail
    rw [Ast.nodes] at hn
    rcases List.mem_cons.1 hn with rfl | hn
    · exact .source _ _ (by rw [Ast.nodes]; exact List.mem_cons_self) h
    · simp only [List.mem_append] at hn
      rcases hn with (hn | hn) | hn
      · exact (transform_origin ns c f f' hf.left.left h1 n hn).mono (by intro m hm; simp [Ast.nodes, hm])
      · exact (transformAll_origin ns c as as' hf.left.right h2 n hn).mono (by intro m hm; simp [Ast.nodes, hm])
      · exact (transformAll_origin ns c ks ks' hf.right h3 n hn).mono (by intro m hm; simp [Ast.nodes, hm])
  | .keyword a v, t', hf, h, n, hn => by
    obtain ⟨v', h1, rfl⟩ := Except.map_ok h
    rw [Ast.nodes] at hn
    rcases List.mem_cons.1 hn with rfl | hn
    · exact .source _ _ (by rw [Ast.nodes]; exact List.mem_cons_self) h
    · exact (transform_origin ns c v v' hf.tail h1 n hn).mono (by intro m hm; rw [Ast.nodes]; exact List.mem_cons_of_mem _ hm)
  | .assign ts v, t', hf, h, n, hn => by
    obtain ⟨ts', v', h1, h2, h3⟩ := transform_assign_inv h
    have hf := hf.tail
    have g1 : ∀ n ∈ nodesAll ts', Origin ns c (Ast.assign ts v).nodes n := fun n hn =>
      (transformAll_origin ns c ts ts' hf.left h1 n hn).mono (by intro m hm; simp [Ast.nodes, hm])
    have g2 : ∀ n ∈ v'.nodes, Origin ns c (Ast.assign ts v).nodes n := fun n hn =>
      (transform_origin ns c v v' hf.right h2 n hn).mono (by intro m hm; simp [Ast.nodes, hm])
    have g0 : Origin ns c (Ast.assign ts v).nodes t' := .source _ _ (by rw [Ast.nodes]; exact List.mem_cons_self) h
    rcases h3 with ⟨_, rfl⟩ | ⟨cls, as, ks, as', ks', x, tl, _, hcls, _, rfl, _, rfl⟩
    · rw [Ast.nodes] at hn
      rcases List.mem_cons.1 hn with rfl | hn
      · exact g0
      · rcases List.mem_append.1 hn with hn | hn
        · exact g1 n hn
        · exact g2 n hn
    · rw [Ast.nodes] at hn
      rcases List.mem_cons.1 hn with rfl | hn
      · exact g0
      · rcases List.mem_append.1 hn with hn | hn
        · exact g1 n hn
        · simp only [Ast.nodes, nodesAll_append] at hn
          rcases List.mem_cons.1 hn with rfl | hn
          · exact .orm cls x as' ks' hcls ⟨v, by rw [Ast.nodes]; exact List.mem_cons_of_mem _ (List.mem_append_right _ (self_mem v)), h2⟩
          · simp only [List.mem_append] at hn
            rcases hn with (hn | hn) | hn | hn
            · exact g2 n (by simp only [Ast.nodes]; simp only [List.mem_cons, List.mem_append]; simp at hn; simp [hn])
            · exact g2 n (by simp only [Ast.nodes]; simp only [List.mem_cons, List.mem_append]; simp [hn])
            · exact g2 n (by simp only [Ast.nodes]; simp only [List.mem_cons, List.mem_append]; simp [hn])
            · exact .added _ (extra_added n hn)
  | .arg x ann, t', hf, h, n, hn => by
    obtain ⟨v', h1, rfl⟩ := Except.map_ok h
    rw [Ast.nodes] at hn
    rcases List.mem_cons.1 hn with rfl | hn
    · exact .source _ _ (by rw [Ast.nodes]; exact List.mem_cons_self) h
    · exact (transformAll_origin ns c ann v' hf.tail h1 n hn).mono (by intro m hm; rw [Ast.nodes]; exact List.mem_cons_of_mem _ hm)
  | .functionDef nm as os b ds rs, t', hf, h, n, hn => by
    obtain ⟨nm', as', os', b', ds', rs', h0, h1, h2, h3, h4, rfl⟩ := transform_fn_inv h
    have hd := hf nm as os b ds rs (by rw [Ast.nodes]; exact List.mem_cons_self)
    have hf := hf.tail
    rw [Ast.nodes] at hn
    rcases List.mem_cons.1 hn with rfl | hn
    · exact .source _ _ (by rw [Ast.nodes]; exact List.mem_cons_self) h
    · simp only [List.mem_append] at hn
      rcases hn with (((hn | hn) | hn) | hn) | hn
      · exact (transformAll_origin ns c as as' hf.left.left.left.left h1 n hn).mono (by intro m hm; simp [Ast.nodes, hm])
      · exact (transformAll_origin ns c os os' hf.left.left.left.right h2 n hn).mono (by intro m hm; simp [Ast.nodes, hm])
      · exact (transformAll_origin ns c b b' hf.left.left.right h3 n hn).mono (by intro m hm; simp [Ast.nodes, hm])
      · exact .added _ (newHeader_added hd h0 n hn)
      · exact (transformAll_origin ns c rs rs' hf.right h4 n hn).mono (by intro m hm; simp [Ast.nodes, hm])
  | .import names, t', _, h, n, hn => by
    have h0 := h
    cases h
    simp only [Ast.nodes, List.mem_cons, List.not_mem_nil, or_false] at hn
    subst hn
    exact .source (.import names) _ (by simp [Ast.nodes]) h0
  | .importFrom m names, t', _, h, n, hn => by
    have h0 := h
    cases h
    simp only [Ast.nodes, List.mem_cons, List.not_mem_nil, or_false] at hn
    subst hn
    exact .source (.importFrom m names) _ (by simp [Ast.nodes]) h0
  | .node k ids cs, t', hf, h, n, hn => by
    obtain ⟨v', h1, rfl⟩ := Except.map_ok h
    rw [Ast.nodes] at hn
    rcases List.mem_cons.1 hn with rfl | hn
    · exact .source _ _ (by rw [Ast.nodes]; exact List.mem_cons_self) h
    · exact (transformAll_origin ns c cs v' hf.tail h1 n hn).mono (by intro m hm; rw [Ast.nodes]; exact List.mem_cons_of_mem _ hm)
theorem transformAll_origin (ns : List Str) (c : Str) : ∀ (ts ts' : List Ast), FnOk (nodesAll ts) → transformAll ns c ts = .ok ts' →
    ∀ n ∈ nodesAll ts', Origin ns c (nodesAll ts) n
  | [], ts', _, h, n, hn => by cases h; simp [nodesAll] at hn
  | t :: ts, ts', hf, h, n, hn => by
    obtain ⟨u, us, h1, h2, rfl⟩ := transformAll_cons_inv h
    rw [nodesAll] at hf hn
    rcases List.mem_append.1 hn with hn | hn
    · exact (transform_origin ns c t u hf.left h1 n hn).mono (by intro m hm; simp [nodesAll, hm])
    · exact (transformAll_origin ns c ts us hf.right h2 n hn).mono (by intro m hm; simp [nodesAll, hm])
end

end Verif
