import Verif.Proofs.Ast6
/-!
# `ast.walk` level by level, and the compiled tree
-/
namespace Verif
open Spec

theorem walk_split (l : List Ast) : ∀ (n : Nat) (q : List Ast), l.length ≤ n →
    walk n (l ++ q) = l ++ walk (n - l.length) (q ++ l.flatMap Ast.children) := by
  induction l with
  | nil => intro n q _; simp
  | cons a l ih =>
    intro n q hn
    cases n with
    | zero => simp at hn
    | succ n =>
      have e := ih n (q ++ a.children) (by simpa using hn)
      rw [List.cons_append, walk, List.append_assoc, e, List.flatMap_cons, List.cons_append, List.length_cons,
        Nat.add_sub_add_right, List.append_assoc]

theorem nodesAll_length_children (l : List Ast) : (nodesAll l).length = l.length + (nodesAll (l.flatMap Ast.children)).length := by
  induction l with
  | nil => rfl
  | cons a l ih =>
    rw [nodesAll, nodes_children, List.flatMap_cons, nodesAll_append]
    simp only [List.length_append, List.length_cons, ih]
    omega

theorem level_nil (k : Nat) : level k [] = [] := by
  induction k with
  | zero => rfl
  | succ k ih => exact ih

theorem walk_levels : ∀ (m n : Nat) (l : List Ast), (nodesAll l).length ≤ n → (nodesAll l).length ≤ m →
    walk n l = (List.range m).flatMap (fun k => level k l) := by
  intro m
  induction m with
  | zero =>
    intro n l _ hm
    have : l = [] := by
      have := nodesAll_length_children l
      exact List.eq_nil_of_length_eq_zero (by omega)
    subst this
    cases n <;> rfl
  | succ m ih =>
    intro n l hn hm
    have hlen := nodesAll_length_children l
    cases l with
    | nil =>
      have : (List.range (m + 1)).flatMap (fun k => level k []) = [] := by simp [level_nil]
      rw [this]
      cases n <;> rfl
    | cons a l =>
      have e := walk_split (a :: l) n [] (by omega)
      rw [List.append_nil, List.nil_append] at e
      have hl : (a :: l).length = l.length + 1 := rfl
      rw [e, ih (n - (a :: l).length) _ (by omega) (by omega), List.range_succ_eq_map,
        List.flatMap_cons (f := fun k => level k (a :: l)), List.flatMap_map]
      rfl

theorem walk_levelOrder (t : Ast) : walk t.size [t] = levelOrder t := by
  have h : (nodesAll [t]).length ≤ t.size := by rw [size_nodes]; simp [nodesAll]
  exact walk_levels _ _ _ h h

theorem walk_levels_of (t : Ast) {m : Nat} (hm : t.size ≤ m) : walk t.size [t] = (List.range m).flatMap (fun k => level k [t]) := by
  have h : (nodesAll [t]).length ≤ t.size := by rw [size_nodes]; simp [nodesAll]
  exact walk_levels _ _ _ h (by omega)

/-! ## The levels of the compiled tree -/

/-- No functions and assignments below. -/
def Junk (n : Ast) : Prop := keys n.nodes = []

/-- A compiled node and its source; calls may have more keywords. -/
inductive NR (ns : List Str) (c : Str) : Ast → Ast → Prop
  | tr {n n' : Ast} : n.transform ns c = .ok n' → NR ns c n n'
  | orm {cls x : Str} {as ks as' ks' : List Ast} :
      (Ast.call (.name cls) as ks).transform ns c = .ok (.call (.name (rename ns cls)) as' ks') →
      NR ns c (.call (.name cls) as ks) (.call (.name (rename ns cls)) as' (ks' ++ extra c x))

/-- Corresponding lists of nodes: on both sides there may be more nodes without functions and assignments. -/
inductive QRel (ns : List Str) (c : Str) : List Ast → List Ast → Prop
  | nil : QRel ns c [] []
  | cons {n n' : Ast} {l l' : List Ast} : FnOk n.nodes → NR ns c n n' → QRel ns c l l' → QRel ns c (n :: l) (n' :: l')
  | left {n : Ast} {l l' : List Ast} : Junk n → QRel ns c l l' → QRel ns c (n :: l) l'
  | right {n' : Ast} {l l' : List Ast} : Junk n' → QRel ns c l l' → QRel ns c l (n' :: l')

theorem QRel.append {ns : List Str} {c : Str} {a a' b b' : List Ast} (h : QRel ns c a a') (h' : QRel ns c b b') :
    QRel ns c (a ++ b) (a' ++ b') := by
  induction h with
  | nil => exact h'
  | cons hf hn _ ih => exact .cons hf hn ih
  | left hj _ ih => exact .left hj ih
  | right hj _ ih => exact .right hj ih

theorem QRel.lefts {ns : List Str} {c : Str} {a b b' : List Ast} (ha : ∀ n ∈ a, Junk n) (h' : QRel ns c b b') :
    QRel ns c (a ++ b) b' := by
  induction a with
  | nil => exact h'
  | cons n a ih => exact .left (ha n List.mem_cons_self) (ih (fun m hm => ha m (List.mem_cons_of_mem _ hm)))

theorem QRel.rights {ns : List Str} {c : Str} {a b b' : List Ast} (ha : ∀ n ∈ a, Junk n) (h' : QRel ns c b b') :
    QRel ns c b (a ++ b') := by
  induction a with
  | nil => exact h'
  | cons n a ih => exact .right (ha n List.mem_cons_self) (ih (fun m hm => ha m (List.mem_cons_of_mem _ hm)))

theorem junk_of {l : List Ast} (h : (nodesAll l).filter Ast.key = []) : ∀ n ∈ l, Junk n := by
  intro n hn
  refine List.filter_eq_nil_iff.2 (fun m hm => ?_)
  exact List.filter_eq_nil_iff.1 h m (nodesAll_mem.2 ⟨n, hn, hm⟩)

theorem Junk.children {n : Ast} (h : Junk n) : ∀ m ∈ n.children, Junk m := by
  unfold Junk at h
  rw [nodes_children] at h
  refine junk_of ?_
  have := List.filter_eq_nil_iff.1 h
  exact List.filter_eq_nil_iff.2 (fun m hm => this m (List.mem_cons_of_mem _ hm))

theorem QRel.all {ns : List Str} {c : Str} {as as' : List Ast} (hf : ∀ n ∈ as, FnOk n.nodes) (h : transformAll ns c as = .ok as') :
    QRel ns c as as' := by
  induction as generalizing as' with
  | nil => cases h; exact .nil
  | cons a as ih =>
    obtain ⟨u, us, h1, h2, rfl⟩ := transformAll_cons_inv h
    exact .cons (hf a List.mem_cons_self) (.tr h1) (ih (fun n hn => hf n (List.mem_cons_of_mem _ hn)) h2)

theorem fnOk_child {n m : Ast} (h : FnOk n.nodes) (hm : m ∈ n.children) : FnOk m.nodes := by
  intro nm as os b ds rs hq
  refine h nm as os b ds rs ?_
  rw [nodes_children]
  exact List.mem_cons_of_mem _ (nodesAll_mem.2 ⟨m, hm, hq⟩)

theorem NR.children {ns : List Str} {c : Str} {n n' : Ast} (hf : FnOk n.nodes) (h : NR ns c n n') : QRel ns c n.children n'.children := by
  have hc : ∀ m ∈ n.children, FnOk m.nodes := fun m hm => fnOk_child hf hm
  cases h with
  | tr h =>
    cases n with
    | name id => cases h; exact .nil
    | «attribute» v a =>
      obtain ⟨v', h1, rfl⟩ := Except.map_ok h
      exact .cons (hc v (by simp [Ast.children])) (.tr h1) .nil
    | const k =>
      cases k with
      | float text =>
        cases h
        exact .right rfl (.right rfl .nil)
      | _ => cases h; exact .nil
    | call f as ks =>
      obtain ⟨f', as', ks', h1, h2, h3, rfl⟩ := transform_call_inv h
      refine QRel.append (QRel.cons (hc f (by simp [Ast.children])) (.tr h1) (QRel.all (fun m hm => hc m ?_) h2)) (QRel.all (fun m hm => hc m ?_) h3)
      · simp [Ast.children, hm]
      · simp [Ast.children, hm]
    | keyword a v =>
      obtain ⟨v', h1, rfl⟩ := Except.map_ok h
      exact .cons (hc v (by simp [Ast.children])) (.tr h1) .nil
    | assign ts v =>
      have hts : ∀ m ∈ ts, FnOk m.nodes := fun m hm => hc m (by simp [Ast.children, hm])
      have hv : FnOk v.nodes := hc v (by simp [Ast.children])
      obtain ⟨ts', v', h1, h2, ⟨_, rfl⟩ | ⟨cls, as, ks, as', ks', x, tl, rfl, _, rfl, rfl, _, rfl⟩⟩ := transform_assign_inv h
      · exact QRel.append (.all hts h1) (.cons hv (.tr h2) .nil)
      · exact QRel.append (.all hts h1) (.cons hv (.orm h2) .nil)
    | arg x ann =>
      obtain ⟨v', h1, rfl⟩ := Except.map_ok h
      exact .all hc h1
    | functionDef nm as os b ds rs =>
      obtain ⟨nm', as', os', b', ds', rs', h0, h1, h2, h3, h4, rfl⟩ := transform_fn_inv h
      have hd : AllowedDecorators ds := hf nm as os b ds rs (by rw [Ast.nodes]; exact List.mem_cons_self)
      have e1 : (Ast.functionDef nm as os b ds rs).children = (as ++ os ++ b) ++ (ds ++ rs) := by simp [Ast.children]
      have e2 : (Ast.functionDef nm' as' os' b' ds' rs').children = (as' ++ os' ++ b') ++ (ds' ++ rs') := by simp [Ast.children]
      rw [e1, e2]
      rw [e1] at hc
      refine QRel.append (QRel.append (QRel.append (.all (fun m hm => hc m (by simp [hm])) h1) (.all (fun m hm => hc m (by simp [hm])) h2))
        (.all (fun m hm => hc m (by simp [hm])) h3)) ?_
      refine QRel.lefts (junk_of (allowed_nokey hd)) (QRel.rights (junk_of (newHeader_nokey hd h0)) (.all (fun m hm => hc m (by simp [hm])) h4))
    | «import» names => cases h; exact .nil
    | importFrom m names => cases h; exact .nil
    | node k ids cs =>
      obtain ⟨v', h1, rfl⟩ := Except.map_ok h
      exact .all hc h1
  | orm h =>
    rename_i cls x as ks as' ks'
    obtain ⟨f', as2, ks2, h1, h2, h3, he⟩ := transform_call_inv h
    cases he
    refine QRel.append (QRel.cons (hc _ (by simp [Ast.children])) (.tr h1) (QRel.all (fun m hm => hc m ?_) h2)) ?_
    · simp [Ast.children, hm]
    · have := QRel.append (QRel.all (fun m hm => hc m (by simp [Ast.children, hm])) h3) (QRel.rights (junk_of (extra_nokey c x)) .nil)
      simpa using this

theorem QRel.children {ns : List Str} {c : Str} {l l' : List Ast} (h : QRel ns c l l') :
    QRel ns c (l.flatMap Ast.children) (l'.flatMap Ast.children) := by
  induction h with
  | nil => exact .nil
  | cons hf hn _ ih => exact (hn.children hf).append ih
  | left hj _ ih => exact .lefts hj.children ih
  | right hj _ ih => exact .rights hj.children ih

theorem QRel.level {ns : List Str} {c : Str} (k : Nat) : ∀ {l l' : List Ast}, QRel ns c l l' → QRel ns c (level k l) (level k l') := by
  induction k with
  | zero => exact fun h => h
  | succ k ih => exact fun h => ih h.children

theorem Junk.key {n : Ast} (h : Junk n) : n.key = false := by
  have := List.filter_eq_nil_iff.1 h n (by rw [nodes_children]; exact List.mem_cons_self)
  simpa using this

theorem QRel.keys {ns : List Str} {c : Str} {l l' : List Ast} (h : QRel ns c l l') : List.Forall₂ (Tr ns c) (keys l) (keys l') := by
  induction h with
  | nil => exact .nil
  | cons hf hn _ ih =>
    cases hn with
    | tr h =>
      rename_i n n' _ _ _
      cases hk : n.key with
      | true => rw [keys_cons_yes hk, keys_cons_yes (by rw [transform_key h, hk])]; exact .cons h ih
      | false => rw [keys_cons_no hk, keys_cons_no (by rw [transform_key h, hk])]; exact ih
    | orm h => rw [keys_cons_no rfl, keys_cons_no rfl]; exact ih
  | left hj _ ih => rw [keys_cons_no hj.key]; exact ih
  | right hj _ ih => rw [keys_cons_no hj.key]; exact ih

/-- In the order of `ast.walk` the functions and assignments of the compiled tree are those of the source. -/
theorem walk_keys {ns : List Str} {c : Str} {t t' : Ast} (hf : FnOk t.nodes) (h : t.transform ns c = .ok t') :
    List.Forall₂ (Tr ns c) (Verif.keys (levelOrder t)) (Verif.keys (walk t'.size [t'])) := by
  have h0 : QRel ns c [t] [t'] := .cons hf (.tr h) .nil
  rw [← walk_levelOrder, walk_levels_of t (Nat.le_max_left t.size t'.size), walk_levels_of t' (Nat.le_max_right t.size t'.size)]
  generalize max t.size t'.size = m
  have : QRel ns c ((List.range m).flatMap (fun k => Spec.level k [t])) ((List.range m).flatMap (fun k => Spec.level k [t'])) := by
    generalize List.range m = ks
    induction ks with
    | nil => exact .nil
    | cons k ks ih => rw [List.flatMap_cons, List.flatMap_cons]; exact (h0.level k).append ih
  exact this.keys

end Verif
