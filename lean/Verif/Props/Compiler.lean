import Verif.Model.Compiler
import Verif.Props.Accept
/-! # C82: using one compiler several times -/
namespace Verif
open Spec AstDemo

theorem collect_ok : ∀ {ns : List Ast} {acc : List Str}, (∀ n ∈ ns, nodeFails n = false) →
    collect ns acc = .ok (acc ++ ns.flatMap Ast.ownNames) := by
  intro ns
  induction ns with
  | nil => intro acc _; simp [collect]
  | cons n ns ih =>
    intro acc h
    rw [collect, if_neg (by simp [h n]), ih (fun m hm => h m (by simp [hm]))]
    simp

theorem collect_error : ∀ {ns : List Ast} {acc : List Str}, (∃ n ∈ ns, nodeFails n = true) →
    ∃ l, collect ns acc = .error l ∧ (∀ x ∈ acc, x ∈ l) ∧ ∀ x ∈ l, x ∈ acc ∨ x ∈ ns.flatMap Ast.ownNames := by
  intro ns
  induction ns with
  | nil => rintro acc ⟨n, hn, _⟩; simp at hn
  | cons n ns ih =>
    rintro acc ⟨m, hm, hf⟩
    rw [collect]
    by_cases hn : nodeFails n = true
    · rw [if_pos hn]
      exact ⟨acc, rfl, fun x h => h, fun x h => Or.inl h⟩
    · rw [if_neg hn]
      have hm' : m ∈ ns := by
        rcases List.mem_cons.1 hm with rfl | h
        · exact absurd hf hn
        · exact h
      obtain ⟨l, h1, h2, h3⟩ := ih (acc := acc ++ n.ownNames) ⟨m, hm', hf⟩
      refine ⟨l, h1, fun x hx => h2 x (by simp [hx]), fun x hx => ?_⟩
      rcases h3 x hx with h | h
      · rcases List.mem_append.1 h with h | h
        · exact Or.inl h
        · exact Or.inr (by simp [h])
      · exact Or.inr (by rw [List.flatMap_cons]; simp only [List.mem_append]; exact Or.inr h)

theorem mem_names (t : Ast) (x : Str) : x ∈ t.nodes.flatMap Ast.ownNames ↔ x ∈ t.names := by
  rw [names_mem]; simp

theorem newHeader_fails {ns : List Str} {c nm : Str} {ds : List Ast} :
    (match ds.getLast? with | some d => d.id?.isNone | none => false) = true → newHeader ns c nm ds = .error .attributeError := by
  intro h
  unfold newHeader
  cases hd : ds.getLast? with
  | none => rw [hd] at h; cases h
  | some d =>
    rw [hd] at h
    simp only [Option.isNone_iff_eq_none] at h
    simp only [h]

theorem newHeader_passes {ns : List Str} {c nm : Str} {ds : List Ast} :
    (match ds.getLast? with | some d => d.id?.isNone | none => false) = false → ∃ r, newHeader ns c nm ds = .ok r := by
  intro h
  unfold newHeader
  cases hd : ds.getLast? with
  | none => exact ⟨_, rfl⟩
  | some d =>
    rw [hd] at h
    simp only [Option.isNone_eq_false_iff, Option.isSome_iff_exists] at h
    obtain ⟨id, h⟩ := h
    simp only [h]
    split
    · exact ⟨_, rfl⟩
    · split <;> exact ⟨_, rfl⟩

/-- The outcome of the transformation. -/
def Vis {α : Type} (ns : List Ast) (r : Except PyErr α) : Prop :=
  (r = .error .attributeError ∧ ∃ n ∈ ns, nodeFails n = true) ∨ ((∃ x, r = .ok x) ∧ ∀ n ∈ ns, nodeFails n = false)

theorem ormCall_error {v : Ast} {e : PyErr} (h : ormCall v = .error e) : e = .attributeError := by
  unfold ormCall at h
  split at h
  · split at h
    · cases h
    · split at h <;> cases h
      rfl
  · cases h

theorem Vis.map {α β : Type} {ns : List Ast} {r : Except PyErr α} (f : α → β) (h : Vis ns r) : Vis ns (r.map f) := by
  rcases h with ⟨rfl, h⟩ | ⟨⟨x, rfl⟩, h⟩
  · exact Or.inl ⟨rfl, h⟩
  · exact Or.inr ⟨⟨_, rfl⟩, h⟩

theorem Vis.cons {α : Type} {n : Ast} {ns : List Ast} {r : Except PyErr α} (hn : nodeFails n = false) (h : Vis ns r) : Vis (n :: ns) r := by
  rcases h with ⟨rfl, m, hm, h⟩ | ⟨hx, h⟩
  · exact Or.inl ⟨rfl, m, by simp [hm], h⟩
  · refine Or.inr ⟨hx, fun m hm => ?_⟩
    rcases List.mem_cons.1 hm with rfl | hm
    · exact hn
    · exact h m hm

theorem Vis.bind {α β : Type} {ns ms : List Ast} {r : Except PyErr α} {r' : Except PyErr β} (h : Vis ns r)
    (he : r = .error .attributeError → r' = .error .attributeError) (hk : ∀ x, r = .ok x → Vis ms r') : Vis (ns ++ ms) r' := by
  rcases h with ⟨h1, m, hm, h⟩ | ⟨⟨x, h1⟩, h⟩
  · exact Or.inl ⟨he h1, m, by simp [hm], h⟩
  · rcases hk x h1 with ⟨h1, m, hm, h2⟩ | ⟨h1, h2⟩
    · exact Or.inl ⟨h1, m, by simp [hm], h2⟩
    · refine Or.inr ⟨h1, fun m hm => ?_⟩
      rcases List.mem_append.1 hm with hm | hm
      · exact h m hm
      · exact h2 m hm

theorem Vis.nil {α : Type} (x : α) : Vis [] (.ok x) := Or.inr ⟨⟨x, rfl⟩, by simp⟩

theorem Vis.append_clean {α : Type} {ns ms : List Ast} {r : Except PyErr α} (hm : ∀ n ∈ ms, nodeFails n = false) (h : Vis ns r) :
    Vis (ns ++ ms) r := by
  rcases h with ⟨rfl, n, hn, h⟩ | ⟨hx, h⟩
  · exact Or.inl ⟨rfl, n, by simp [hn], h⟩
  · refine Or.inr ⟨hx, fun n hn => ?_⟩
    rcases List.mem_append.1 hn with hn | hn
    · exact h n hn
    · exact hm n hn

theorem Vis.perm {α : Type} {ns ms : List Ast} {r : Except PyErr α} (hm : ∀ n, n ∈ ms ↔ n ∈ ns) (h : Vis ns r) : Vis ms r := by
  rcases h with ⟨rfl, n, hn, h⟩ | ⟨hx, h⟩
  · exact Or.inl ⟨rfl, n, (hm n).2 hn, h⟩
  · exact Or.inr ⟨hx, fun n hn => h n ((hm n).1 hn)⟩

/-- Decorators are expressions: they contain no definitions and no assignments. (True of every parsed tree.) -/
def PlainDecorators (ns : List Ast) : Prop :=
  ∀ nm as os b ds rs, .functionDef nm as os b ds rs ∈ ns → ∀ d ∈ nodesAll ds, d.isFunction = false ∧ d.isAssign = false

theorem PlainDecorators.sub {ns ms : List Ast} (h : PlainDecorators ns) (hs : ∀ n ∈ ms, n ∈ ns) : PlainDecorators ms :=
  fun nm as os b ds rs hm => h nm as os b ds rs (hs _ hm)

theorem nodeFails_expr {n : Ast} (h1 : n.isFunction = false) (h2 : n.isAssign = false) : nodeFails n = false := by
  cases n <;> first | rfl | (cases h1; done) | (cases h2; done)

mutual
theorem transform_vis (ns : List Str) (c : Str) : ∀ t : Ast, PlainDecorators t.nodes → Vis t.nodes (t.transform ns c)
  | .name id, _ => Or.inr ⟨⟨_, rfl⟩, by intro n hn; rw [Ast.nodes] at hn; simp at hn; subst hn; rfl⟩
  | .attribute v a, h => by
    rw [Ast.transform, Ast.nodes]
    exact Vis.cons rfl (Vis.map _ (transform_vis ns c v (h.sub (fun n hn => by rw [Ast.nodes]; exact List.mem_cons_of_mem _ hn))))
  | .const k, _ => by
    refine Or.inr ⟨by cases k <;> exact ⟨_, rfl⟩, by intro n hn; rw [Ast.nodes] at hn; simp at hn; subst hn; rfl⟩
  | .call f as ks, h => by
    have h1 := transform_vis ns c f (h.sub (fun n hn => by rw [Ast.nodes]; simp [hn]))
    have h2 := transformAll_vis ns c as (h.sub (fun n hn => by rw [Ast.nodes]; simp [hn]))
    have h3 := transformAll_vis ns c ks (h.sub (fun n hn => by rw [Ast.nodes]; simp [hn]))
    rw [Ast.transform, Ast.nodes]
    refine Vis.cons rfl ?_
    rw [List.append_assoc]
    refine h1.bind (fun e => by rw [e]) fun f' hf => ?_
    rw [hf]
    refine h2.bind (fun e => by rw [e]) fun as' has => ?_
    rw [has]
    exact h3.map _
  | .keyword a v, h => by
    rw [Ast.transform, Ast.nodes]
    exact Vis.cons rfl (Vis.map _ (transform_vis ns c v (h.sub (fun n hn => by rw [Ast.nodes]; exact List.mem_cons_of_mem _ hn))))
  | .assign ts v, h => by
    have h1 := transformAll_vis ns c ts (h.sub (fun n hn => by rw [Ast.nodes]; simp [hn]))
    have h2 := transform_vis ns c v (h.sub (fun n hn => by rw [Ast.nodes]; simp [hn]))
    rw [Ast.transform, Ast.nodes]
    cases ho : ormCall v with
    | error e =>
      refine Or.inl ⟨by rw [ormCall_error ho], .assign ts v, by simp, by simp [nodeFails, ho]⟩
    | ok o =>
      cases o with
      | none =>
        refine Vis.cons (by simp [nodeFails, ho]) ?_
        simp only [Option.isSome_none, Bool.false_eq_true, if_false]
        refine h1.bind (fun e => by rw [e]) fun ts' hts => ?_
        rw [hts]
        rcases h2 with ⟨h2, h3⟩ | ⟨⟨v', h2⟩, h3⟩
        · rw [h2]; exact Or.inl ⟨rfl, h3⟩
        · rw [h2]; exact Or.inr ⟨⟨_, rfl⟩, h3⟩
      | some cls =>
        cases hi : ts.head?.bind Ast.id? with
        | none =>
          refine Or.inl ⟨by simp, .assign ts v, by simp, by simp [nodeFails, ho, hi]⟩
        | some target =>
          refine Vis.cons (by simp [nodeFails, ho, hi]) ?_
          simp only [Option.isSome_some, if_true, Option.toList_some]
          refine h1.bind (fun e => by rw [e]) fun ts' hts => ?_
          rw [hts]
          rcases h2 with ⟨h2, h3⟩ | ⟨⟨v', h2⟩, h3⟩
          · rw [h2]; exact Or.inl ⟨rfl, h3⟩
          · rw [h2]; refine Or.inr ⟨?_, h3⟩
            cases v' <;> exact ⟨_, rfl⟩
  | .arg x ann, h => by
    rw [Ast.transform, Ast.nodes]
    exact Vis.cons rfl (Vis.map _ (transformAll_vis ns c ann (h.sub (fun n hn => by rw [Ast.nodes]; exact List.mem_cons_of_mem _ hn))))
  | .functionDef nm as os b ds rs, h => by
    have h1 := transformAll_vis ns c as (h.sub (fun n hn => by rw [Ast.nodes]; simp [hn]))
    have h2 := transformAll_vis ns c os (h.sub (fun n hn => by rw [Ast.nodes]; simp [hn]))
    have h3 := transformAll_vis ns c b (h.sub (fun n hn => by rw [Ast.nodes]; simp [hn]))
    have h4 := transformAll_vis ns c rs (h.sub (fun n hn => by rw [Ast.nodes]; simp [hn]))
    have hd : ∀ n ∈ nodesAll ds, nodeFails n = false := fun n hn =>
      let ⟨x, y⟩ := h nm as os b ds rs (by rw [Ast.nodes]; exact List.mem_cons_self) n hn
      nodeFails_expr x y
    rw [Ast.transform, Ast.nodes]
    cases hf : nodeFails (.functionDef nm as os b ds rs) with
    | true =>
      refine Or.inl ⟨?_, .functionDef nm as os b ds rs, by simp, hf⟩
      rw [newHeader_fails (ds := ds) hf]
    | false =>
      obtain ⟨⟨nm', ds'⟩, h5⟩ := newHeader_passes (ns := ns) (c := c) (nm := nm) (ds := ds) hf
      refine Vis.cons hf ?_
      rw [h5]
      refine Vis.perm (ns := (nodesAll as ++ (nodesAll os ++ (nodesAll b ++ nodesAll rs))) ++ nodesAll ds) ?_ (Vis.append_clean hd ?_)
      · intro n
        simp only [List.mem_append]
        tauto
      · refine h1.bind (fun e => by rw [e]) fun as' has => ?_
        rw [has]
        refine h2.bind (fun e => by rw [e]) fun os' hos => ?_
        rw [hos]
        refine h3.bind (fun e => by rw [e]) fun b' hb => ?_
        rw [hb]
        exact h4.map _
  | .import names, _ => Or.inr ⟨⟨_, rfl⟩, by intro n hn; rw [Ast.nodes] at hn; simp at hn; subst hn; rfl⟩
  | .importFrom m names, _ => Or.inr ⟨⟨_, rfl⟩, by intro n hn; rw [Ast.nodes] at hn; simp at hn; subst hn; rfl⟩
  | .node k ids cs, h => by
    rw [Ast.transform, Ast.nodes]
    exact Vis.cons rfl (Vis.map _ (transformAll_vis ns c cs (h.sub (fun n hn => by rw [Ast.nodes]; exact List.mem_cons_of_mem _ hn))))
theorem transformAll_vis (ns : List Str) (c : Str) : ∀ ts : List Ast, PlainDecorators (nodesAll ts) → Vis (nodesAll ts) (transformAll ns c ts)
  | [], _ => by rw [transformAll, nodesAll]; exact Vis.nil _
  | t :: ts, h => by
    have h1 := transform_vis ns c t (h.sub (fun n hn => by rw [nodesAll]; simp [hn]))
    have h2 := transformAll_vis ns c ts (h.sub (fun n hn => by rw [nodesAll]; simp [hn]))
    rw [transformAll, nodesAll]
    exact h1.bind (fun e => by rw [e]) fun t' ht => by rw [ht]; exact h2.map _
end

mutual
/-- The transformation depends on the collected names only through the names that occur. -/
theorem transform_congr {ns ms : List Str} (c : Str) (he : rename ns (py! "__export") = rename ms (py! "__export")) :
    ∀ t : Ast, (∀ id, .name id ∈ t.nodes → rename ns id = rename ms id) → t.transform ns c = t.transform ms c
  | .name id, h => by rw [Ast.transform, Ast.transform, h id (by rw [Ast.nodes]; simp)]
  | .attribute v a, h => by
    rw [Ast.transform, Ast.transform, transform_congr c he v (fun id hi => h id (by rw [Ast.nodes]; simp [hi]))]
  | .const k, _ => by cases k <;> rfl
  | .call f as ks, h => by
    rw [Ast.transform, Ast.transform, transform_congr c he f (fun id hi => h id (by rw [Ast.nodes]; simp [hi])),
      transformAll_congr c he as (fun id hi => h id (by rw [Ast.nodes]; simp [hi])),
      transformAll_congr c he ks (fun id hi => h id (by rw [Ast.nodes]; simp [hi]))]
  | .keyword a v, h => by
    rw [Ast.transform, Ast.transform, transform_congr c he v (fun id hi => h id (by rw [Ast.nodes]; simp [hi]))]
  | .assign ts v, h => by
    rw [Ast.transform, Ast.transform, transform_congr c he v (fun id hi => h id (by rw [Ast.nodes]; simp [hi])),
      transformAll_congr c he ts (fun id hi => h id (by rw [Ast.nodes]; simp [hi]))]
  | .arg x ann, h => by
    rw [Ast.transform, Ast.transform, transformAll_congr c he ann (fun id hi => h id (by rw [Ast.nodes]; simp [hi]))]
  | .functionDef nm as os b ds rs, h => by
    have : newHeader ns c nm ds = newHeader ms c nm ds := by unfold newHeader; rw [he]
    rw [Ast.transform, Ast.transform, this,
      transformAll_congr c he as (fun id hi => h id (by rw [Ast.nodes]; simp [hi])),
      transformAll_congr c he os (fun id hi => h id (by rw [Ast.nodes]; simp [hi])),
      transformAll_congr c he b (fun id hi => h id (by rw [Ast.nodes]; simp [hi])),
      transformAll_congr c he rs (fun id hi => h id (by rw [Ast.nodes]; simp [hi]))]
  | .import names, _ => rfl
  | .importFrom m names, _ => rfl
  | .node k ids cs, h => by
    rw [Ast.transform, Ast.transform, transformAll_congr c he cs (fun id hi => h id (by rw [Ast.nodes]; simp [hi]))]
theorem transformAll_congr {ns ms : List Str} (c : Str) (he : rename ns (py! "__export") = rename ms (py! "__export")) :
    ∀ ts : List Ast, (∀ id, .name id ∈ nodesAll ts → rename ns id = rename ms id) → transformAll ns c ts = transformAll ms c ts
  | [], _ => rfl
  | t :: ts, h => by
    rw [transformAll, transformAll, transform_congr c he t (fun id hi => h id (by rw [nodesAll]; simp [hi])),
      transformAll_congr c he ts (fun id hi => h id (by rw [nodesAll]; simp [hi]))]
end

theorem rename_congr {ns ms : List Str} {id : Str} (h : id ∈ ns ↔ id ∈ ms) : rename ns id = rename ms id := by
  unfold rename
  have : ns.contains id = ms.contains id := by
    rw [Bool.eq_iff_iff]; simpa using h
  rw [this]

theorem transform_same {ns ms : List Str} (c : Str) (h : ∀ x, x ∈ ns ↔ x ∈ ms) (t : Ast) : t.transform ns c = t.transform ms c :=
  transform_congr c (rename_congr (h _)) t fun _ _ => rename_congr (h _)

/-! ## The property -/

/-- One use with linting, in any state: what it returns and what it leaves behind. -/
theorem parse_lint (I : PyInfo) (st : Compiler) {t : Ast} (hw : PlainDecorators t.nodes) :
    (∃ e, t.compile I st.contract = .error e ∧ (st.parse I (some t) true).1 = .error e) ∨
    ((∃ t', t.compile I st.contract = .ok t') ∧ ∃ t'', t.transform (st.names ++ t.names) st.contract = .ok t'' ∧
      st.parse I (some t) true = (.ok t'', { st with alerts := false, names := [] })) := by
  unfold Compiler.parse Ast.compile
  simp only [if_true]
  cases hc : t.check I with
  | error e => exact Or.inl ⟨e, rfl, rfl⟩
  | ok vs =>
    dsimp only [Except.map]
    rcases transform_vis t.names st.contract t hw with ⟨h1, h2⟩ | ⟨⟨t', h1⟩, h2⟩
    · obtain ⟨l, h3, _⟩ := collect_error (acc := st.names) h2
      exact Or.inl ⟨.attributeError, by rw [h1], by rw [h3]⟩
    · rw [collect_ok h2]
      dsimp only
      cases hv : vs.isEmpty with
      | false => exact Or.inl ⟨.exception, by rw [h1]; rfl, rfl⟩
      | true =>
        right
        refine ⟨⟨t', by rw [h1]; rfl⟩, ?_⟩
        have hs : t.transform (st.names ++ t.nodes.flatMap Ast.ownNames) st.contract = t.transform (st.names ++ t.names) st.contract :=
          transform_same _ (fun x => by simp only [List.mem_append, mem_names]) t
        rcases transform_vis (st.names ++ t.names) st.contract t hw with ⟨_, h4⟩ | ⟨⟨t'', h3⟩, _⟩
        · obtain ⟨n, hn, hf⟩ := h4
          rw [h2 n hn] at hf; cases hf
        · refine ⟨t'', h3, ?_⟩
          rw [hs, h3]
          rfl

theorem parse_contract (I : PyInfo) (st : Compiler) (s : Option Ast) (lint : Bool) : (st.parse I s lint).2.contract = st.contract := by
  unfold Compiler.parse
  split
  · rfl
  · split
    · rfl
    · split
      · rfl
      · split
        · rfl
        · split <;> rfl

theorem uses_contract (I : PyInfo) : ∀ (us : List (Option Ast × Bool)) (st : Compiler), (st.uses I us).contract = st.contract
  | [], _ => rfl
  | (s, lint) :: us, st => by rw [Compiler.uses, uses_contract I us, parse_contract]

/-- C82: whether a source is accepted, and with which exception it is refused, does not depend on what the compiler
was used for before. -/
theorem C82_accepts (I : PyInfo) (st : Compiler) (us : List (Option Ast × Bool)) {t : Ast} (hw : PlainDecorators t.nodes) :
    (∀ e, ((st.uses I us).parse I (some t) true).1 = .error e ↔ t.compile I st.contract = .error e) ∧
    ((∃ t'', ((st.uses I us).parse I (some t) true).1 = .ok t'') ↔ ∃ t', t.compile I st.contract = .ok t') := by
  have hc := uses_contract I us st
  rcases parse_lint I (st.uses I us) hw with ⟨e, h1, h2⟩ | ⟨⟨t', h1⟩, t'', _, h2⟩
  · rw [hc] at h1
    rw [h1, h2]
    refine ⟨fun e' => Iff.rfl, ?_⟩
    constructor <;> rintro ⟨_, h⟩ <;> cases h
  · rw [hc] at h1
    rw [h1, h2]
    refine ⟨fun e' => ?_, ?_⟩
    · constructor <;> intro h <;> cases h
    · exact ⟨fun _ => ⟨_, rfl⟩, fun _ => ⟨_, rfl⟩⟩

/-- C82: what an accepted source is compiled to: as by a new compiler, except that the names left by refused sources
are treated like names of its own. -/
theorem C82_result (I : PyInfo) (st : Compiler) {t t'' : Ast} (hw : PlainDecorators t.nodes)
    (h : (st.parse I (some t) true).1 = .ok t'') : t.transform (st.names ++ t.names) st.contract = .ok t'' := by
  rcases parse_lint I st hw with ⟨e, h1, h2⟩ | ⟨⟨t', h1⟩, u, h3, h2⟩
  · rw [h2] at h; cases h
  · rw [h2] at h; cases h; exact h3

/-- C82: what a use leaves behind. Success leaves nothing; a source that is no Python changes nothing; a refused one
adds at most the names of its undecorated functions and its storage, all of them if it was refused for violations. -/
theorem C82_left (I : PyInfo) (st : Compiler) (s : Option Ast) (lint : Bool) :
    ((∃ t', (st.parse I s lint).1 = .ok t') → (st.parse I s lint).2.names = [] ∧ (st.parse I s lint).2.alerts = false) ∧
    (s = none → (st.parse I s lint).2 = st) ∧
    (∀ t, s = some t → (∃ e, (st.parse I s lint).1 = .error e) →
      (∀ x ∈ st.names, x ∈ (st.parse I s lint).2.names) ∧
      (∀ x ∈ (st.parse I s lint).2.names, x ∈ st.names ∨ x ∈ t.names)) ∧
    (∀ t, s = some t → (∃ vs, t.check I = .ok vs ∧ vs ≠ []) → lint = true → (∀ n ∈ t.nodes, nodeFails n = false) →
      ∀ x, x ∈ (st.parse I s lint).2.names ↔ x ∈ st.names ∨ x ∈ t.names) := by
  refine ⟨?_, ?_, ?_, ?_⟩
  · rintro ⟨t', h⟩
    unfold Compiler.parse at h ⊢
    cases s with
    | none => cases h
    | some t =>
      simp only at h ⊢
      generalize (if lint = true then (t.check I).map (fun v => !v.isEmpty) else Except.ok st.alerts) = r at h ⊢
      cases r with
      | error e => cases h
      | ok alerts =>
        simp only at h ⊢
        cases hc : collect t.nodes st.names with
        | error l => rw [hc] at h; cases h
        | ok l =>
          rw [hc] at h
          simp only at h ⊢
          cases alerts with
          | true => rw [if_pos rfl] at h; cases h
          | false =>
            rw [if_neg (by simp)] at h ⊢
            cases ht : t.transform l st.contract with
            | error e => rw [ht] at h; cases h
            | ok u => exact ⟨rfl, rfl⟩
  · rintro rfl; rfl
  · rintro t rfl ⟨e, h⟩
    unfold Compiler.parse at h ⊢
    simp only at h ⊢
    generalize hr : (if lint = true then (t.check I).map (fun v => !v.isEmpty) else Except.ok st.alerts) = r at h ⊢
    cases r with
    | error e => exact ⟨fun x hx => hx, fun x hx => Or.inl hx⟩
    | ok alerts =>
      simp only at h ⊢
      by_cases hn : ∀ n ∈ t.nodes, nodeFails n = false
      · rw [collect_ok hn] at h ⊢
        simp only at h ⊢
        split
        · refine ⟨fun x hx => by simp [hx], fun x hx => ?_⟩
          simpa only [List.mem_append, mem_names] using hx
        · rename_i ha
          rw [if_neg ha] at h
          split
          · refine ⟨fun x hx => by simp [hx], fun x hx => ?_⟩
            simpa only [List.mem_append, mem_names] using hx
          · rename_i ht
            rw [ht] at h
            cases h
      · have : ∃ n ∈ t.nodes, nodeFails n = true := by
          by_contra hh
          apply hn
          intro n hn'
          by_contra hf
          exact hh ⟨n, hn', by simpa using hf⟩
        obtain ⟨l, h1, h2, h3⟩ := collect_error (acc := st.names) this
        rw [h1]
        exact ⟨h2, fun x hx => (h3 x hx).imp id (mem_names t x).1⟩
  · rintro t rfl ⟨vs, h1, h2⟩ rfl hn x
    unfold Compiler.parse
    simp only [if_true, h1, Except.map, collect_ok hn]
    have : (!vs.isEmpty) = true := by cases vs with | nil => exact absurd rfl h2 | cons _ _ => rfl
    rw [if_pos this]
    simp only [List.mem_append, mem_names]

/-- The earlier uses succeeded, or were given texts that are no Python. -/
def Compiler.Unspoiled (I : PyInfo) (st : Compiler) (us : List (Option Ast × Bool)) : Prop :=
  ∀ us₁ s lint us₂, us = us₁ ++ (s, lint) :: us₂ → s = none ∨ ∃ t', ((st.uses I us₁).parse I s lint).1 = .ok t'

theorem unspoiled_state (I : PyInfo) : ∀ (us : List (Option Ast × Bool)) (st : Compiler), st.names = [] → st.alerts = false →
    st.Unspoiled I us → (st.uses I us).names = [] ∧ (st.uses I us).alerts = false
  | [], _, h1, h2, _ => ⟨h1, h2⟩
  | (s, lint) :: us, st, h1, h2, h => by
    rw [Compiler.uses]
    have hrest : ((st.parse I s lint).2).Unspoiled I us := fun us₁ s' lint' us₂ he => by
      have := h ((s, lint) :: us₁) s' lint' us₂ (by rw [he]; rfl)
      rwa [Compiler.uses] at this
    rcases h [] s lint us rfl with hs | hs
    · have := (C82_left I st s lint).2.1 hs
      rw [this] at hrest ⊢
      exact unspoiled_state I us st h1 h2 hrest
    · obtain ⟨h3, h4⟩ := (C82_left I st s lint).1 hs
      exact unspoiled_state I us _ h3 h4 hrest

/-- C82: as long as nothing was refused, a used compiler behaves like a new one, with linting. -/
theorem C82_history (I : PyInfo) {c : Str} {us : List (Option Ast × Bool)} (h : ({ contract := c } : Compiler).Unspoiled I us)
    {t : Ast} (hw : PlainDecorators t.nodes) :
    ((({ contract := c } : Compiler).uses I us).parse I (some t) true).1 = t.compile I c := by
  obtain ⟨h1, h2⟩ := unspoiled_state I us { contract := c } rfl rfl h
  have hc := uses_contract I us { contract := c }
  rcases parse_lint I (({ contract := c } : Compiler).uses I us) hw with ⟨e, h3, h4⟩ | ⟨⟨t', h3⟩, t'', h4, h5⟩
  · rw [h4, ← h3, hc]
  · rw [h5, ← h4, h1, hc]
    rw [hc] at h3
    obtain ⟨_, _, _, h6⟩ := compile_inv h3
    rw [h3]
    exact h6

/-- C82: refused sources before do no harm either to a contract that uses none of the names they left. -/
theorem C82_disjoint (I : PyInfo) (st : Compiler) {t t' : Ast} (hw : PlainDecorators t.nodes) (h : t.compile I st.contract = .ok t')
    (hn : ∀ id, .name id ∈ t.nodes → id ∉ st.names) (he : py! "__export" ∉ st.names) : (st.parse I (some t) true).1 = .ok t' := by
  rcases parse_lint I st hw with ⟨e, h3, h4⟩ | ⟨_, t'', h4, h5⟩
  · rw [h] at h3; cases h3
  · rw [h5, ← h4]
    obtain ⟨_, _, _, h6⟩ := compile_inv h
    rw [← h6]
    refine transform_congr _ (rename_congr ?_) t fun id hi => rename_congr ?_
    · simp [he]
    · simp [hn id hi]

/-- C82: without linting, a compiler that last linted a source with violations refuses everything. -/
theorem C82_nolint (I : PyInfo) (st : Compiler) (s : Option Ast) (h : st.alerts = true) :
    (∃ e, (st.parse I s false).1 = .error e) ∧ (st.parse I s false).2.alerts = true := by
  unfold Compiler.parse
  cases s with
  | none => exact ⟨⟨_, rfl⟩, h⟩
  | some t =>
    simp only [Bool.false_eq_true, if_false, h, if_true]
    split <;> exact ⟨⟨_, rfl⟩, rfl⟩

namespace CompilerDemo

/-- Refused: no exported function. It has an undecorated function `key`.
```
def key():
    return 1
```
-/
def bad : Ast := mod [.functionDef (py! "key") [] [] [ret (.const (.int 1))] [] []]

/-- ```
@export
def put(key: str):
    return key
```
-/
def good : Ast := mod [.functionDef (py! "put") [.arg (py! "key") [.name (py! "str")]] [] [ret (.name (py! "key"))] [.name (py! "export")] []]

end CompilerDemo
open CompilerDemo

/-- C82, what one might expect fails: after a refused source, a compiler turns a correct contract into one that uses an
undefined name. A new compiler keeps `key`; the used one writes `__key` in the body but not in the parameter list. Without
linting, it refuses the correct contract. -/
theorem C82_refuted :
    let st := (({} : Compiler).parse info (some bad) true).2
    (({} : Compiler).parse info (some bad) true).1 = .error .exception ∧
    (({} : Compiler).parse info (some good) true).1 = .ok (mod [.functionDef (py! "put") [.arg (py! "key") [.name (py! "str")]] []
      [ret (.name (py! "key"))] [.call (.name (py! "__export")) [str (py! "__main__")] []] []]) ∧
    (st.parse info (some good) true).1 = .ok (mod [.functionDef (py! "put") [.arg (py! "key") [.name (py! "str")]] []
      [ret (.name (py! "__key"))] [.call (.name (py! "__export")) [str (py! "__main__")] []] []]) ∧
    (({} : Compiler).parse info (some good) false).1 = (({} : Compiler).parse info (some good) true).1 ∧
    (st.parse info (some good) false).1 = .error .exception := by
  refine ⟨?_, ?_, ?_, ?_, ?_⟩ <;> rfl

/-- C82: a history without refusals, with a text that is no Python in it. -/
example : ({} : Compiler).Unspoiled info [(some good, true), (none, true)] ∧ PlainDecorators good.nodes ∧ PlainDecorators token.nodes := by
  refine ⟨?_, ?_, ?_⟩
  · intro us₁ s lint us₂ h
    cases us₁ with
    | nil => cases h; exact Or.inr ⟨_, rfl⟩
    | cons u us₁ =>
      cases us₁ with
      | nil => cases h; exact Or.inl rfl
      | cons u' us₁ => cases us₁ <;> cases h
  all_goals
    intro nm as os b ds rs h d hd
    simp only [good, token, mod, expr, ret, sub, Ast.nodes, nodesAll, List.cons_append, List.append_nil, List.nil_append,
      List.mem_cons, List.not_mem_nil, or_false, Ast.functionDef.injEq, reduceCtorEq, false_or] at h
  · obtain ⟨rfl, rfl, rfl, rfl, rfl, rfl⟩ := h
    simp only [nodesAll, Ast.nodes, List.append_nil, List.mem_singleton] at hd
    subst hd; exact ⟨rfl, rfl⟩
  · rcases h with h | h | h <;> obtain ⟨rfl, rfl, rfl, rfl, rfl, rfl⟩ := h <;>
      simp only [nodesAll, Ast.nodes, List.append_nil, List.mem_singleton, List.not_mem_nil] at hd <;>
      subst hd <;> exact ⟨rfl, rfl⟩

end Verif
