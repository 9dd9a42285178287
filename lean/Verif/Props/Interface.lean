import Verif.Spec.Interface
import Verif.Props.Export
/-!
# C79: `importlib.enforce_interface`
-/
namespace Verif
open Spec AstDemo

/-! ## Any module -/

theorem isOf_true {i : Item} {a : Attr} (hc : a.checked = true) : i.isOf a = .ok true ↔ Satisfies a i := by
  constructor
  · intro h
    cases i with
    | func n args =>
      cases a with
      | function code cl =>
        cases cl with
        | none =>
          have h : (Except.ok (decide (code.name = n) && decide (args = some code.params)) : Except PyErr Bool) = .ok true := h
          injection h with h
          simp only [Bool.and_eq_true, decide_eq_true_eq] at h
          obtain ⟨rfl, rfl⟩ := h
          exact .function _ _
        | some cell =>
          cases cell with
          | function code' =>
            have h : (Except.ok (decide (code'.name = n) && decide (args = some code'.params)) : Except PyErr Bool) = .ok true := h
            injection h with h
            simp only [Bool.and_eq_true, decide_eq_true_eq] at h
            obtain ⟨rfl, rfl⟩ := h
            exact .wrapped _ _ _
          | other => cases h
      | _ => cases h
    | var n t =>
      cases a with
      | datum c =>
        have h : (Except.ok (decide (c = t)) : Except PyErr Bool) = .ok true := h
        injection h with h
        simp only [decide_eq_true_eq] at h
        subst h
        exact .storage _ _
      | _ => cases h
  · intro h
    cases h with
    | function n ps => simp [Item.isOf]
    | wrapped outer n ps => simp [Item.isOf]
    | storage n t => simp [Item.isOf]
    | anything i => cases hc

theorem isOf_error {i : Item} {a : Attr} {e : PyErr} (hc : a.checked = true) :
    i.isOf a = .error e ↔ Raises a i ∧ e = .attributeError := by
  constructor
  · intro h
    cases i with
    | func n args =>
      cases a with
      | function code cl =>
        cases cl with
        | none => cases h
        | some cell => cases cell with
          | function code' => cases h
          | other => cases h; exact ⟨.wrapped _ _ _, rfl⟩
      | datum c => cases h; exact ⟨.storage _ _ _, rfl⟩
      | _ => cases hc
    | var n t => cases a <;> cases h
  · rintro ⟨h, rfl⟩
    cases h <;> rfl

/-- One item. -/
theorem enforce_cons (attrs : Dict Str Attr) (i : Item) (rest : List Item) :
    (Met attrs i ∧ ¬ Clash attrs i ∧ enforceInterface attrs (i :: rest) = enforceInterface attrs rest) ∨
    (¬ Met attrs i ∧ Clash attrs i ∧ enforceInterface attrs (i :: rest) = .error .attributeError) ∨
    (¬ Met attrs i ∧ ¬ Clash attrs i ∧ enforceInterface attrs (i :: rest) = .ok false) := by
  cases hg : Dict.get? attrs i.name with
  | none =>
    refine .inr (.inr ⟨?_, ?_, ?_⟩)
    · rintro ⟨a, h, _⟩; rw [hg] at h; cases h
    · rintro ⟨a, h, _⟩; rw [hg] at h; cases h
    · rw [enforceInterface, hg]
  | some a =>
    have met : Met attrs i ↔ Satisfies a i :=
      ⟨fun ⟨b, h, hs⟩ => by rw [hg] at h; cases h; exact hs, fun hs => ⟨a, hg, hs⟩⟩
    have clash : Clash attrs i ↔ Raises a i :=
      ⟨fun ⟨b, h, hs⟩ => by rw [hg] at h; cases h; exact hs, fun hs => ⟨a, hg, hs⟩⟩
    rw [met, clash]
    by_cases hc : a.checked = true
    · have hstep : enforceInterface attrs (i :: rest) =
          (match i.isOf a with | .error e => .error e | .ok false => .ok false | .ok true => enforceInterface attrs rest) := by
        rw [enforceInterface, hg]
        cases a with
        | none => cases hc
        | other => cases hc
        | datum c => rfl
        | function code cl => rfl
      rw [hstep]
      cases hi : i.isOf a with
      | error e =>
        obtain ⟨hr, rfl⟩ := (isOf_error hc).1 hi
        refine .inr (.inl ⟨fun hs => ?_, hr, rfl⟩)
        rw [(isOf_true hc).2 hs] at hi; cases hi
      | ok b =>
        have hnr : ¬ Raises a i := fun hr => by rw [(isOf_error hc).2 ⟨hr, rfl⟩] at hi; cases hi
        cases b with
        | true => exact .inl ⟨(isOf_true hc).1 hi, hnr, rfl⟩
        | false =>
          refine .inr (.inr ⟨fun hs => ?_, hnr, rfl⟩)
          rw [(isOf_true hc).2 hs] at hi; cases hi
    · cases a with
      | none =>
        refine .inr (.inr ⟨?_, ?_, ?_⟩)
        · intro h; cases h
        · intro h; cases h
        · rw [enforceInterface, hg]
      | other =>
        refine .inl ⟨.anything _, ?_, ?_⟩
        · intro h; cases h
        · rw [enforceInterface, hg]; rfl
      | datum c => exact absurd rfl hc
      | function code cl => exact absurd rfl hc

/-- C79. `enforce_interface(m, items)` is `True` exactly if for every item the module has an attribute of the item's
name that has what the item asks for. -/
theorem C79_true (attrs : Dict Str Attr) (items : List Item) :
    enforceInterface attrs items = .ok true ↔ ∀ i ∈ items, Met attrs i := by
  induction items with
  | nil => simp [enforceInterface]
  | cons i rest ih =>
    rcases enforce_cons attrs i rest with ⟨hm, _, he⟩ | ⟨hm, _, he⟩ | ⟨hm, _, he⟩
    · rw [he, ih]; simp [hm]
    · rw [he]; simp [hm]
    · rw [he]; simp [hm]

/-- C79. `enforce_interface` raises exactly if, before any item that is not met, there is one asking for a function
where the module has storage (or a wrapper of something that is no function); the error is `AttributeError`. -/
theorem C79_raises (attrs : Dict Str Attr) (items : List Item) (e : PyErr) :
    enforceInterface attrs items = .error e ↔
      e = .attributeError ∧ ∃ pre i post, items = pre ++ i :: post ∧ (∀ j ∈ pre, Met attrs j) ∧ Clash attrs i := by
  induction items with
  | nil => simp [enforceInterface]
  | cons i rest ih =>
    have split : ∀ P : Prop, (P ∧ ∃ pre j post, i :: rest = pre ++ j :: post ∧ (∀ j ∈ pre, Met attrs j) ∧ Clash attrs j) ↔
        P ∧ (Clash attrs i ∨ (Met attrs i ∧ ∃ pre j post, rest = pre ++ j :: post ∧ (∀ j ∈ pre, Met attrs j) ∧ Clash attrs j)) := by
      intro P
      refine and_congr_right fun _ => ⟨?_, ?_⟩
      · rintro ⟨pre, j, post, h, hp, hj⟩
        cases pre with
        | nil => cases h; exact .inl hj
        | cons q pre =>
          cases h
          exact .inr ⟨hp _ List.mem_cons_self, pre, j, post, rfl, fun j hj => hp j (List.mem_cons_of_mem _ hj), hj⟩
      · rintro (h | ⟨hm, pre, j, post, rfl, hp, hj⟩)
        · exact ⟨[], i, rest, rfl, by simp, h⟩
        · exact ⟨i :: pre, j, post, rfl, by intro k hk; rcases List.mem_cons.1 hk with rfl | hk; exacts [hm, hp k hk], hj⟩
    rw [split]
    rcases enforce_cons attrs i rest with ⟨hm, hc, he⟩ | ⟨hm, hc, he⟩ | ⟨hm, hc, he⟩
    · rw [he, ih]; simp [hm, hc]
    · rw [he]; simp [hm, hc]; exact eq_comm
    · rw [he]; simp [hm, hc]

/-! ## Modules of contracts -/

theorem get?_update {d : Dict Str Attr} {k : Str} {a : Attr} : ∀ {ps : List (Str × Attr)},
    (∀ b c, (k, b) ∈ ps → (k, c) ∈ ps → b = c) →
    (Dict.get? (Dict.update d ps) k = some a ↔ (k, a) ∈ ps ∨ ((∀ b, (k, b) ∉ ps) ∧ Dict.get? d k = some a))
  | [], _ => by simp [Dict.update]
  | (k', v) :: ps, hu => by
    have step : Dict.update d ((k', v) :: ps) = Dict.update (Dict.set d k' v) ps := rfl
    rw [step, get?_update (d := Dict.set d k' v) (fun b c hb hc => hu b c (List.mem_cons_of_mem _ hb) (List.mem_cons_of_mem _ hc)),
      Dict.get?_set]
    by_cases hk : k' = k
    · subst hk
      simp only [if_true, Option.some.injEq]
      constructor
      · rintro (h | ⟨_, rfl⟩)
        · exact .inl (List.mem_cons_of_mem _ h)
        · exact .inl List.mem_cons_self
      · rintro (h | ⟨h, _⟩)
        · have := hu v a List.mem_cons_self h
          subst this
          by_cases hex : ∃ b, (k', b) ∈ ps
          · obtain ⟨b, hb⟩ := hex
            have := hu v b List.mem_cons_self (List.mem_cons_of_mem _ hb)
            subst this
            exact .inl hb
          · exact .inr ⟨fun b hb => hex ⟨b, hb⟩, rfl⟩
        · exact absurd List.mem_cons_self (h v)
    · have hne : ∀ b, ((k, b) ∈ (k', v) :: ps ↔ (k, b) ∈ ps) := by
        intro b
        simp only [List.mem_cons, Prod.mk.injEq]
        constructor
        · rintro (⟨h, _⟩ | h)
          · exact absurd h.symm hk
          · exact h
        · exact .inr
      simp only [hk, if_false, hne]

/-- What a statement of the source binds once compiled. -/
def compiledBinds : Ast → List (Str × Attr)
  | .import names => names.map fun n => (n.2.getD (n.1.takeWhile (· ≠ '.')), .other)
  | .functionDef nm as _ _ [] _ => [(py! "__" ++ nm, .function ⟨py! "__" ++ nm, argNames as⟩ none)]
  | .functionDef nm as _ _ [.name d] _ =>
    if d = py! "construct" then [(py! "____", .function ⟨py! "____", argNames as⟩ none)]
    else [(nm, .function ⟨py! "inner", []⟩ (some (.function ⟨nm, argNames as⟩)))]
  | .assign [.name x] (.call (.name cls) _ _) => (datumClass cls).toList.map fun c => (py! "__" ++ x, .datum c)
  | _ => []

theorem argName_eq : binds.argName = argName := by
  funext a; cases a <;> rfl

theorem binds_tr {ns : List Str} {c : Str} {n n' : Ast} (hp : PlainStmt n)
    (hd : ∀ nm as os b ds rs, n = .functionDef nm as os b ds rs → AllowedDecorators ds)
    (hx : ∀ x v, n = .assign [.name x] v → x ∈ ns) (hcls : ∀ cls ∈ storageClasses, cls ∉ ns) (hw : py! "__export" ∉ ns)
    (h : n.transform ns c = .ok n') : binds n' = compiledBinds n := by
  cases hp with
  | imp names => cases h; rfl
  | fn nm as os b ds rs _ =>
    obtain ⟨nm', as', os', b', ds', rs', h0, h1, _, _, _, rfl⟩ := transform_fn_inv h
    have ha : as'.filterMap binds.argName = argNames as := by
      rw [argName_eq]; exact transform_argNames h1
    rcases newHeader_inv (hd _ _ _ _ _ _ rfl) h0 with ⟨rfl, rfl, rfl⟩ | ⟨rfl, rfl, rfl⟩ | ⟨rfl, rfl, rfl⟩
    · show [(privatize nm, Attr.function ⟨privatize nm, as'.filterMap binds.argName⟩ none)] = _
      rw [ha]; rfl
    · have e : rename ns (py! "__export") = py! "__export" := by simp [rename, hw]
      rw [e]
      show (if py! "__export" = py! "__export" then [(nm', Attr.function ⟨py! "inner", []⟩ (some (.function ⟨nm', as'.filterMap binds.argName⟩)))] else []) = _
      rw [if_pos rfl, ha]; rfl
    · show [(py! "____", Attr.function ⟨py! "____", as'.filterMap binds.argName⟩ none)] = _
      rw [ha]; rfl
  | storage x cls as ks hc =>
    obtain ⟨ts', v', h1, h2, ⟨ho, _⟩ | ⟨cls', as0, ks0, as', ks', x', tl, hv, _, hts, rfl, _, rfl⟩⟩ := transform_assign_inv h
    · rw [ormCall_of hc] at ho; cases ho
    · cases hv; cases hts
      obtain ⟨u, us, q1, q2, rfl⟩ := transformAll_cons_inv h1
      cases q2
      have q1 : (Except.ok (.name (rename ns x)) : Except PyErr Ast) = .ok u := q1
      injection q1 with q1
      subst q1
      have e1 : rename ns x = py! "__" ++ x := by simp [rename, hx x _ rfl, privatize]
      have e2 : rename ns cls = cls := by simp [rename, hcls cls hc]
      rw [e1, e2]
      rfl

theorem binds_body {ns : List Str} {c : Str} : ∀ {body body' : List Ast}, (∀ n ∈ body, PlainStmt n) →
    (∀ nm as os b ds rs, Ast.functionDef nm as os b ds rs ∈ body → AllowedDecorators ds) →
    (∀ x v, Ast.assign [.name x] v ∈ body → x ∈ ns) → (∀ cls ∈ storageClasses, cls ∉ ns) → py! "__export" ∉ ns →
    transformAll ns c body = .ok body' → body'.flatMap binds = body.flatMap compiledBinds
  | [], _, _, _, _, _, _, h => by cases h; rfl
  | n :: body, _, hp, hd, hx, hcls, hw, h => by
    obtain ⟨u, us, h1, h2, rfl⟩ := transformAll_cons_inv h
    rw [List.flatMap_cons, List.flatMap_cons,
      binds_tr (hp n List.mem_cons_self) (fun nm as os b ds rs e => hd nm as os b ds rs (e ▸ List.mem_cons_self))
        (fun x v e => hx x v (e ▸ List.mem_cons_self)) hcls hw h1,
      binds_body (fun m hm => hp m (List.mem_cons_of_mem _ hm)) (fun nm as os b ds rs hm => hd nm as os b ds rs (List.mem_cons_of_mem _ hm))
        (fun x v hm => hx x v (List.mem_cons_of_mem _ hm)) hcls hw h2]

/-- Where the name of a binding comes from. -/
theorem compiledBinds_name {n : Ast} (hp : PlainStmt n)
    (hd : ∀ nm as os b ds rs, n = .functionDef nm as os b ds rs → AllowedDecorators ds) {k : Str} {a : Attr}
    (hk : k ≠ py! "____") (h : (k, a) ∈ compiledBinds n) : ∃ s ∈ namesOf n, k = s ∨ k = py! "__" ++ s := by
  cases hp with
  | imp names =>
    obtain ⟨m, hm, e⟩ := List.mem_map.1 h
    cases e
    exact ⟨_, List.mem_map.2 ⟨m, hm, rfl⟩, .inl rfl⟩
  | fn nm as os b ds rs _ =>
    rcases hd _ _ _ _ _ _ rfl with rfl | rfl | rfl
    · have h := List.mem_singleton.1 h
      cases h
      exact ⟨nm, List.mem_cons_self, .inr rfl⟩
    · have h : (k, a) ∈ [(nm, Attr.function ⟨py! "inner", []⟩ (some (.function ⟨nm, argNames as⟩)))] := h
      have h := List.mem_singleton.1 h
      injection h with h1 h2
      subst h1
      exact ⟨k, (by show k ∈ [k]; exact List.mem_cons_self), .inl rfl⟩
    · have h : (k, a) ∈ [(py! "____", Attr.function ⟨py! "____", argNames as⟩ none)] := h
      have h := List.mem_singleton.1 h
      cases h
      exact absurd rfl hk
  | storage x cls as ks _ =>
    obtain ⟨c, _, e⟩ := List.mem_map.1 h
    cases e
    exact ⟨x, List.mem_cons_self, .inr rfl⟩

theorem compiledBinds_same {n : Ast} {k : Str} {a b : Attr} (ha : (k, a) ∈ compiledBinds n) (hb : (k, b) ∈ compiledBinds n) : a = b := by
  unfold compiledBinds at ha hb
  split at ha
  · simp only at hb
    obtain ⟨_, _, e⟩ := List.mem_map.1 ha
    obtain ⟨_, _, e'⟩ := List.mem_map.1 hb
    injection e with _ e; injection e' with _ e'
    exact e.symm.trans e'
  · have ha := List.mem_singleton.1 ha
    have hb := List.mem_singleton.1 hb
    cases ha; cases hb; rfl
  · simp only at hb
    split at ha
    · rename_i hc
      rw [if_pos hc] at hb
      have ha := List.mem_singleton.1 ha
      have hb := List.mem_singleton.1 hb
      cases ha; cases hb; rfl
    · rename_i hc
      rw [if_neg hc] at hb
      have ha := List.mem_singleton.1 ha
      have hb := List.mem_singleton.1 hb
      cases ha; cases hb; rfl
  · simp only at hb
    obtain ⟨c1, h1, e⟩ := List.mem_map.1 ha
    obtain ⟨c2, h2, e'⟩ := List.mem_map.1 hb
    cases e; cases e'
    rw [Option.mem_toList] at h1 h2
    rw [h1] at h2
    cases h2; rfl
  · cases ha

theorem flatMap_unique {α β : Type} {f : α → List β} {l : List α} (h : (l.flatMap f).Nodup) {a b : α} {x : β} (ha : a ∈ l) (hb : b ∈ l)
    (hxa : x ∈ f a) (hxb : x ∈ f b) : a = b := by
  induction l with
  | nil => cases ha
  | cons q l ih =>
    rw [List.flatMap_cons, List.nodup_append] at h
    obtain ⟨_, h2, h3⟩ := h
    rcases List.mem_cons.1 ha with ea | ha'
    · rcases List.mem_cons.1 hb with eb | hb'
      · rw [ea, eb]
      · subst ea; exact absurd rfl (h3 x hxa x (List.mem_flatMap.2 ⟨b, hb', hxb⟩))
    · rcases List.mem_cons.1 hb with eb | hb'
      · subst eb; exact absurd rfl (h3 x hxb x (List.mem_flatMap.2 ⟨a, ha', hxa⟩))
      · exact ih h2 ha' hb'

theorem binds_unique {body : List Ast} (ho : Ordinary body)
    (hd : ∀ nm as os b ds rs, Ast.functionDef nm as os b ds rs ∈ body → AllowedDecorators ds) {k : Str} (hk : k ≠ py! "____") {a b : Attr}
    (ha : (k, a) ∈ body.flatMap compiledBinds) (hb : (k, b) ∈ body.flatMap compiledBinds) : a = b := by
  obtain ⟨n, hn, ha⟩ := List.mem_flatMap.1 ha
  obtain ⟨m, hm, hb⟩ := List.mem_flatMap.1 hb
  obtain ⟨s, hs, es⟩ := compiledBinds_name (ho.plain n hn) (fun nm as os b ds rs e => hd nm as os b ds rs (e ▸ hn)) hk ha
  obtain ⟨r, hr, er⟩ := compiledBinds_name (ho.plain m hm) (fun nm as os b ds rs e => hd nm as os b ds rs (e ▸ hm)) hk hb
  have hs' := (ho.names s (List.mem_flatMap.2 ⟨n, hn, hs⟩)).1
  have hr' := (ho.names r (List.mem_flatMap.2 ⟨m, hm, hr⟩)).1
  have e : s = r := by
    rcases es with rfl | rfl <;> rcases er with er | er
    · exact er
    · subst er; exact absurd rfl hs'
    · subst er; exact absurd rfl hr'
    · exact List.append_cancel_left er
  subst e
  obtain rfl := flatMap_unique ho.once hn hm hs hr
  exact compiledBinds_same ha hb

/-- The attribute under which a demand is looked up. -/
theorem demand_key (d : Demand) : d.item.name = (match d with | .function n _ => n | .privateFunction n _ => py! "__" ++ n | .storage x _ => py! "__" ++ x) := by
  cases d <;> rfl

theorem className_datumClass (c : DatumClass) : datumClass (className c) = some c := by cases c <;> decide

theorem datumClass_className {cls : Str} {c : DatumClass} (h : datumClass cls = some c) : cls = className c := by
  unfold datumClass at h
  split at h
  · cases h; assumption
  split at h
  · cases h; assumption
  split at h
  · cases h; assumption
  split at h
  · cases h; assumption
  split at h
  · cases h; assumption
  · cases h

/-- C79, contracts. Let an accepted contract consist of imports, functions with ordinary parameters and storage
declarations, with different names that do not start with an underscore. Let an interface ask for functions (exported or
private) and storage under names that do not start with an underscore, are not predefined (nor, for private
functions and storage, become so with `__` in front) and are not those of imported modules. Then
`enforce_interface` on the loaded contract is `True` exactly if the source has for each demand an exported function,
a private function or a storage declaration of that name with exactly these parameters, or of that class. -/
theorem C79_contract {I : PyInfo} {c : Str} {k : Kind} {ids : List Str} {body : List Ast} {body' : List Ast} {env : Dict Str PyVal}
    (h : (Ast.node k ids body).compile I c = .ok (.node k ids body')) (ho : Ordinary body)
    (hw : ∀ f ∈ functions (Ast.node k ids body), f.name ≠ py! "__export")
    (hcl : ∀ cls ∈ storageClasses, ¬ OwnName (Ast.node k ids body) cls) {ds : List Demand}
    (hn : ∀ d ∈ ds, d.name.head? ≠ some '_')
    (hs : ∀ d ∈ ds, d.item.name ∉ Dict.keys (startScope env))
    (hi : ∀ d ∈ ds, ∀ names, Ast.import names ∈ body → d.name ∉ namesOf (.import names)) :
    enforceInterface (loadScope env body') (ds.map Demand.item) = .ok true ↔ ∀ d ∈ ds, Offers body d := by
  obtain ⟨s, _, _, h3⟩ := compile_inv h
  have h3 : (transformAll (Ast.node k ids body).names c body).map (fun cs => Ast.node k ids cs) = .ok (.node k ids body') := by
    have e : (Ast.node k ids body).transform (Ast.node k ids body).names c =
      (transformAll (Ast.node k ids body).names c body).map (fun cs => Ast.node k ids cs) := by rw [Ast.transform]
    rw [← e]; exact h3
  obtain ⟨b2, h4, h5⟩ := Except.map_ok h3
  cases h5
  have hnodes : ∀ n ∈ body, n ∈ (Ast.node k ids body).nodes := fun n hm => by
    rw [Ast.nodes]; exact List.mem_cons_of_mem _ (nodesAll_mem.2 ⟨n, hm, self_mem n⟩)
  have hd : ∀ nm as os b ds rs, Ast.functionDef nm as os b ds rs ∈ body → AllowedDecorators ds :=
    fun nm as os b ds rs hm => compile_fn h nm as os b ds rs (hnodes _ hm)
  have hw' : py! "__export" ∉ (Ast.node k ids body).names := by
    intro hm
    rcases (names_iff _ _).1 hm with ⟨f, hf, _, he⟩ | hdc
    · exact hw f hf he
    · exact (declared_public ⟨_, h⟩ hdc).1 rfl
  have hb := binds_body (c := c) ho.plain hd (fun x v hm => by
      have hp := ho.plain _ hm
      cases hp with
      | storage _ cls as ks hc => exact (names_iff _ x).2 (.inr (List.mem_filterMap.2 ⟨_, hnodes _ hm, by simp [hc]⟩)))
    (fun cls hc hm => hcl cls hc ((names_iff _ _).1 hm)) hw' h4
  rw [C79_true]
  have hne : ∀ d ∈ ds, d.item.name ≠ py! "____" := by
    intro d hdm
    have := hn d hdm
    cases d with
    | function n ps => rintro e; have e : n = py! "____" := e; subst e; exact this rfl
    | privateFunction n ps =>
      rintro e
      have e : n = py! "__" := by have := congrArg (List.drop 2) e; exact this
      subst e; exact this rfl
    | storage n cl =>
      rintro e
      have e : n = py! "__" := by have := congrArg (List.drop 2) e; exact this
      subst e; exact this rfl
  have hl : ∀ d ∈ ds, ∀ a, Dict.get? (loadScope env body') d.item.name = some a ↔ (d.item.name, a) ∈ body.flatMap compiledBinds := by
    intro d hdm a
    unfold loadScope
    rw [hb, get?_update (fun b c' hb' hc' => binds_unique ho hd (hne d hdm) hb' hc')]
    have := hs d hdm
    rw [← Dict.get?_eq_none_iff] at this
    simp [this]
  have one : ∀ d ∈ ds, (Met (loadScope env body') d.item ↔ Offers body d) := by
    intro d hdm
    unfold Met
    constructor
    · rintro ⟨a, hg, hsat⟩
      obtain ⟨n, hnm, ha⟩ := List.mem_flatMap.1 ((hl d hdm a).1 hg)
      have hname := hn d hdm
      have himp := hi d hdm
      have hpl := ho.plain n hnm
      cases hpl with
      | imp names =>
        obtain ⟨m, hm, e⟩ := List.mem_map.1 ha
        injection e with e1 e2
        have hmem : m.2.getD (m.1.takeWhile (· ≠ '.')) ∈ namesOf (.import names) := List.mem_map.2 ⟨m, hm, rfl⟩
        have hpub := (ho.names _ (List.mem_flatMap.2 ⟨_, hnm, hmem⟩)).1
        have e1 : m.2.getD (m.1.takeWhile (· ≠ '.')) = d.item.name := e1
        cases d with
        | function n ps =>
          have e1 : m.2.getD (m.1.takeWhile (· ≠ '.')) = n := e1
          rw [e1] at hmem
          exact absurd hmem (himp names hnm)
        | privateFunction n ps => exact absurd (by rw [e1]; rfl) hpub
        | storage n cl => exact absurd (by rw [e1]; rfl) hpub
      | fn nm as os b dcs rs _ =>
        rcases hd _ _ _ _ _ _ hnm with rfl | rfl | rfl
        · have ha : (d.item.name, a) ∈ [(py! "__" ++ nm, Attr.function ⟨py! "__" ++ nm, argNames as⟩ none)] := ha
          have ha := List.mem_singleton.1 ha
          injection ha with e1 e2
          subst e2
          cases d with
          | function n ps =>
            have e1 : n = py! "__" ++ nm := e1
            subst e1; exact absurd rfl hname
          | privateFunction n ps =>
            have e1 : py! "__" ++ n = py! "__" ++ nm := e1
            obtain rfl := List.append_cancel_left e1
            have hsat : Satisfies (.function ⟨py! "__" ++ n, argNames as⟩ none) (.func (py! "__" ++ n) (some ps)) := hsat
            cases hsat
            exact ⟨as, os, b, rs, hnm, rfl⟩
          | storage n cl =>
            have hsat : Satisfies (.function ⟨py! "__" ++ nm, argNames as⟩ none) (.var (py! "__" ++ n) cl) := hsat
            cases hsat
        · have ha : (d.item.name, a) ∈ [(nm, Attr.function ⟨py! "inner", []⟩ (some (.function ⟨nm, argNames as⟩)))] := ha
          have ha := List.mem_singleton.1 ha
          injection ha with e1 e2
          subst e2
          have hpub := (ho.names nm (List.mem_flatMap.2 ⟨_, hnm, by show nm ∈ [nm]; exact List.mem_cons_self⟩)).1
          cases d with
          | function n ps =>
            have e1 : n = nm := e1
            subst e1
            have hsat : Satisfies (.function ⟨py! "inner", []⟩ (some (.function ⟨n, argNames as⟩))) (.func n (some ps)) := hsat
            cases hsat
            exact ⟨as, os, b, rs, hnm, rfl⟩
          | privateFunction n ps =>
            have e1 : py! "__" ++ n = nm := e1
            exact absurd (by rw [← e1]; rfl) hpub
          | storage n cl =>
            have e1 : py! "__" ++ n = nm := e1
            exact absurd (by rw [← e1]; rfl) hpub
        · have ha : (d.item.name, a) ∈ [(py! "____", Attr.function ⟨py! "____", argNames as⟩ none)] := ha
          have ha := List.mem_singleton.1 ha
          injection ha with e1 e2
          exact absurd e1 (hne d hdm)
      | storage x cls as ks _ =>
        obtain ⟨cl', hcl', e⟩ := List.mem_map.1 ha
        injection e with e1 e2
        subst e2
        rw [Option.mem_toList] at hcl'
        obtain rfl := datumClass_className hcl'
        cases d with
        | function n ps =>
          have e1 : py! "__" ++ x = n := e1
          subst e1; exact absurd rfl hname
        | privateFunction n ps => cases hsat
        | storage n cl =>
          have e1 : py! "__" ++ x = py! "__" ++ n := e1
          obtain rfl := List.append_cancel_left e1
          have hsat : Satisfies (.datum cl') (.var (py! "__" ++ x) cl) := hsat
          cases hsat
          exact ⟨as, ks, hnm⟩
    · intro hoff
      cases d with
      | function n ps =>
        obtain ⟨as, os, b, rs, hm, rfl⟩ := hoff
        refine ⟨.function ⟨py! "inner", []⟩ (some (.function ⟨n, argNames as⟩)), (hl _ hdm _).2 (List.mem_flatMap.2 ⟨_, hm, ?_⟩), .wrapped _ _ _⟩
        exact List.mem_singleton.2 rfl
      | privateFunction n ps =>
        obtain ⟨as, os, b, rs, hm, rfl⟩ := hoff
        refine ⟨.function ⟨py! "__" ++ n, argNames as⟩ none, (hl _ hdm _).2 (List.mem_flatMap.2 ⟨_, hm, ?_⟩), .function _ _⟩
        exact List.mem_singleton.2 rfl
      | storage x cl =>
        obtain ⟨as, ks, hm⟩ := hoff
        refine ⟨.datum cl, (hl _ hdm _).2 (List.mem_flatMap.2 ⟨_, hm, ?_⟩), .storage _ _⟩
        show _ ∈ (datumClass (className cl)).toList.map _
        rw [className_datumClass]
        exact List.mem_singleton.2 rfl
  constructor
  · intro hall d hdm
    exact (one d hdm).1 (hall _ (List.mem_map.2 ⟨d, hdm, rfl⟩))
  · intro hall i him
    obtain ⟨d, hdm, rfl⟩ := List.mem_map.1 him
    exact (one d hdm).2 (hall d hdm)

/-- The body of the example. -/
def AstDemo.tokenBody : List Ast := [
  .import [(py! "con_b", none)],
  .assign [.name (py! "v")] (.call (.name (py! "Variable")) [] [.keyword (some (py! "default_value")) (.const (.float (py! "1.5")))]),
  .assign [.name (py! "h")] (.call (.name (py! "Hash")) [] []),
  .functionDef (py! "seed") [] [] [expr (.call (.attribute (.name (py! "v")) (py! "set")) [.const (.int 2)] [])] [.name (py! "construct")] [],
  .functionDef (py! "put") [.arg (py! "key") [.name (py! "str")], .arg (py! "at") [.attribute (.name (py! "datetime")) (py! "datetime")]] []
    [expr (.call (.name (py! "helper")) [.name (py! "key")] []), ret (sub (.name (py! "h")) (.name (py! "key")))] [.name (py! "export")] [],
  .functionDef (py! "helper") [.arg (py! "key") []] []
    [.assign [sub (.name (py! "h")) (.name (py! "key"))] (.const (.float (py! "0.1")))] [] []]

/-- `[Func('put', args=('key', 'at')), Func('helper', args=('key',), private=True), Var('h', Hash)]` -/
def AstDemo.demands : List Demand :=
  [.function (py! "put") [py! "key", py! "at"], .privateFunction (py! "helper") [py! "key"], .storage (py! "h") .hash]

/-- The attributes of the loaded example, with an entry `now` in the environment. -/
def AstDemo.tokenModule : Dict Str Attr := loadScope [(py! "now", .int 1)] token'.children

/-- C79, the example is ordinary and the interface is met. -/
example : token = mod tokenBody ∧ Ordinary tokenBody ∧ (∀ d ∈ demands, d.name.head? ≠ some '_' ∧ Offers tokenBody d) ∧
    enforceInterface tokenModule (demands.map Demand.item) = .ok true := by
  refine ⟨rfl, ⟨?_, by decide, by decide⟩, ?_, by decide⟩
  · intro n hn
    simp only [tokenBody, List.mem_cons, List.not_mem_nil, or_false] at hn
    rcases hn with rfl | rfl | rfl | rfl | rfl | rfl
    · exact .imp _
    · exact .storage _ _ _ _ (by decide)
    · exact .storage _ _ _ _ (by decide)
    · exact .fn _ _ _ _ _ _ (by simp)
    · exact .fn _ _ _ _ _ _ (by simp)
    · exact .fn _ _ _ _ _ _ (by simp)
  · intro d hd
    simp only [demands, List.mem_cons, List.not_mem_nil, or_false] at hd
    rcases hd with rfl | rfl | rfl
    · exact ⟨by decide, _, _, _, _, List.mem_cons_of_mem _ (List.mem_cons_of_mem _ (List.mem_cons_of_mem _ (List.mem_cons_of_mem _ List.mem_cons_self))), rfl⟩
    · exact ⟨by decide, _, _, _, _, List.mem_cons_of_mem _ (List.mem_cons_of_mem _ (List.mem_cons_of_mem _ (List.mem_cons_of_mem _
        (List.mem_cons_of_mem _ List.mem_cons_self)))), rfl⟩
    · exact ⟨by decide, _, _, List.mem_cons_of_mem _ (List.mem_cons_of_mem _ List.mem_cons_self)⟩

/-- C79, what is not there or different is noticed: other parameters, another order, another class, a private function
asked for as an exported one. -/
example : enforceInterface tokenModule [.mkFunc (py! "put") (some [py! "key"]) false] = .ok false ∧
    enforceInterface tokenModule [.mkFunc (py! "put") (some [py! "at", py! "key"]) false] = .ok false ∧
    enforceInterface tokenModule [.mkFunc (py! "helper") (some [py! "key"]) false] = .ok false ∧
    enforceInterface tokenModule [.mkVar (py! "h") .variable] = .ok false ∧
    enforceInterface tokenModule [.mkVar (py! "helper") .hash] = .ok false := by decide

/-- C79 refuted for predefined names: a contract that defines no `transfer` at all but is asked for a function
named like an imported module, like a class of the standard environment or like an entry of the environment passes:
`Func('con_b', ...)`, `Func('decimal', ...)`, `Func('now', ...)`, whatever the parameters, and
`Var('export', Hash)`. -/
theorem C79_refuted (args : Option (List Str)) :
    enforceInterface tokenModule [.mkFunc (py! "con_b") args false, .mkFunc (py! "decimal") args false,
      .mkFunc (py! "now") args false, .mkVar (py! "export") .hash] = .ok true ∧
    ¬ ∃ f ∈ functions token, f.name ∈ [py! "con_b", py! "decimal", py! "now"] := by
  refine ⟨?_, ?_⟩
  · rw [C79_true]
    intro i hi
    simp only [List.mem_cons, List.not_mem_nil, or_false] at hi
    rcases hi with rfl | rfl | rfl | rfl
    · exact ⟨.other, (by decide : Dict.get? tokenModule (py! "con_b") = some .other), .anything _⟩
    · exact ⟨.other, (by decide : Dict.get? tokenModule (py! "decimal") = some .other), .anything _⟩
    · exact ⟨.other, (by decide : Dict.get? tokenModule (py! "now") = some .other), .anything _⟩
    · exact ⟨.other, (by decide : Dict.get? tokenModule (py! "__export") = some .other), .anything _⟩
  · have hfs : ∀ f ∈ functions token, f.name = py! "seed" ∨ f.name = py! "put" ∨ f.name = py! "helper" := by
      intro f hf
      simp only [functions, token, mod, expr, ret, sub, Ast.nodes, nodesAll, List.filterMap, fnOf, List.cons_append, List.append_nil, List.nil_append,
        List.mem_cons, List.not_mem_nil, or_false] at hf
      rcases hf with rfl | rfl | rfl <;> simp
    rintro ⟨f, hf, hm⟩
    rcases hfs f hf with h | h | h <;> rw [h] at hm <;> exact absurd hm (by decide)

/-- C79: asking for a private function where there is storage of that name raises; a list instead of a tuple of
parameters is never matched. -/
theorem C79_misuse (args : Option (List Str)) :
    enforceInterface tokenModule [.mkFunc (py! "h") args true] = .error .attributeError ∧
    ∀ n priv a, Dict.get? tokenModule (Item.mkFunc n none priv).name = some a → a.checked = true →
      enforceInterface tokenModule [.mkFunc n none priv] ≠ .ok true := by
  refine ⟨?_, ?_⟩
  · rw [C79_raises]
    exact ⟨rfl, [], _, [], rfl, by simp, .datum .hash, (by decide : Dict.get? tokenModule (py! "__h") = some (.datum .hash)), .storage _ _ _⟩
  · intro n priv a hg hc h
    obtain ⟨b, hb, hs⟩ := (C79_true _ _).1 h _ List.mem_cons_self
    rw [hg] at hb
    cases hb
    cases hs
    cases hc

/-- C79: what the environment of the transaction sets to `None` counts as missing; anything else it sets (and the
contract does not bind) is neither function nor storage and satisfies any demand of that name, as predefined names do. -/
theorem C79_env {env : Dict Str PyVal} (hwf : Dict.WF env) {body : List Ast} {i : Item} {v : PyVal} (hc : i.name ≠ py! "__contract__")
    (hv : Dict.get? env i.name = some v) (hb : ∀ a, (i.name, a) ∉ body.flatMap binds) :
    enforceInterface (loadScope env body) [i] = .ok (!v.isNone) := by
  have hu : ∀ b c, (i.name, b) ∈ env.map (fun kv => (kv.1, if kv.2.isNone then Attr.none else .other)) →
      (i.name, c) ∈ env.map (fun kv => (kv.1, if kv.2.isNone then Attr.none else .other)) → b = c := by
    intro b c h1 h2
    obtain ⟨⟨k1, v1⟩, m1, e1⟩ := List.mem_map.1 h1
    obtain ⟨⟨k2, v2⟩, m2, e2⟩ := List.mem_map.1 h2
    simp only [Prod.mk.injEq] at e1 e2
    obtain ⟨rfl, rfl⟩ := e1
    obtain ⟨rfl, rfl⟩ := e2
    have g1 := (Dict.get?_of_mem hwf m1)
    have g2 := (Dict.get?_of_mem hwf m2)
    rw [g1] at g2
    cases g2
    rfl
  have hg : Dict.get? (loadScope env body) i.name = some (if v.isNone then .none else .other) := by
    unfold loadScope
    rw [get?_update (fun b c hb' => absurd hb' (hb b))]
    right
    refine ⟨hb, ?_⟩
    unfold startScope
    rw [Dict.get?_set, if_neg (Ne.symm hc), get?_update hu]
    left
    exact List.mem_map.2 ⟨(i.name, v), Dict.mem_of_get? hv, rfl⟩
  rw [enforceInterface, hg]
  cases hn : v.isNone with
  | true => rfl
  | false => rfl

example : enforceInterface (loadScope [(py! "now", .none), (py! "block", .int 1)] []) [.func (py! "now") none] = .ok false ∧
    enforceInterface (loadScope [(py! "now", .none), (py! "block", .int 1)] []) [.func (py! "block") none] = .ok true := by decide

end Verif
