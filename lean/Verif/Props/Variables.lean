import Verif.Proofs.Ast8
import Verif.Props.Accept
/-!
# C67: exactly what the listing of variables and hashes contains
-/
namespace Verif
open Spec

theorem isFunction_fnOf (n : Ast) : n.isFunction = (fnOf n).isSome := by cases n <;> rfl

theorem transform_isFunction {ns : List Str} {c : Str} {n n' : Ast} (h : n.transform ns c = .ok n') :
    n'.isFunction = n.isFunction ∧ n'.isAssign = n.isAssign := by
  cases n with
  | name id => cases h; exact ⟨rfl, rfl⟩
  | «attribute» v a => obtain ⟨_, _, rfl⟩ := Except.map_ok h; exact ⟨rfl, rfl⟩
  | const k => cases k <;> (cases h; exact ⟨rfl, rfl⟩)
  | call f as ks => obtain ⟨_, _, _, _, _, _, rfl⟩ := transform_call_inv h; exact ⟨rfl, rfl⟩
  | keyword a v => obtain ⟨_, _, rfl⟩ := Except.map_ok h; exact ⟨rfl, rfl⟩
  | assign ts v =>
    obtain ⟨_, _, _, _, ⟨_, rfl⟩ | ⟨_, _, _, _, _, _, _, _, _, _, _, _, rfl⟩⟩ := transform_assign_inv h <;> exact ⟨rfl, rfl⟩
  | arg x ann => obtain ⟨_, _, rfl⟩ := Except.map_ok h; exact ⟨rfl, rfl⟩
  | functionDef nm as os b ds rs => obtain ⟨_, _, _, _, _, _, _, _, _, _, _, rfl⟩ := transform_fn_inv h; exact ⟨rfl, rfl⟩
  | «import» names => cases h; exact ⟨rfl, rfl⟩
  | importFrom m names => cases h; exact ⟨rfl, rfl⟩
  | node k ids cs => obtain ⟨_, _, rfl⟩ := Except.map_ok h; exact ⟨rfl, rfl⟩

theorem takeWhile_keys (l : List Ast) :
    (l.takeWhile (fun n => !n.isFunction)).filter Ast.isAssign = ((keys l).takeWhile (fun n => !n.isFunction)).filter Ast.isAssign := by
  induction l with
  | nil => rfl
  | cons n l ih =>
    cases hk : n.key with
    | false =>
      have h1 : n.isFunction = false ∧ n.isAssign = false := by
        cases n <;> first | exact ⟨rfl, rfl⟩ | cases hk
      rw [keys_cons_no hk, List.takeWhile_cons_of_pos (by simp [h1.1]), List.filter_cons_of_neg (by simp [h1.2])]
      exact ih
    | true =>
      rw [keys_cons_yes hk]
      cases hf : n.isFunction with
      | true => rw [List.takeWhile_cons_of_neg (by simp [hf]), List.takeWhile_cons_of_neg (by simp [hf])]
      | false =>
        rw [List.takeWhile_cons_of_pos (by simp [hf]), List.takeWhile_cons_of_pos (by simp [hf])]
        have ha : n.isAssign = true := by
          cases n <;> first | rfl | (cases hk; done) | (cases hf; done)
        rw [List.filter_cons_of_pos ha, List.filter_cons_of_pos ha, ih]

theorem forall₂_early {ns : List Str} {c : Str} {l l' : List Ast} (h : List.Forall₂ (Tr ns c) l l') :
    List.Forall₂ (Tr ns c) ((l.takeWhile (fun n => !n.isFunction)).filter Ast.isAssign)
      ((l'.takeWhile (fun n => !n.isFunction)).filter Ast.isAssign) := by
  induction h with
  | nil => exact .nil
  | @cons n n' l l' hn _ ih =>
    obtain ⟨e1, e2⟩ := transform_isFunction hn
    cases hf : n.isFunction with
    | true =>
      rw [List.takeWhile_cons_of_neg (by simp [hf]), List.takeWhile_cons_of_neg (by simp [e1, hf])]
      exact .nil
    | false =>
      rw [List.takeWhile_cons_of_pos (by simp [hf]), List.takeWhile_cons_of_pos (by simp [e1, hf])]
      cases ha : n.isAssign with
      | true => rw [List.filter_cons_of_pos ha, List.filter_cons_of_pos (by rw [e2, ha])]; exact .cons hn ih
      | false => rw [List.filter_cons_of_neg (by simp [ha]), List.filter_cons_of_neg (by simp [e2, ha])]; exact ih

theorem rename_eq {ns : List Str} {k cls : Str} (hc : cls.head? ≠ some '_') : rename ns k = cls ↔ k = cls ∧ cls ∉ ns := by
  unfold rename
  split
  · rename_i h
    rw [List.contains_iff_mem] at h
    constructor
    · intro e; exact absurd (by rw [← e]; rfl) hc
    · rintro ⟨rfl, h'⟩; exact absurd h h'
  · rename_i h
    rw [List.contains_iff_mem] at h
    constructor
    · rintro rfl; exact ⟨rfl, h⟩
    · exact And.left

/-- One assignment of the compiled contract. -/
theorem variableOf_tr {I : PyInfo} {c : Str} {t t' : Ast} (h : t.compile I c = .ok t') {ts : List Ast} {v a' : Ast}
    (hn : Ast.assign ts v ∈ t.nodes) (htr : (Ast.assign ts v).transform t.names c = .ok a') :
    (∃ w b as ks, v = .call (.attribute w b) as ks ∧ variableOf a' = .error .attributeError) ∨
    ((∀ w b as ks, v ≠ .call (.attribute w b) as ks) ∧ ∃ o, variableOf a' = .ok o ∧
      ∀ cls y, o = some (cls, y) ↔ (cls = py! "Variable" ∨ cls = py! "Hash") ∧ cls ∉ t.names ∧
        ∃ tl as ks, ts = .name y :: tl ∧ v = .call (.name cls) as ks) := by
  have R := C76_accepted.1 ⟨t', h⟩
  obtain ⟨ts', v', k1, k2, ⟨ho, rfl⟩ | ⟨cls0, as, ks, as', ks', x, tl, rfl, hcls, rfl, rfl, _, rfl⟩⟩ := transform_assign_inv htr
  · by_cases hcall : ∃ f as ks, v = .call f as ks
    · obtain ⟨f, as, ks, rfl⟩ := hcall
      obtain ⟨f', as', ks', q1, _, _, rfl⟩ := transform_call_inv k2
      rcases R.callees ts f as ks hn with ⟨id, rfl⟩ | ⟨w, b, rfl⟩
      · right
        have q1' : (Except.ok (.name (rename t.names id)) : Except PyErr Ast) = .ok f' := q1
        injection q1' with q
        subst q
        have hid : id ∉ ormClasses := by
          intro hm
          rw [ormCall_of hm] at ho
          cases ho
        have hne : ¬ (rename t.names id = py! "Variable" ∨ rename t.names id = py! "Hash") := by
          rintro (e | e)
          · obtain ⟨rfl, _⟩ := (rename_eq (by decide)).1 e
            exact hid (by simp [ormClasses])
          · obtain ⟨rfl, _⟩ := (rename_eq (by decide)).1 e
            exact hid (by simp [ormClasses])
        refine ⟨fun w b as ks he => (by cases he), none, ?_, fun cls y => ⟨fun he => (by cases he), ?_⟩⟩
        · simp only [variableOf, Ast.id?]
          rw [if_neg hne]
        · rintro ⟨hc, _, tl, as, ks, _, he⟩
          cases he
          rcases hc with rfl | rfl <;> exact absurd (by simp [ormClasses]) hid
      · left
        obtain ⟨w', _, rfl⟩ := Except.map_ok q1
        exact ⟨w, b, as, ks, rfl, rfl⟩
    · right
      refine ⟨fun w b as ks he => hcall ⟨_, _, _, he⟩, none, ?_, fun cls y => ⟨fun he => (by cases he), ?_⟩⟩
      · cases v with
        | name id => cases k2; rfl
        | «attribute» v a => obtain ⟨_, _, rfl⟩ := Except.map_ok k2; rfl
        | const k => cases k <;> (cases k2; rfl)
        | call f as ks => exact absurd ⟨_, _, _, rfl⟩ hcall
        | keyword a v => obtain ⟨_, _, rfl⟩ := Except.map_ok k2; rfl
        | assign ts v =>
          obtain ⟨_, _, _, _, ⟨_, rfl⟩ | ⟨_, _, _, _, _, _, _, _, _, _, _, _, rfl⟩⟩ := transform_assign_inv k2 <;> rfl
        | arg x ann => obtain ⟨_, _, rfl⟩ := Except.map_ok k2; rfl
        | functionDef nm as os b ds rs => obtain ⟨_, _, _, _, _, _, _, _, _, _, _, rfl⟩ := transform_fn_inv k2; rfl
        | «import» names => cases k2; rfl
        | importFrom m names => cases k2; rfl
        | node k ids cs => obtain ⟨_, _, rfl⟩ := Except.map_ok k2; rfl
      · rintro ⟨_, _, _, _, _, _, he⟩
        exact absurd ⟨_, _, _, he⟩ hcall
  · right
    obtain ⟨u, us, q1, _, rfl⟩ := transformAll_cons_inv k1
    have hdecl : x ∈ declared t := List.mem_filterMap.2 ⟨_, hn, by simp [orm_spec.1 hcls]⟩
    have hx := declared_public ⟨t', h⟩ hdecl
    have hu : u = .name (py! "__" ++ x) := by
      have q1' : (Except.ok (.name (rename t.names x)) : Except PyErr Ast) = .ok u := q1
      injection q1' with q
      rw [← q]
      have : x ∈ t.names := (names_iff t x).2 (.inr hdecl)
      simp [rename, this, privatize]
    subst hu
    refine ⟨fun w b as ks he => (by cases he), ?_⟩
    by_cases hcl : (cls0 = py! "Variable" ∨ cls0 = py! "Hash") ∧ cls0 ∉ t.names
    · refine ⟨some (cls0, x), ?_, fun cls y => ⟨fun he => ?_, ?_⟩⟩
      · have hr : rename t.names cls0 = cls0 := by simp [rename, hcl.2]
        rw [hr]
        have := public_drop hx
        simp only [variableOf, Ast.id?, if_pos hcl.1, List.head?_cons, Option.bind_some, this]
      · cases he; exact ⟨hcl.1, hcl.2, _, _, _, rfl, rfl⟩
      · rintro ⟨_, _, _, _, _, e1, e2⟩
        cases e1; cases e2; rfl
    · refine ⟨none, ?_, fun cls y => ⟨fun he => (by cases he), ?_⟩⟩
      · have hne : ¬ (rename t.names cls0 = py! "Variable" ∨ rename t.names cls0 = py! "Hash") := by
          rintro (e | e)
          · obtain ⟨rfl, h2⟩ := (rename_eq (by decide)).1 e; exact hcl ⟨.inl rfl, h2⟩
          · obtain ⟨rfl, h2⟩ := (rename_eq (by decide)).1 e; exact hcl ⟨.inr rfl, h2⟩
        simp only [variableOf, Ast.id?]
        rw [if_neg hne]
      · rintro ⟨h1, h2, _, _, _, e1, e2⟩
        cases e2; exact absurd ⟨h1, h2⟩ hcl

/-- The assignments of the compiled contract. -/
theorem variablesOf_tr {I : PyInfo} {c : Str} {t t' : Ast} (h : t.compile I c = .ok t') {l l' : List Ast}
    (hin : ∀ n ∈ l, n ∈ t.nodes ∧ n.isAssign = true) (hl : List.Forall₂ (Tr t.names c) l l') :
    ((∃ ts w b as ks, Ast.assign ts (.call (.attribute w b) as ks) ∈ l) ∧ variablesOf l' = .error .attributeError) ∨
    ((∀ ts w b as ks, Ast.assign ts (.call (.attribute w b) as ks) ∉ l) ∧ ∃ r, variablesOf l' = .ok r ∧
      ∀ cls, (cls = py! "Variable" ∨ cls = py! "Hash") →
        (cls ∈ t.names → (r.filter (·.1 = cls)).map (·.2) = []) ∧
        (cls ∉ t.names → (r.filter (·.1 = cls)).map (·.2) = declaredIn cls l)) := by
  induction hl with
  | nil => exact .inr ⟨by simp, [], rfl, fun cls _ => ⟨fun _ => rfl, fun _ => rfl⟩⟩
  | @cons n n' l l' hn _ ih =>
    have ih := ih (fun m hm => hin m (List.mem_cons_of_mem _ hm))
    obtain ⟨hmem, hass⟩ := hin n List.mem_cons_self
    cases n <;> first | (cases hass; done) | skip
    rename_i ts v
    rcases variableOf_tr h hmem hn with ⟨w, b, as, ks, rfl, e⟩ | ⟨hna, o, e, ho⟩
    · left
      refine ⟨⟨_, _, _, _, _, List.mem_cons_self⟩, ?_⟩
      rw [variablesOf, e]
    · rcases ih with ⟨⟨ts2, w, b, as, ks, hm⟩, e2⟩ | ⟨hno, r, e2, hr⟩
      · left
        refine ⟨⟨_, _, _, _, _, List.mem_cons_of_mem _ hm⟩, ?_⟩
        rw [variablesOf, e]
        cases o with
        | none => exact e2
        | some p => simp only [e2]; rfl
      · right
        refine ⟨?_, ?_⟩
        · intro ts2 w b as ks hm
          rcases List.mem_cons.1 hm with he | hm
          · cases he; exact hna _ _ _ _ rfl
          · exact hno _ _ _ _ _ hm
        · cases o with
          | none =>
            refine ⟨r, by rw [variablesOf, e]; exact e2, fun cls hc => ⟨(hr cls hc).1, fun hown => ?_⟩⟩
            rw [(hr cls hc).2 hown]
            unfold declaredIn
            rw [List.filterMap_cons_none]
            split
            · rename_i x tl k as ks he
              rw [if_neg]
              rintro rfl
              injection he with he1 he2
              have := (ho k x).2 ⟨hc, hown, _, _, _, he1, he2⟩
              cases this
            · rfl
          | some p =>
            obtain ⟨cls0, y⟩ := p
            obtain ⟨hc0, hown0, tl, as, ks, rfl, rfl⟩ := (ho cls0 y).1 rfl
            refine ⟨(cls0, y) :: r, by rw [variablesOf, e]; simp only [e2]; rfl, fun cls hc => ⟨fun hm => ?_, fun hown => ?_⟩⟩
            · have hne : cls0 ≠ cls := by rintro rfl; exact hown0 hm
              rw [List.filter_cons_of_neg (by simpa using hne)]
              exact (hr cls hc).1 hm
            · by_cases he : cls0 = cls
              · subst he
                rw [List.filter_cons_of_pos (by simp), List.map_cons, (hr cls0 hc).2 hown]
                unfold declaredIn
                rw [List.filterMap_cons_some (b := y) (by simp)]
              · rw [List.filter_cons_of_neg (by simpa using he), (hr cls hc).2 hown]
                unfold declaredIn
                rw [List.filterMap_cons_none (by simp [he])]

theorem early_assign (t : Ast) : ((keys (levelOrder t)).takeWhile (fun n => !n.isFunction)).filter Ast.isAssign = (early t).filter Ast.isAssign := by
  rw [← takeWhile_keys]
  unfold early
  congr 2
  funext n
  rw [isFunction_fnOf]
  cases fnOf n <;> rfl

theorem declaredIn_filter (cls : Str) (l : List Ast) : declaredIn cls (l.filter Ast.isAssign) = declaredIn cls l := by
  unfold declaredIn
  rw [List.filterMap_filter]
  congr 1
  funext n
  cases n <;> rfl

theorem own_name (t : Ast) (x : Str) : x ∈ t.names ↔ OwnName t x := names_iff t x

/-- The listing, exactly. -/
theorem variables_cases {I : PyInfo} {c : Str} {t t' : Ast} (h : t.compile I c = .ok t') :
    ((∃ ts w b as ks, Ast.assign ts (.call (.attribute w b) as ks) ∈ early t) ∧ variablesForContract t' = .error .attributeError) ∨
    ((∀ ts w b as ks, Ast.assign ts (.call (.attribute w b) as ks) ∉ early t) ∧ ∃ vs hs, variablesForContract t' = .ok (vs, hs) ∧
      (OwnName t (py! "Variable") → vs = []) ∧ (¬ OwnName t (py! "Variable") → vs = declaredIn (py! "Variable") (early t)) ∧
      (OwnName t (py! "Hash") → hs = []) ∧ (¬ OwnName t (py! "Hash") → hs = declaredIn (py! "Hash") (early t))) := by
  obtain ⟨s, _, _, h3⟩ := compile_inv h
  have hk := forall₂_early (walk_keys (compile_fn h) h3)
  rw [early_assign, ← takeWhile_keys] at hk
  have hin : ∀ n ∈ (early t).filter Ast.isAssign, n ∈ t.nodes ∧ n.isAssign = true := by
    intro n hn
    obtain ⟨h1, h2⟩ := List.mem_filter.1 hn
    refine ⟨?_, h2⟩
    have := (List.takeWhile_sublist _).subset h1
    rw [← walk_levelOrder] at this
    exact (walk_nodes t).mem_iff.1 this
  unfold variablesForContract
  rcases variablesOf_tr h hin hk with ⟨⟨ts, w, b, as, ks, hm⟩, e⟩ | ⟨hno, r, e, hr⟩
  · left
    exact ⟨⟨ts, w, b, as, ks, (List.mem_filter.1 hm).1⟩, by rw [e]; rfl⟩
  · right
    refine ⟨fun ts w b as ks hm => hno ts w b as ks (List.mem_filter.2 ⟨hm, rfl⟩), _, _, by rw [e]; rfl, ?_⟩
    have e1 := hr (py! "Variable") (.inl rfl)
    have e2 := hr (py! "Hash") (.inr rfl)
    rw [declaredIn_filter, own_name] at e1 e2
    exact ⟨e1.1, e1.2, e2.1, e2.2⟩

/-- C67. When the listing of variables and hashes succeeds, it contains exactly the names of the Variables and of the
Hashes declared in the nodes that come, level by level, before any function of the source, in that order; if
the contract uses the name `Variable` (or `Hash`) for something of its own, none of that class. -/
theorem C67_listing {I : PyInfo} {c : Str} {t t' : Ast} (h : t.compile I c = .ok t') {vs hs : List Str}
    (hv : variablesForContract t' = .ok (vs, hs)) :
    (OwnName t (py! "Variable") → vs = []) ∧ (¬ OwnName t (py! "Variable") → vs = declaredIn (py! "Variable") (early t)) ∧
    (OwnName t (py! "Hash") → hs = []) ∧ (¬ OwnName t (py! "Hash") → hs = declaredIn (py! "Hash") (early t)) := by
  rcases variables_cases h with ⟨_, e⟩ | ⟨_, vs', hs', e, r⟩
  · rw [hv] at e; cases e
  · rw [hv] at e; cases e; exact r

/-- C67. The listing succeeds unless one of these nodes assigns the result of calling an attribute; then it raises
`AttributeError`. -/
theorem C67_raises {I : PyInfo} {c : Str} {t t' : Ast} (h : t.compile I c = .ok t') :
    (∃ ts w b as ks, Ast.assign ts (.call (.attribute w b) as ks) ∈ early t) ∧ variablesForContract t' = .error .attributeError ∨
    (∀ ts w b as ks, Ast.assign ts (.call (.attribute w b) as ks) ∉ early t) ∧ ∃ vs hs, variablesForContract t' = .ok (vs, hs) := by
  rcases variables_cases h with h | ⟨h1, vs, hs, h2, _⟩
  · exact .inl h
  · exact .inr ⟨h1, vs, hs, h2⟩

/-- The example: both declarations come before any function. -/
example : declaredIn (py! "Variable") (early AstDemo.token) = [py! "v"] ∧ declaredIn (py! "Hash") (early AstDemo.token) = [py! "h"] := by
  decide

end Verif
