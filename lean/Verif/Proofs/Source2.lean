import Verif.Proofs.Source
/-!
# Renaming private names does not change what a module's names mean
-/
namespace Verif.Lang
open Verif Verif.Spec

/-- Not starting with an underscore. -/
abbrev Plain (id : Str) : Prop := id.head? ≠ some '_'

/-- Names of sources: without a leading underscore, or the constructor's. -/
def OkId (id : Str) : Prop := Plain id ∨ id = py! "____"

/-- Names in expressions: no leading underscore, no storage class. -/
abbrev SrcName (id : Str) : Prop := Plain id ∧ NoOrm id

section
variable {ns : List Str}

theorem rename_in {id : Str} (h : id ∈ ns) : rename ns id = '_' :: '_' :: id := by
  unfold rename
  rw [if_pos (by simpa using h)]
  rfl

theorem rename_out {id : Str} (h : id ∉ ns) : rename ns id = id := by
  unfold rename
  rw [if_neg (by simpa using h)]

theorem rename_eq_plain {id x : Str} (hx : Plain x) : rename ns id = x ↔ id ∉ ns ∧ id = x := by
  by_cases h : id ∈ ns
  · rw [rename_in h]
    constructor
    · intro e
      exact (hx (by rw [← e]; rfl)).elim
    · exact fun e => (e.1 h).elim
  · rw [rename_out h]
    exact ⟨fun e => ⟨h, e⟩, fun e => e.2⟩

theorem rename_inj (hns : ∀ x ∈ ns, Plain x) {a b : Str} (ha : OkId a) (hb : OkId b) (h : rename ns a = rename ns b) : a = b := by
  have key : ∀ {a b : Str}, OkId b → a ∈ ns → b ∉ ns → rename ns a = rename ns b → False := by
    intro a b hb h1 h2 h
    rw [rename_in h1, rename_out h2] at h
    rcases hb with hb | hb
    · exact hb (by rw [← h]; rfl)
    · rw [hb] at h
      have : a = py! "__" := by simpa using h
      exact hns a h1 (by rw [this]; rfl)
  by_cases h1 : a ∈ ns <;> by_cases h2 : b ∈ ns
  · rw [rename_in h1, rename_in h2] at h
    simpa using h
  · exact (key hb h1 h2 h).elim
  · exact (key ha h2 h1 h.symm).elim
  · rwa [rename_out h1, rename_out h2] at h

variable {own : List Str}

theorem own_iff (hns : ∀ x ∈ ns, Plain x) (hown : ∀ x ∈ own, OkId x) {id : Str} (hid : OkId id) :
    rename ns id ∈ own.map (rename ns) ↔ id ∈ own := by
  constructor
  · intro h
    obtain ⟨x, hx, e⟩ := List.mem_map.1 h
    rw [← rename_inj hns (hown x hx) hid e]
    exact hx
  · exact fun h => List.mem_map_of_mem h

theorem get_map (hns : ∀ x ∈ ns, Plain x) {α : Type} {d : List (Str × α)} (hd : ∀ p ∈ d, OkId p.1) {id : Str} (hid : OkId id) :
    Dict.get? (d.map fun p => (rename ns p.1, p.2)) (rename ns id) = Dict.get? d id := by
  induction d with
  | nil => rfl
  | cons p d ih =>
    obtain ⟨k, v⟩ := p
    have ih := ih fun q hq => hd q (List.mem_cons_of_mem _ hq)
    have hk : OkId k := hd (k, v) List.mem_cons_self
    simp only [List.map_cons, Dict.get?]
    by_cases e : k = id
    · rw [if_pos (by rw [e]), if_pos e]
    · rw [if_neg (fun h => e (rename_inj hns hk hid h)), if_neg e, ih]

end

/-! ### Values known without running anything -/

/-- The names of a module `own`, of which the compiler renames `ns`. -/
structure Scope (ns own : List Str) : Prop where
  plain : ∀ x ∈ ns, Plain x
  ok : ∀ x ∈ own, OkId x
  sub : ∀ x ∈ ns, x ∈ own
  decimal : py! "decimal" ∉ own

section
variable {ns own : List Str} {D : Data}

theorem plain_decimal : Plain (py! "decimal") := by decide

theorem Scope.decimal' (h : Scope ns own) : py! "decimal" ∉ own.map (rename ns) := by
  intro hm
  obtain ⟨x, hx, e⟩ := List.mem_map.1 hm
  obtain ⟨_, rfl⟩ := (rename_eq_plain plain_decimal).1 e
  exact h.decimal hx

/-- A call that is not `f('...')`. -/
theorem pureVal_call {f : Expr} {args : List Expr} {kws : List (Str × Expr)}
    (h : ∀ g x, f = .name g → args = [.const (.str x)] → kws = [] → False) : pureVal D own (.call f args kws) = .error .unmodelled := by
  unfold pureVal
  split
  · rename_i e; cases e
  · rename_i g x e
    cases e
    exact (h _ _ rfl rfl rfl).elim
  · rename_i e; cases e
  · rename_i e; cases e
  · rename_i e; cases e
  · rfl

/-- An attribute of something else than a name. -/
theorem pureVal_attr {e : Expr} {a : Str} (h : ∀ g, e = .name g → False) : pureVal D own (.attr e a) = .error .unmodelled := by
  unfold pureVal
  split
  · rename_i e; cases e
  · rename_i e; cases e
  · rename_i e; cases e
  · rename_i e
    cases e
    exact (h _ rfl).elim
  · rename_i e; cases e
  · rfl

theorem comp_name {e : Expr} {g : Str} (h : e.comp ns = .name g) : ∃ g0, e = .name g0 ∧ g = rename ns g0 := by
  cases e with
  | name id => rw [Expr.comp] at h; cases h; exact ⟨id, rfl, rfl⟩
  | const c => cases c <;> simp [Expr.comp] at h
  | _ => simp [Expr.comp] at h

theorem comp_str {e : Expr} {s : Str} (h : e.comp ns = .const (.str s)) : e = .const (.str s) := by
  cases e with
  | const c => cases c <;> simp [Expr.comp] at h <;> simp [h]
  | _ => simp [Expr.comp] at h

theorem compAll_one {es : List Expr} {e' : Expr} (h : compAll ns es = [e']) : ∃ e, es = [e] ∧ e.comp ns = e' := by
  match es with
  | [] => simp [compAll] at h
  | [e] => simp [compAll] at h; exact ⟨e, rfl, h⟩
  | _ :: _ :: _ => simp [compAll] at h

theorem compKws_nil {kws : List (Str × Expr)} (h : compKws ns kws = []) : kws = [] := by
  match kws with
  | [] => rfl
  | (_, _) :: _ => simp [compKws] at h

theorem compAll_map : ∀ (es : List Expr), compAll ns es = es.map (Expr.comp ns)
  | [] => rfl
  | e :: es => by rw [compAll, compAll_map es]; rfl

theorem exprsAll_mem {N A : Str → Prop} : ∀ {es : List Expr}, exprsAll N A es ↔ ∀ e ∈ es, e.All N A
  | [] => by simp [exprsAll]
  | e :: es => by simp [exprsAll, exprsAll_mem]

theorem paramClass_comp (hs : Scope ns own) {e : Expr} (h : e.All SrcName SrcName) :
    paramClass D (own.map (rename ns)) (e.comp ns) = paramClass D own e := by
  cases e with
  | name id =>
    have hid : Plain id := h.1
    simp only [Expr.comp, paramClass]
    by_cases ho : id ∈ own
    · rw [if_pos (.inl ((own_iff hs.plain hs.ok (.inl hid)).2 ho)), if_pos (.inl ho)]
    · have hno := mt (own_iff hs.plain hs.ok (.inl hid)).1 ho
      rw [rename_out fun hn => ho (hs.sub id hn)] at hno ⊢
      simp only [ho, hno, false_or]
  | const c => cases c <;> rfl
  | _ => rfl

theorem paramClasses_comp (hs : Scope ns own) : ∀ {es : List Expr}, exprsAll SrcName SrcName es →
    paramClasses D (own.map (rename ns)) (compAll ns es) = paramClasses D own es
  | [], _ => rfl
  | e :: es, h => by rw [compAll, paramClasses, paramClasses, paramClass_comp hs h.1, paramClasses_comp hs h.2]

theorem paramTypes_comp (hs : Scope ns own) {e : Expr} (h : e.All SrcName SrcName) :
    paramTypes D (own.map (rename ns)) (e.comp ns) = paramTypes D own e := by
  by_cases ht : ∃ es, e = .op .tuple es
  · obtain ⟨es, rfl⟩ := ht
    exact paramClasses_comp hs h
  · have e1 : ∀ {own' : List Str} {x : Expr}, (∀ es, x ≠ .op .tuple es) → paramTypes D own' x = (paramClass D own' x).map fun t => [t] := by
      intro own' x hx
      unfold paramTypes
      split
      · exact (hx _ rfl).elim
      · rfl
    rw [e1 (x := e) fun es h => ht ⟨es, h⟩, e1, paramClass_comp hs h]
    intro es h
    cases e with
    | op o args => rw [Expr.comp] at h; cases h; exact ht ⟨args, rfl⟩
    | const c => cases c <;> simp [Expr.comp] at h
    | _ => simp [Expr.comp] at h

theorem literalDict_other {k e : Expr} {ks es : List Expr} (h : ∀ x, k ≠ .const (.str x)) :
    literalDict (k :: ks) (e :: es) = .error .unmodelled := by
  unfold literalDict
  split
  · rename_i h; cases h
  · rename_i h1 _; cases h1; exact (h _ rfl).elim
  · rfl

theorem literalDict_nil {k : Expr} {ks : List Expr} : literalDict (k :: ks) [] = .error .unmodelled := by
  unfold literalDict
  split
  · rename_i h _; cases h
  · rename_i h; cases h
  · rfl

theorem has_map {α β : Type} (f : α → β) (r : List (Str × α)) (x : Str) : Dict.has (r.map fun p => (p.1, f p.2)) x = Dict.has r x := by
  induction r with
  | nil => rfl
  | cons p r ih => simp only [Dict.has, Dict.get?, List.map_cons] at ih ⊢; split <;> simp_all

theorem get?_mapped {α β : Type} (f : α → β) (r : List (Str × α)) (x : Str) : Dict.get? (r.map fun p => (p.1, f p.2)) x = (Dict.get? r x).map f := by
  induction r with
  | nil => rfl
  | cons p r ih =>
    simp only [Dict.get?, List.map_cons] at ih ⊢
    split
    · rfl
    · exact ih

theorem literalDict_comp : ∀ (ks es : List Expr),
    literalDict (ks.map (Expr.comp ns)) (es.map (Expr.comp ns)) = (literalDict ks es).map fun d => d.map fun p => (p.1, p.2.comp ns)
  | [], [] => rfl
  | [], _ :: _ => rfl
  | k :: ks, [] => by
    rw [List.map_cons, List.map_nil, literalDict_nil, literalDict_nil]
    rfl
  | k :: ks, e :: es => by
    by_cases hk : ∃ x, k = .const (.str x)
    · obtain ⟨x, rfl⟩ := hk
      have := literalDict_comp ks es
      simp only [List.map_cons, Expr.comp, literalDict, this]
      cases literalDict ks es with
      | error e => rfl
      | ok r =>
        simp only [Except.map, Except.bind, has_map]
        split <;> rfl
    · rw [List.map_cons, List.map_cons, literalDict_other (k := k.comp ns) (fun x h => hk ⟨x, comp_str h⟩), literalDict_other fun x h => hk ⟨x, h⟩]
      rfl

theorem literalDict_mem : ∀ {ks es : List Expr} {d : List (Str × Expr)}, literalDict ks es = .ok d → ∀ p ∈ d, p.2 ∈ es
  | [], [], d, h => by cases h; simp
  | [], _ :: _, d, h => by cases h
  | k :: ks, [], d, h => by rw [literalDict_nil] at h; cases h
  | k :: ks, e :: es, d, h => by
    by_cases hk : ∃ x, k = .const (.str x)
    · obtain ⟨x, rfl⟩ := hk
      simp only [literalDict] at h
      obtain ⟨r, hr, h⟩ := bind_ok h
      split at h
      · cases h
      · cases h
        have := literalDict_mem hr
        simp only [List.mem_cons, forall_eq_or_imp, true_or, true_and]
        exact fun p hp => .inr (this p hp)
    · rw [literalDict_other fun x h => hk ⟨x, h⟩] at h
      cases h

theorem paramIdx_comp (e : Option Expr) : paramIdx (e.map (Expr.comp ns)) = paramIdx e := by
  cases e with
  | none => rfl
  | some e =>
    cases e with
    | const c => cases c <;> rfl
    | _ => rfl

theorem paramOf_comp (hs : Scope ns own) {e : Expr} (h : e.All SrcName SrcName) :
    paramOf D (own.map (rename ns)) (e.comp ns) = paramOf D own e := by
  cases e with
  | op o kvs =>
    cases o with
    | dict =>
      have hk : ∀ x ∈ kvs, x.All SrcName SrcName := exprsAll_mem.1 h
      rw [Expr.comp, compAll_map]
      simp only [paramOf]
      rw [List.length_map, ← List.map_take, ← List.map_drop, literalDict_comp]
      cases hd : literalDict (kvs.take (kvs.length / 2)) (kvs.drop (kvs.length / 2)) with
      | error e => rfl
      | ok d =>
        simp only [Except.map, Except.bind]
        rw [get?_mapped, get?_mapped]
        cases ht : Dict.get? d (py! "type") with
        | none => rfl
        | some t =>
          have hm := literalDict_mem hd _ (Dict.get?_mem' ht)
          simp only [Option.map_some]
          rw [paramTypes_comp hs (hk t (List.mem_of_mem_drop hm)), paramIdx_comp]
    | _ => rfl
  | const c => cases c <;> rfl
  | _ => rfl

theorem paramsOf_other {k e : Expr} {ks es : List Expr} (h : ∀ x, k ≠ .const (.str x)) :
    paramsOf D own (k :: ks) (e :: es) = .error .unmodelled := by
  unfold paramsOf
  split
  · rename_i h; cases h
  · rename_i h1 _; cases h1; exact (h _ rfl).elim
  · rfl

theorem paramsOf_nil {k : Expr} {ks : List Expr} : paramsOf D own (k :: ks) [] = .error .unmodelled := by
  unfold paramsOf
  split
  · rename_i h _; cases h
  · rename_i h; cases h
  · rfl

theorem paramsOf_comp (hs : Scope ns own) : ∀ (ks es : List Expr), (∀ e ∈ es, e.All SrcName SrcName) →
    paramsOf D (own.map (rename ns)) (ks.map (Expr.comp ns)) (es.map (Expr.comp ns)) = paramsOf D own ks es
  | [], [], _ => rfl
  | [], _ :: _, _ => rfl
  | k :: ks, [], _ => by
    rw [List.map_cons, List.map_nil, paramsOf_nil, paramsOf_nil]
  | k :: ks, e :: es, h => by
    by_cases hk : ∃ x, k = .const (.str x)
    · obtain ⟨x, rfl⟩ := hk
      simp only [List.map_cons, Expr.comp, paramsOf]
      rw [paramsOf_comp hs ks es fun e he => h e (List.mem_cons_of_mem _ he), paramOf_comp hs (h e List.mem_cons_self)]
    · rw [List.map_cons, List.map_cons, paramsOf_other (k := k.comp ns) (fun x h => hk ⟨x, comp_str h⟩), paramsOf_other fun x h => hk ⟨x, h⟩]

theorem pureVal_comp (hs : Scope ns own) {e : Expr} (h : e.All SrcName SrcName) :
    pureVal D (own.map (rename ns)) (e.comp ns) = pureVal D own e := by
  cases e with
  | name id =>
    have hid : Plain id := h.1
    simp only [Expr.comp, pureVal]
    by_cases ho : id ∈ own
    · rw [if_pos ((own_iff hs.plain hs.ok (.inl hid)).2 ho), if_pos ho]
    · rw [if_neg (mt (own_iff hs.plain hs.ok (.inl hid)).1 ho), if_neg ho, rename_out fun hn => ho (hs.sub id hn)]
  | const c =>
    cases c with
    | float t => simp only [Expr.comp, pureVal, constVal, hs.decimal', not_false_eq_true, and_self, if_true]
    | _ => rfl
  | attr e a =>
    by_cases hn : ∃ g, e = .name g
    · obtain ⟨g, rfl⟩ := hn
      have hid : Plain g := h.1.1
      simp only [Expr.comp, pureVal]
      by_cases ho : g ∈ own
      · rw [if_neg (fun hc => hc.2 ((own_iff hs.plain hs.ok (.inl hid)).2 ho)), if_neg (fun hc => hc.2 ho)]
      · have hno := mt (own_iff hs.plain hs.ok (.inl hid)).1 ho
        rw [rename_out fun hn => ho (hs.sub g hn)] at hno ⊢
        simp only [ho, hno]
    · rw [Expr.comp, pureVal_attr (fun g hg => hn (by obtain ⟨g0, h0, _⟩ := comp_name hg; exact ⟨g0, h0⟩)), pureVal_attr (fun g hg => hn ⟨g, hg⟩)]
  | call f args kws =>
    by_cases hn : ∃ g x, f = .name g ∧ args = [.const (.str x)] ∧ kws = []
    · obtain ⟨g, x, rfl, rfl, rfl⟩ := hn
      simp only [Expr.comp, compAll, compKws, pureVal]
      by_cases hg : g = py! "decimal"
      · subst hg
        have hr : rename ns (py! "decimal") = py! "decimal" := rename_out fun hn => hs.decimal (hs.sub _ hn)
        rw [hr, if_pos ⟨rfl, hs.decimal'⟩, if_pos ⟨rfl, hs.decimal⟩]
      · rw [if_neg (fun hc => hg ((rename_eq_plain plain_decimal).1 hc.1).2), if_neg (fun hc => hg hc.1)]
    · rw [Expr.comp, pureVal_call (fun g x h1 h2 h3 => hn ?_), pureVal_call (fun g x h1 h2 h3 => hn ⟨g, x, h1, h2, h3⟩)]
      obtain ⟨g0, h0, _⟩ := comp_name h1
      obtain ⟨a, ha, hc⟩ := compAll_one h2
      exact ⟨g0, x, h0, by rw [ha, comp_str hc], compKws_nil h3⟩
  | sub _ _ => rfl
  | op o kvs =>
    cases o with
    | dict =>
      rw [Expr.comp, compAll_map]
      simp only [pureVal]
      rw [List.length_map, ← List.map_take, ← List.map_drop,
        paramsOf_comp hs _ _ fun e he => exprsAll_mem.1 h e (List.mem_of_mem_drop he)]
    | _ => rfl
  | bool _ _ => rfl
  | cond _ _ _ => rfl

theorem pureVals_comp (hs : Scope ns own) : ∀ {es : List Expr}, exprsAll SrcName SrcName es →
    pureVals D (own.map (rename ns)) (compAll ns es) = pureVals D own es
  | [], _ => rfl
  | e :: es, h => by rw [compAll, pureVals, pureVals, pureVal_comp hs h.1, pureVals_comp hs h.2]

theorem pureKws_comp (hs : Scope ns own) : ∀ {es : List (Str × Expr)}, kwsAll SrcName SrcName es →
    pureKws D (own.map (rename ns)) (compKws ns es) = pureKws D own es
  | [], _ => rfl
  | (k, e) :: es, h => by rw [compKws, pureKws, pureKws, pureVal_comp hs h.1, pureKws_comp hs h.2]

theorem pureKws_own (a : List (Str × Expr)) (c x : Str) : pureKws D own (a ++ ownKws c x) =
    (pureKws D own a).map (· ++ [(py! "contract", .data (.str c)), (py! "name", .data (.str x))]) := by
  induction a with
  | nil => rfl
  | cons p a ih =>
    obtain ⟨k, e⟩ := p
    simp only [List.cons_append, pureKws, ih]
    cases pureVal D own e with
    | error e => rfl
    | ok v =>
      cases pureKws D own a with
      | error e => rfl
      | ok r => rfl

theorem construct_other {cls : Str} (h : cls ∉ storageClasses) (ks : List (Str × Val)) : construct cls [] ks = .error .unmodelled := by
  have h1 : cls ≠ py! "Variable" := fun e => h (by rw [e]; decide)
  have h2 : cls ≠ py! "Hash" := fun e => h (by rw [e]; decide)
  have h3 : cls ≠ py! "ForeignVariable" := fun e => h (by rw [e]; decide)
  have h4 : cls ≠ py! "ForeignHash" := fun e => h (by rw [e]; decide)
  have h5 : cls ≠ py! "LogEvent" := fun e => h (by rw [e]; decide)
  unfold construct
  simp only [h1, h2, h3, h4, h5, if_false]

theorem declVal_comp (hs : Scope ns own) {c x cls : Str} {kws : List (Str × Expr)} (hcls : Plain cls) (h : kwsAll SrcName SrcName kws) :
    declVal D (own.map (rename ns)) (rename ns cls) (if ormClasses.contains cls then compKws ns kws ++ ownKws c x else compKws ns kws) =
      Src.declVal D own c x cls kws := by
  unfold declVal Src.declVal
  by_cases ho : cls ∈ own
  · rw [if_pos ((own_iff hs.plain hs.ok (.inl hcls)).2 ho), if_pos ho]
  · rw [if_neg (mt (own_iff hs.plain hs.ok (.inl hcls)).1 ho), if_neg ho, rename_out fun hn => ho (hs.sub cls hn)]
    by_cases hc : cls ∈ ormClasses
    · rw [if_pos (by simpa using hc), pureKws_own, pureKws_comp hs h]
      cases pureKws D own kws <;> rfl
    · rw [if_neg (by simpa using hc), pureKws_comp hs h]
      cases pureKws D own kws with
      | error e => rfl
      | ok r => simp only [Except.bind, construct_other hc]

/-! ### Modules -/

/-- What is needed of a top-level statement. -/
structure TopOk (ns : List Str) (c : Str) (t : Top) : Prop where
  all : t.All SrcName SrcName
  cls : ∀ x cls kws, t = .decl x cls kws → Plain cls
  ok : OkId (Src.bound t)
  bound : (t.comp ns c).bound = rename ns (Src.bound t)

theorem compAssigned_src {e : Expr} (h : e.All SrcName SrcName) (c x : Str) : e.compAssigned ns c x = e.comp ns := by
  have hn : e.ormCall = none := by
    unfold Expr.ormCall
    split
    · rename_i id _ _
      have : id ∉ ormClasses := h.1.2
      rw [if_neg (by simpa using this)]
    · rfl
  unfold Expr.compAssigned
  rw [hn]

theorem comp_decl (c x cls : Str) (kws : List (Str × Expr)) : Top.comp ns c (.decl x cls kws) =
    .decl (rename ns x) (rename ns cls) (if ormClasses.contains cls then compKws ns kws ++ ownKws c x else compKws ns kws) := by
  simp only [Top.comp]
  split <;> rfl

theorem bindings_comp (hs : Scope ns own) {c : Str} : ∀ {m : Module} {i : Nat}, (∀ t ∈ m, TopOk ns c t) →
    bindings D (own.map (rename ns)) c i (m.map (Top.comp ns c)) = (Src.bindings D own c i m).map fun p => (rename ns p.1, p.2)
  | [], _, _ => rfl
  | t :: m, i, h => by
    have ht := h t List.mem_cons_self
    have ih : ∀ {i : Nat}, bindings D (own.map (rename ns)) c i (m.map (Top.comp ns c)) = (Src.bindings D own c i m).map fun p => (rename ns p.1, p.2) :=
      bindings_comp hs fun t ht => h t (List.mem_cons_of_mem _ ht)
    have hb := ht.bound
    cases t with
    | «import» n a =>
      simp only [List.map_cons, Top.comp, bindings, Src.bindings, ih]
      have hb' : a.getD n = rename ns (a.getD n) := hb
      rw [← hb']
    | decl x cls kws =>
      rw [List.map_cons, comp_decl, bindings, Src.bindings, List.map_cons, ih, declVal_comp hs (ht.cls _ _ _ rfl) ht.all]
    | assign x e =>
      rw [List.map_cons, Top.comp, bindings, Src.bindings, List.map_cons, ih, compAssigned_src ht.all, pureVal_comp hs ht.all]
    | «def» f =>
      rw [List.map_cons, Top.comp, bindings, Src.bindings, List.map_cons, ih]
      rw [show (f.comp ns c).name = rename ns (Src.funName f) from hb]

theorem bindings_keys {c : Str} : ∀ {m : Module} {i : Nat} {D : Data} {own : List Str}, (Src.bindings D own c i m).map Prod.fst = m.map Src.bound
  | [], _, _, _ => rfl
  | t :: m, i, D, own => by
    cases t <;> simp only [Src.bindings, List.map_cons, bindings_keys, Src.bound, Top.bound]

theorem bound_comp {c : Str} {m : Module} (h : ∀ t ∈ m, TopOk ns c t) : (m.map (Top.comp ns c)).map Top.bound = (m.map Src.bound).map (rename ns) := by
  rw [List.map_map, List.map_map]
  exact List.map_congr_left fun t ht => (h t ht).bound

theorem globalOf_comp {c : Str} {m : Module} (hs : Scope ns (m.map Src.bound)) (h : ∀ t ∈ m, TopOk ns c t) {id : Str} (hid : OkId id) :
    globalOf D c (m.map (Top.comp ns c)) (rename ns id) = Src.globalOf D c m id := by
  unfold globalOf Src.globalOf
  rw [bound_comp h, bindings_comp hs h, ← List.map_reverse]
  refine get_map hs.plain (fun p hp => ?_) hid
  have : p.1 ∈ (Src.bindings D (m.map Src.bound) c 0 m).map Prod.fst := List.mem_map_of_mem (List.mem_reverse.1 hp)
  rw [bindings_keys] at this
  exact hs.ok _ this

theorem get_some {α : Type} {d : List (Str × α)} {k : Str} (h : k ∈ d.map Prod.fst) : Dict.get? d k ≠ none := by
  induction d with
  | nil => cases h
  | cons p d ih =>
    obtain ⟨k', v⟩ := p
    simp only [Dict.get?]
    split
    · simp
    · rename_i hne
      rcases List.mem_cons.1 h with h | h
      · exact (hne h.symm).elim
      · exact ih h

theorem globalOf_bound {c : Str} {m : Module} {id : Str} (h : Src.globalOf D c m id = none) : id ∉ m.map Src.bound := by
  intro hm
  refine get_some (d := (Src.bindings D (m.map Src.bound) c 0 m).reverse) ?_ h
  rw [List.map_reverse, List.mem_reverse, bindings_keys]
  exact hm

theorem globalOf_unbound {c : Str} {m : Module} {id : Str} (h : id ∉ m.map Top.bound) : globalOf D c m id = none := by
  unfold globalOf
  refine Dict.get?_none fun hm => h ?_
  rw [List.map_reverse, List.mem_reverse] at hm
  obtain ⟨p, hp, rfl⟩ := List.mem_map.1 hm
  obtain ⟨k, r⟩ := p
  rcases bindings_mem hp with ⟨n, a, h1, h2, _⟩ | ⟨cls, kws, h1, _⟩ | ⟨e, h1, _⟩ | ⟨f, j, h1, h2, _⟩
  · exact List.mem_map.2 ⟨_, h1, h2.symm⟩
  · exact List.mem_map.2 ⟨_, h1, rfl⟩
  · exact List.mem_map.2 ⟨_, h1, rfl⟩
  · exact List.mem_map.2 ⟨_, funs_mem.1 (List.mem_of_getElem? h1), h2.symm⟩

theorem funs_comp (c : Str) (m : Module) : funs (m.map (Top.comp ns c)) = (funs m).map (Fun.comp ns c) := by
  induction m with
  | nil => rfl
  | cons t m ih =>
    have ih' : funs (m.map (Top.comp ns c)) = (funs m).map (Fun.comp ns c) := ih
    cases t with
    | «import» n a => exact ih'
    | decl x cls kws =>
      rw [List.map_cons, comp_decl]
      exact ih'
    | assign x e => exact ih'
    | «def» f =>
      change f.comp ns c :: funs (m.map (Top.comp ns c)) = _
      rw [ih']
      rfl

end

end Verif.Lang
