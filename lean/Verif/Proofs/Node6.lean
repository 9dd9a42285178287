import Verif.Spec.EventDecl
import Verif.Proofs.Node5
import Verif.Props.Events
import Verif.Props.Context
/-! # Nodes: declared events, and no frames left -/
namespace Verif.Lang
open Verif Verif.Spec

section
variable {D : Data} {own ns : List Str}

theorem comp_op {e : Expr} {o : Op} {args' : List Expr} (h : e.comp ns = .op o args') :
    ∃ args, e = .op o args ∧ args' = args.map (Expr.comp ns) := by
  cases e with
  | op o2 args =>
    rw [Expr.comp, compAll_map] at h
    cases h
    exact ⟨args, rfl, rfl⟩
  | const c => cases c <;> simp [Expr.comp] at h
  | _ => simp [Expr.comp] at h

theorem rename_plain {x y : Str} (h : rename ns x = y) (hy : y.head? ≠ some '_') : x = y := by
  unfold rename at h
  split at h
  · subst h; exact (hy rfl).elim
  · exact h

theorem comp_name_plain {e : Expr} {x : Str} (h : e.comp ns = .name x) (hx : x.head? ≠ some '_') : e = .name x := by
  cases e with
  | name id =>
    rw [Expr.comp] at h
    simp only [Expr.name.injEq] at h
    rw [rename_plain h hx]
  | const c => cases c <;> simp [Expr.comp] at h
  | _ => simp [Expr.comp] at h

theorem classNames_plain {q : Str × PyType} (h : q ∈ classNames) : q.1.head? ≠ some '_' := by
  revert q; decide

theorem paramClass_name {e : Expr} {t : PyType} (h : paramClass D own (e.comp ns) = .ok t) : ∃ x, e = .name x ∧ (x, t) ∈ classNames := by
  unfold paramClass at h
  split at h
  · rename_i id hid
    split at h
    · cases h
    · split at h
      · rename_i t' ht
        cases h
        have hm : (id, t) ∈ classNames := Dict.get?_mem' ht
        exact ⟨id, comp_name_plain hid (classNames_plain hm), hm⟩
      · cases h
  · cases h

theorem paramClasses_names : ∀ {es : List Expr} {ts : List PyType}, paramClasses D own (es.map (Expr.comp ns)) = .ok ts →
    ∃ xs : List (Str × PyType), (∀ q ∈ xs, q ∈ classNames) ∧ es = xs.map (fun q => .name q.1) ∧ ts = xs.map Prod.snd
  | [], ts, h => by cases h; exact ⟨[], by simp, rfl, rfl⟩
  | e :: es, ts, h => by
    obtain ⟨t, ht, h⟩ := bind_ok h
    obtain ⟨ts', hts, rfl⟩ := map_ok h
    obtain ⟨x, rfl, hx⟩ := paramClass_name ht
    obtain ⟨xs, h1, rfl, rfl⟩ := paramClasses_names hts
    exact ⟨(x, t) :: xs, by simpa using ⟨hx, fun a b => h1 (a, b)⟩, rfl, rfl⟩

theorem paramTypes_names {e : Expr} {ts : List PyType} (h : paramTypes D own (e.comp ns) = .ok ts) : Names e ts := by
  unfold paramTypes at h
  split at h
  · rename_i es he
    obtain ⟨args, rfl, rfl⟩ := comp_op he
    obtain ⟨xs, h1, rfl, rfl⟩ := paramClasses_names h
    exact .tuple h1
  · obtain ⟨t, ht, rfl⟩ := map_ok h
    obtain ⟨x, rfl, hx⟩ := paramClass_name ht
    exact .one hx

theorem has_false {α : Type} {r : List (Str × α)} {x : Str} (h : ¬ Dict.has r x = true) : x ∉ r.map Prod.fst := by
  intro hm
  refine h ?_
  unfold Dict.has
  rw [Dict.get?_isSome_iff]
  exact hm

theorem literalDict_entries : ∀ {ks es : List Expr} {d : List (Str × Expr)}, literalDict ks es = .ok d →
    ks = d.map (fun q => .const (.str q.1)) ∧ es = d.map Prod.snd ∧ (d.map Prod.fst).Nodup
  | [], [], d, h => by cases h; exact ⟨rfl, rfl, List.nodup_nil⟩
  | [], _ :: _, d, h => by cases h
  | k :: ks, [], d, h => by rw [literalDict_nil] at h; cases h
  | k :: ks, e :: es, d, h => by
    by_cases hk : ∃ x, k = .const (.str x)
    · obtain ⟨x, rfl⟩ := hk
      simp only [literalDict] at h
      obtain ⟨r, hr, h⟩ := bind_ok h
      split at h
      · cases h
      · rename_i hno
        cases h
        obtain ⟨rfl, rfl, h3⟩ := literalDict_entries hr
        exact ⟨rfl, rfl, List.nodup_cons.2 ⟨has_false hno, h3⟩⟩
    · rw [literalDict_other fun x h => hk ⟨x, h⟩] at h
      cases h

theorem split_half (kvs : List Expr) : Expr.op .dict kvs = .op .dict (kvs.take (kvs.length / 2) ++ kvs.drop (kvs.length / 2)) := by
  rw [List.take_append_drop]

theorem paramOf_param {e : Expr} {p : Param} (h : paramOf D own (e.comp ns) = .ok p) : IsParam e p := by
  unfold paramOf at h
  split at h
  swap
  · cases h
  rename_i kvs' he
  obtain ⟨kvs, rfl, rfl⟩ := comp_op he
  rw [List.length_map, ← List.map_take, ← List.map_drop, literalDict_comp] at h
  obtain ⟨d', hd', h⟩ := bind_ok h
  obtain ⟨d, hd, rfl⟩ := map_ok hd'
  rw [get?_mapped, get?_mapped] at h
  obtain ⟨h1, h2, h3⟩ := literalDict_entries hd
  cases ht : Dict.get? d (py! "type") with
  | none => rw [ht] at h; cases h
  | some t =>
    rw [ht] at h
    simp only [Option.map_some] at h
    obtain ⟨ts, hts, h⟩ := bind_ok h
    obtain ⟨i, hi, rfl⟩ := map_ok h
    refine ⟨d, t, ⟨?_, h3⟩, Dict.get?_mem' ht, paramTypes_names hts, ?_⟩
    · rw [split_half, h1, h2]
    · rw [paramIdx_comp] at hi
      cases hx : Dict.get? d (py! "idx") with
      | none =>
        rw [hx] at hi
        cases hi
        refine .inr ⟨rfl, fun hm => ?_⟩
        have := (Dict.get?_isSome_iff (d := d)).2 hm
        rw [hx] at this
        cases this
      | some e =>
        rw [hx] at hi
        unfold paramIdx at hi
        split at hi
        · rename_i h; cases h
        · rename_i b h
          cases hi
          cases h
          exact .inl (Dict.get?_mem' hx)
        · cases hi

theorem paramsOf_params : ∀ {ks es : List Expr} {ps : Dict Str Param}, paramsOf D own (ks.map (Expr.comp ns)) (es.map (Expr.comp ns)) = .ok ps →
    ∃ d : List (Str × Expr), ks = d.map (fun q => .const (.str q.1)) ∧ es = d.map Prod.snd ∧ (d.map Prod.fst).Nodup ∧
      d.map Prod.fst = ps.map Prod.fst ∧ List.Forall₂ (fun q p => q.1 = p.1 ∧ IsParam q.2 p.2) d ps
  | [], [], ps, h => by cases h; exact ⟨[], rfl, rfl, List.nodup_nil, rfl, .nil⟩
  | [], _ :: _, ps, h => by cases h
  | k :: ks, [], ps, h => by rw [List.map_cons, List.map_nil, paramsOf_nil] at h; cases h
  | k :: ks, e :: es, ps, h => by
    by_cases hk : ∃ x, k = .const (.str x)
    · obtain ⟨x, rfl⟩ := hk
      simp only [List.map_cons, Expr.comp, paramsOf] at h
      obtain ⟨p, hp, h⟩ := bind_ok h
      obtain ⟨r, hr, h⟩ := bind_ok h
      split at h
      · cases h
      · rename_i hno
        cases h
        obtain ⟨d, rfl, rfl, h3, h4, h5⟩ := paramsOf_params hr
        refine ⟨(x, e) :: d, rfl, rfl, List.nodup_cons.2 ⟨?_, h3⟩, by simp [h4], .cons ⟨rfl, paramOf_param hp⟩ h5⟩
        show x ∉ d.map Prod.fst
        rw [h4]
        exact has_false hno
    · rw [List.map_cons, List.map_cons, paramsOf_other (k := k.comp ns) (fun x h => hk ⟨x, comp_str h⟩)] at h
      cases h

theorem pureVal_params {e : Expr} {ps : Dict Str Param} (h : pureVal D own (e.comp ns) = .ok (.params ps)) :
    ∃ d, IsDict e d ∧ List.Forall₂ (fun q p => q.1 = p.1 ∧ IsParam q.2 p.2) d ps := by
  unfold pureVal at h
  split at h
  · obtain ⟨_, _, h⟩ := map_ok h; cases h
  · split at h
    · obtain ⟨_, _, h⟩ := map_ok h; cases h
    · cases h
  · split at h
    · cases h
    · split at h
      · cases h
      · split at h <;> cases h
  · split at h <;> cases h
  · rename_i kvs' he
    obtain ⟨kvs, rfl, rfl⟩ := comp_op he
    obtain ⟨r, hr, h⟩ := map_ok h
    cases h
    rw [List.length_map, ← List.map_take, ← List.map_drop] at hr
    obtain ⟨d, h1, h2, h3, _, h5⟩ := paramsOf_params hr
    exact ⟨d, ⟨by rw [split_half, h1, h2], h3⟩, h5⟩
  · cases h

theorem pureVal_text (hD : NoText D) {e : Expr} {s : Str} (h : pureVal D own (e.comp ns) = .ok (.data (.str s))) : e = .const (.str s) := by
  unfold pureVal at h
  split at h
  · rename_i c hc
    obtain ⟨v, hv, h⟩ := map_ok h
    cases h
    have : c = .str s := by
      cases c with
      | int i => cases hv
      | str s' => cases hv; rfl
      | bool b => cases hv
      | none => cases hv
      | float t => exact (hD.decimal _ _ hv).elim
      | bytes b =>
        simp only [constVal, Except.ok.injEq] at hv
        exact (hD.const _ _ hv).elim
      | complex =>
        simp only [constVal, Except.ok.injEq] at hv
        exact (hD.const _ _ hv).elim
      | ellipsis =>
        simp only [constVal, Except.ok.injEq] at hv
        exact (hD.const _ _ hv).elim
    subst this
    exact comp_str hc
  · split at h
    · rename_i hf
      obtain ⟨v, hv, h⟩ := map_ok h
      cases h
      rw [hf.1] at hv
      exact (hD.decimal _ _ hv).elim
    · cases h
  · split at h
    · cases h
    · split at h
      · cases h
      · split at h <;> cases h
  · split at h <;> cases h
  · obtain ⟨_, _, h⟩ := map_ok h; cases h
  · cases h

theorem pureKws_get : ∀ {kws : List (Str × Expr)} {ks : List (Str × Val)}, pureKws D own kws = .ok ks → ∀ {k : Str} {v : Val}, (k, v) ∈ ks →
    ∃ e, (k, e) ∈ kws ∧ pureVal D own e = .ok v
  | [], ks, h, k, v, hm => by cases h; cases hm
  | (x, e) :: kws, ks, h, k, v, hm => by
    obtain ⟨u, hu, h⟩ := bind_ok h
    obtain ⟨r, hr, h⟩ := bind_ok h
    cases h
    rcases List.mem_cons.1 hm with hm | hm
    · cases hm; exact ⟨e, List.mem_cons_self, hu⟩
    · obtain ⟨e', h1, h2⟩ := pureKws_get hr hm
      exact ⟨e', List.mem_cons_of_mem _ h1, h2⟩

theorem compKws_mem : ∀ {kws : List (Str × Expr)} {k : Str} {e' : Expr}, (k, e') ∈ compKws ns kws → ∃ e, (k, e) ∈ kws ∧ e.comp ns = e'
  | [], k, e', h => by cases h
  | (x, e) :: kws, k, e', h => by
    rw [compKws] at h
    rcases List.mem_cons.1 h with h | h
    · cases h; exact ⟨e, List.mem_cons_self, rfl⟩
    · obtain ⟨e0, h1, h2⟩ := compKws_mem h
      exact ⟨e0, List.mem_cons_of_mem _ h1, h2⟩

theorem construct_event {cls : Str} {ks : List (Str × Val)} {e : Str} {ps : Dict Str Param} (h : construct cls [] ks = .ok (.event e ps)) :
    cls = py! "LogEvent" ∧ Dict.get? ks (py! "event") = some (.data (.str e)) ∧ Dict.get? ks (py! "params") = some (.params ps) := by
  unfold construct at h
  simp only at h
  split at h
  · obtain ⟨b, hb, h⟩ := bind_ok h
    obtain ⟨cn, h1, h⟩ := bind_ok h
    obtain ⟨nm, h2, h⟩ := bind_ok h
    obtain ⟨dv, _, h⟩ := bind_ok h
    cases h
  split at h
  · obtain ⟨b, hb, h⟩ := bind_ok h
    obtain ⟨cn, h1, h⟩ := bind_ok h
    obtain ⟨nm, h2, h⟩ := bind_ok h
    obtain ⟨dv, _, h⟩ := bind_ok h
    cases h
  split at h
  · obtain ⟨b, hb, h⟩ := bind_ok h
    obtain ⟨_, _, h⟩ := bind_ok h
    obtain ⟨_, _, h⟩ := bind_ok h
    obtain ⟨_, _, h⟩ := bind_ok h
    obtain ⟨_, _, h⟩ := bind_ok h
    cases h
  split at h
  · obtain ⟨b, hb, h⟩ := bind_ok h
    obtain ⟨_, _, h⟩ := bind_ok h
    obtain ⟨_, _, h⟩ := bind_ok h
    obtain ⟨_, _, h⟩ := bind_ok h
    obtain ⟨_, _, h⟩ := bind_ok h
    cases h
  split at h
  · rename_i hc
    obtain ⟨b, hb, h⟩ := bind_ok h
    split at h
    · rename_i e1 e2
      cases h
      rw [bindArgs_get hb (by decide)] at e1 e2
      simp only [Dict.get?] at e1 e2
      exact ⟨hc, by simpa using e1, by simpa using e2⟩
    · cases h
  · cases h

/-- A declaration in a compiled module that makes an event comes from one in the source. -/
theorem event_declared (hD : NoText D) {c : Str} {m : Module} {x cls : Str} {kws : List (Str × Expr)}
    (hx : Top.decl x cls kws ∈ compileModule c m) {e : Str} {ps : Dict Str Param} (hv : declVal D own cls kws = .ok (.event e ps)) :
    DeclaresEvent m e ps := by
  obtain ⟨t, ht, heq⟩ := compile_mem hx
  unfold declVal at hv
  split at hv
  · cases hv
  obtain ⟨ks, hks, hc⟩ := bind_ok hv
  obtain ⟨rfl, g1, g2⟩ := construct_event hc
  cases t with
  | «import» n a => cases heq
  | assign x e' => cases heq
  | «def» f => cases heq
  | decl z cls0 kws0 =>
    have horm : ∀ {cls' : Str}, rename (moduleAst m).names cls' = py! "LogEvent" → cls' = py! "LogEvent" := fun h =>
      rename_plain h (by decide)
    simp only [Top.comp] at heq
    split at heq
    swap
    · rename_i hno
      simp only [Top.decl.injEq] at heq
      rw [horm heq.2.1.symm] at hno
      exact (hno (by decide)).elim
    simp only [Top.decl.injEq] at heq
    obtain ⟨_, hcls, rfl⟩ := heq
    cases horm hcls.symm
    have find : ∀ {k : Str} {v : Val}, Dict.get? ks k = some v → k ≠ py! "contract" → k ≠ py! "name" →
        ∃ e, (k, e) ∈ kws0 ∧ pureVal D own (e.comp (moduleAst m).names) = .ok v := by
      intro k v h n1 n2
      obtain ⟨e', h1, h2⟩ := pureKws_get hks (Dict.get?_mem' h)
      rcases List.mem_append.1 h1 with h1 | h1
      · obtain ⟨e0, h3, rfl⟩ := compKws_mem h1
        exact ⟨e0, h3, h2⟩
      · simp only [ownKws, List.mem_cons, List.not_mem_nil, or_false, Prod.mk.injEq] at h1
        rcases h1 with ⟨h1, _⟩ | ⟨h1, _⟩
        · exact (n1 h1).elim
        · exact (n2 h1).elim
    obtain ⟨e1, k1, v1⟩ := find g1 (by decide) (by decide)
    obtain ⟨e2, k2, v2⟩ := find g2 (by decide) (by decide)
    cases pureVal_text hD v1
    obtain ⟨d, h1, h2⟩ := pureVal_params v2
    exact ⟨z, kws0, e2, d, ht, k1, k2, h1, h2⟩

end

/-! ### Only declared events are built -/

/-- Event objects are declared ones; there are no storage classes. -/
def EventVal (declared : Str → Dict Str Param → Prop) : Val → Prop
  | .event e ps => declared e ps
  | .cls _ => False
  | .meth v _ => EventVal declared v
  | _ => True

theorem event_closed (ok : Action → Prop) : Closed (fun p => p.All ok) ok where
  ret := fun _ => trivial
  raise := fun _ => trivial
  act := fun {a f} h hk => ⟨h, fun r => by
    cases r with
    | ok v => exact hk v
    | error e => exact trivial⟩
  load := fun {n d body f} h hk => ⟨h, fun r => by
    cases r with
    | ok v => exact hk v
    | error e => exact trivial⟩

theorem event_allows (declared : Str → Dict Str Param → Prop) : Allows Clean CleanAttr (EventVal declared) (Action.LogsOnly declared) where
  data := fun _ => trivial
  sys := fun _ => trivial
  mod := fun _ => trivial
  meth := fun _ h => h
  unmeth := fun h => h
  cls := fun h1 h2 => (h1.1 h2).elim
  build := fun h _ => h.elim
  driver := fun h => trivial
  rawSet := fun _ _ _ => trivial
  rawGet := fun _ _ => trivial
  varSet := fun _ _ => trivial
  hashSet := fun _ _ _ => trivial
  hashClear := fun _ _ => trivial
  varGet := fun _ => trivial
  hashGet := fun _ _ => trivial
  hashAll := fun _ _ => trivial
  foreignHashAll := fun _ _ => trivial
  foreignVarSet := fun _ _ => trivial
  foreignHashSet := fun _ _ _ => trivial
  foreignHashClear := fun _ _ => trivial
  envGet := fun _ => trivial
  ctx := by
    intro a x h
    unfold ctxAction at h
    repeat' split at h
    all_goals first | cases h | skip
    all_goals exact trivial
  ownerOf := fun _ => trivial
  line := fun _ _ _ => trivial
  params := fun _ => trivial
  newLog := fun h => h
  emit := fun _ _ => trivial
  random := fun h => by obtain ⟨_, rfl⟩ | ⟨_, rfl⟩ | ⟨_, rfl⟩ := randomCall_kind h <;> exact trivial

/-- All declared events of these sources. -/
def EventOf (src : Str → Option Module) (event : Str) (params : Dict Str Param) : Prop :=
  ∃ c m, src c = some m ∧ DeclaresEvent m event params

theorem event_ready {I : PyInfo} {src : Str → Option Module} {C : Chain} (hT : NoText C.D) (hD : Deployed I src C)
    (hd : ∀ c m, src c = some m → Disciplined m) :
    Ready (fun p => p.All (Action.LogsOnly (EventOf src))) Clean CleanAttr (EventVal (EventOf src)) C (fun _ => True) := by
  have hsrc : ∀ {c' m}, C.code c' = some m → ∃ m0, src c' = some m0 ∧ m = compileModule c' m0 := by
    intro c' m h
    rw [hD.compiled] at h
    obtain ⟨m0, h1, h2⟩ := Option.map_eq_some_iff.1 h
    exact ⟨m0, h1, h2.symm⟩
  have hev : EventsIn (EventVal (EventOf src)) C := by
    intro c m x cls kws e ps hm hx hv
    obtain ⟨m0, hs, rfl⟩ := hsrc hm
    exact ⟨c, m0, hs, event_declared hT hx hv⟩
  have hglob : ∀ {c' id v}, C.global c' id = some (.ok v) → EventVal (EventOf src) v := by
    intro c' id v h
    obtain ⟨m, h1, h2⟩ := Option.bind_eq_some_iff.1 h
    have hm := h1
    obtain ⟨m0, hs, rfl⟩ := hsrc h1
    rcases bindings_mem (globalOf_mem h2) with ⟨n, a, _, _, e⟩ | ⟨cls, kws, h1, h2⟩ | ⟨e, h1, h2⟩ | ⟨f, j, _, _, e⟩
    · cases e; exact trivial
    · obtain ⟨_, y, _, ⟨t, dv, rfl⟩ | ⟨dv, rfl⟩ | ⟨u, rfl⟩ | ⟨u, rfl⟩ | ⟨e, ps, rfl⟩⟩ := compiled_decl (hD.accepted _ _ hs) h1 h2.symm
      · exact trivial
      · exact trivial
      · exact trivial
      · exact trivial
      · exact hev c' _ _ cls kws e ps hm h1 h2.symm
    · obtain ⟨t, ht, e'⟩ := compile_mem h1
      have := compiled_all (hD.accepted _ _ hs) (hd _ _ hs) ht
      rw [← e'] at this
      exact pureVal_S (event_allows _) this h2.symm
    · cases e; exact trivial
  refine
    { events := hev
      attrs := fun a h => h.1
      global := fun c id v _ _ h => hglob h
      member := fun c a v _ h => hglob h
      code := ?_
      plain := fun _ _ _ _ h => (h trivial).elim
      call := ?_ }
  · intro c' m f _ hm hf
    obtain ⟨m0, hs, rfl⟩ := hsrc hm
    obtain ⟨f0, h0, rfl⟩ := compiled_fun hf
    exact compiled_all (hD.accepted _ _ hs) (hd _ _ hs) h0
  · intro c' m i f w d n vs ks k _ _ _ _ _ _ _ hb hcont
    refine ⟨hb trivial, fun r => ?_⟩
    cases r with
    | ok v => exact hcont v
    | error e => exact trivial

theorem event_submits (declared : Str → Dict Str Param → Prop) (name : Str) :
    Submits (fun p => p.All (Action.LogsOnly declared)) name (fun _ => True) where
  ret _ := trivial
  raise _ := trivial
  get h := perform_all trivial h
  caller h := perform_all trivial h
  signer h := perform_all trivial h
  env h := perform_all trivial h
  compiled _ h := perform_all trivial h
  record _ _ _ h := perform_all trivial h
  bind hp hf := bind_all hp fun r => by cases r with | ok v => exact hf v | error e => exact trivial

end Verif.Lang
