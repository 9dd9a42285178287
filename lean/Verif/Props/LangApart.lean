import Verif.Spec.LangApart
import Verif.Props.Lang
import Verif.Props.AnyOrder
import Verif.Props.Context
/-!
# C110: transactions of language contracts depend only on what they read, and can be reordered

C105 and C109 ask of the code that it neither lists a hash nor changes a stored object in place. Contracts of the language
whose sources do not mention `.all` or `.clear` are such.
-/
namespace Verif.Lang
open Verif Verif.Spec

/-- What C105 and C109 ask of an API call. -/
def Narrow (a : Action) : Prop := CacheBlind a ∧ ∀ k, Action.Tracked k a

def NarrowP (p : Prog) : Prop := p.NoCatch ∧ p.All Narrow

theorem narrow_closed : Closed NarrowP Narrow where
  ret := fun _ => ⟨trivial, trivial⟩
  raise := fun _ => ⟨trivial, trivial⟩
  act := fun {a f} h hk => ⟨⟨fun _ => rfl, fun v => (hk v).1⟩, h, fun r => by
    cases r with
    | ok v => exact (hk v).2
    | error e => exact trivial⟩
  load := fun {n d body f} h hk => ⟨⟨h.1, fun _ => rfl, fun v => (hk v).1⟩, h.2, fun r => by
    cases r with
    | ok v => exact (hk v).2
    | error e => exact trivial⟩

/-- Attributes of compiled code. -/
def QuietAttr (a : Str) : Prop := CleanAttr a ∧ a ≠ py! "all" ∧ a ≠ py! "clear"

/-- Values that compiled code gets hold of. -/
def Held : Val → Prop
  | .driver => False
  | .cls _ => False
  | .meth v a => QuietAttr a ∧ Held v
  | _ => True

theorem narrow_allows : Allows Clean QuietAttr Held Narrow where
  data := fun _ => trivial
  sys := fun _ => trivial
  mod := fun _ => trivial
  meth := fun h1 h2 => ⟨h1, h2⟩
  unmeth := fun h => h.2
  cls := fun h1 h2 => (h1.1 h2).elim
  build := fun h _ => h.elim
  driver := fun h => (h.2 rfl).elim
  rawSet := fun h => h.elim
  rawGet := fun h => h.elim
  varSet := fun _ _ => ⟨trivial, fun _ => trivial⟩
  hashSet := fun _ _ _ => ⟨trivial, fun _ => trivial⟩
  hashClear := fun _ h => (h.1.2.2 rfl).elim
  varGet := fun _ => ⟨trivial, fun _ => trivial⟩
  hashGet := fun _ _ => ⟨trivial, fun _ => trivial⟩
  hashAll := fun _ h => (h.1.2.1 rfl).elim
  foreignHashAll := fun _ h => (h.1.2.1 rfl).elim
  foreignVarSet := fun _ _ => ⟨trivial, fun _ => trivial⟩
  foreignHashSet := fun _ _ _ => ⟨trivial, fun _ => trivial⟩
  foreignHashClear := fun _ _ => ⟨trivial, fun _ => trivial⟩
  envGet := fun _ => ⟨trivial, fun _ => trivial⟩
  ctx := by
    intro a x h
    unfold ctxAction at h
    repeat' split at h
    all_goals first | cases h | skip
    all_goals exact ⟨trivial, fun _ => trivial⟩
  ownerOf := fun _ => ⟨trivial, fun _ => trivial⟩
  line := fun _ _ _ => ⟨trivial, fun _ => trivial⟩
  params := fun _ => trivial
  newLog := fun _ => ⟨trivial, fun _ => trivial⟩
  emit := fun _ _ => ⟨trivial, fun _ => trivial⟩
  random := fun h => by obtain ⟨_, rfl⟩ | ⟨_, rfl⟩ | ⟨_, rfl⟩ := randomCall_kind h <;> exact ⟨trivial, fun _ => trivial⟩

theorem compiled_quiet {I : PyInfo} {c : Str} {m : Module} (h : Accepted I c (moduleAst m)) (hd : Disciplined m) (hl : NeverLists m)
    {t : Top} (ht : t ∈ m) : (t.comp (moduleAst m).names c).All Clean QuietAttr := by
  have hr : Renames (moduleAst m).names (fun x => (Public x ∧ x ∉ storageClasses) ∧ True)
      (fun x => (Public x ∧ x ∉ storageClasses) ∧ x ≠ py! "all" ∧ x ≠ py! "clear") Clean QuietAttr :=
    ⟨fun id hi => (renames_clean hd).name id hi.1, fun a ha => ⟨(renames_clean hd).attr a ha.1, ha.2⟩, (renames_clean hd).decimal⟩
  have ha := ((deployed_nodes h ht).and (hd.mentions t ht)).and (hl t ht)
  cases t with
  | «import» n a => exact trivial
  | decl x cls kws =>
    simp only [Top.comp]
    split
    · exact kwsAll_append (kwsAll_comp hr ha) ⟨trivial, trivial, trivial⟩
    · exact kwsAll_comp hr ha
  | assign x e => exact compAssigned_all hr ha c x
  | «def» f => exact ⟨exprsAll_comp hr ha.1, stmtsAll_comp hr c ha.2⟩

theorem narrow_ready {I : PyInfo} {src : Str → Option Module} {C : Chain} (hD : Deployed I src C)
    (hd : ∀ c m, src c = some m → Disciplined m ∧ NeverLists m) : Ready NarrowP Clean QuietAttr Held C (fun _ => True) := by
  have hsrc : ∀ {c' m}, C.code c' = some m → ∃ m0, src c' = some m0 ∧ m = compileModule c' m0 := by
    intro c' m h
    rw [hD.compiled] at h
    obtain ⟨m0, h1, h2⟩ := Option.map_eq_some_iff.1 h
    exact ⟨m0, h1, h2.symm⟩
  have hglob : ∀ {c' id v}, C.global c' id = some (.ok v) → Held v := by
    intro c' id v h
    obtain ⟨m, h1, h2⟩ := Option.bind_eq_some_iff.1 h
    obtain ⟨m0, hs, rfl⟩ := hsrc h1
    rcases bindings_mem (globalOf_mem h2) with ⟨n, a, _, _, e⟩ | ⟨cls, kws, h1, h2⟩ | ⟨e, h1, h2⟩ | ⟨f, j, _, _, e⟩
    · cases e
      exact trivial
    · obtain ⟨_, y, _, ⟨t, dv, rfl⟩ | ⟨dv, rfl⟩ | ⟨u, rfl⟩ | ⟨u, rfl⟩ | ⟨_, _, rfl⟩⟩ := compiled_decl (hD.accepted _ _ hs) h1 h2.symm <;> exact trivial
    · obtain ⟨t, ht, e'⟩ := compile_mem h1
      have := compiled_quiet (hD.accepted _ _ hs) (hd _ _ hs).1 (hd _ _ hs).2 ht
      rw [← e'] at this
      exact pureVal_S narrow_allows this h2.symm
    · cases e
      exact trivial
  refine
    { events := fun _ _ _ _ _ _ _ _ _ _ => trivial
      attrs := fun a h => h.1.1
      global := fun _ _ _ _ _ h => hglob h
      member := fun _ _ _ _ h => hglob h
      code := ?_
      plain := fun _ _ _ _ h => (h trivial).elim
      call := fun _ _ _ _ _ _ _ hb hk => ⟨⟨(hb trivial).1, fun _ => rfl, fun v => (hk v).1⟩, (hb trivial).2, fun r => by
        cases r with
        | ok v => exact (hk v).2
        | error e => exact trivial⟩ }
  intro c' m f _ hm hf
  obtain ⟨m0, hs, rfl⟩ := hsrc hm
  obtain ⟨f0, h0, rfl⟩ := compiled_fun hf
  exact compiled_quiet (hD.accepted _ _ hs) (hd _ _ hs).1 (hd _ _ hs).2 h0

/-- **C110, the code.** A transaction that calls a public name of a deployed contract of the language lists no hash and changes
no stored object in place -- when no deployed source mentions `.all` or `.clear`. -/
theorem C110_code {tx : Tx} (h : RunsUnlisted tx) :
    tx.code.NoCatch ∧ tx.code.All CacheBlind ∧ ∀ k, tx.code.All (Action.Tracked k) := by
  obtain ⟨I, src, C, n, hD, hd, hpub, hcode⟩ := h
  have hr := narrow_ready hD hd
  have htop : NarrowP tx.code.top := by
    rw [hcode]
    exact Chain.top_P narrow_closed narrow_allows hr.events n tx.contract
  have hfn : ∀ fn, tx.code.fn = some fn → ∀ kwargs, NarrowP (fn.2 kwargs) := by
    intro fn hf kwargs
    obtain ⟨m, hm, ⟨i, f, w, d, h1, h2, h3, rfl⟩ | rfl⟩ :=
      entry_wrapped hD (n := n) hpub (c := tx.contract) (show C.entry n tx.contract tx.function = some fn by rw [hcode] at hf; exact hf)
    · refine Chain.body_P narrow_closed narrow_allows hr n tx.contract m f _ _ trivial hm (List.mem_of_getElem? h1) (fun _ hv => by cases hv) ?_
      intro q hq
      obtain ⟨p, _, rfl⟩ := List.mem_map.1 hq
      exact trivial
    · exact ⟨trivial, trivial⟩
  have hall : ∀ {Q : Action → Prop}, (∀ a, Narrow a → Q a) → tx.code.All Q := fun hq =>
    ⟨Prog.all_mono hq _ htop.2, fun fn hf kw => Prog.all_mono hq _ (hfn fn hf kw).2⟩
  exact ⟨⟨htop.1, fun fn hf kw => (hfn fn hf kw).1⟩, hall fun _ h => h.1, fun k => hall fun _ h => h.2 k⟩

/-- **C110, dependence.** Such a transaction has the same result, events, stamps and writes in any other state that agrees on the
keys it reports as read; it leaves the same under these keys and changes nothing else. -/
theorem C110_depends {H : Host} {cfg : ExecCfg} {tx : Tx} {w w1 : World} {e : Driver} {o : Output} (hp : RunsUnlisted tx)
    (ha : tx.autoCommit = false) (hb : w.driver.bypass = false ∧ e.bypass = false)
    (hr : Readable w.driver.disk ∧ Readable e.disk) (hok : execute H cfg tx w = (.ok o, w1))
    (h : ∀ k, Reads o k → SameUnder w.driver e k) :
    ∃ o' w2, execute H cfg tx { w with driver := e } = (.ok o', w2) ∧ SameOutput o o' ∧
      (∀ k, Reads o k → w2.driver.find k = w1.driver.find k) ∧
      ∀ k, ¬ Reads o k → w1.driver.find k = w.driver.find k ∧ w2.driver.find k = e.find k := by
  obtain ⟨o', w2, h1, h2, h3, h4, _⟩ := C105_depends (C110_code hp).2.1 ha hb hr hok h
  exact ⟨o', w2, h1, h2, h3, h4⟩

/-- **C110, order.** Transactions of this kind, successful or not, each tried on its own in the same state, none of which reports as
written what another one reports as read, can be executed in any order, with the results, stamps, events and writes they had on
their own and the same state in the end. -/
theorem C110_any_order {H : Host} {w : World} {rs rs' : List Trial} (hw : Served H w) (hs : w.stack = []) (hb : w.driver.bypass = false)
    (hr : Readable w.driver.disk)
    (ht : ∀ r ∈ rs, RunsUnlisted r.tx ∧ r.tx.autoCommit = false ∧ execute H r.cfg r.tx w = (.ok r.out, r.after) ∧ r.after.stack = [])
    (hp : rs.Pairwise fun r s => (∀ k, Reads s.out k → Dict.get? r.out.writes k = none) ∧ ∀ k, Reads r.out k → Dict.get? s.out.writes k = none)
    (hq : rs.Perm rs') :
    ∃ os os' a b, Executed H w (rs.map fun r => (r.cfg, r.tx)) os a ∧ Executed H w (rs'.map fun r => (r.cfg, r.tx)) os' b ∧
      List.Forall₂ SameOutput (rs.map Trial.out) os ∧ List.Forall₂ SameOutput (rs'.map Trial.out) os' ∧
      ∀ k, b.driver.find k = a.driver.find k :=
  C109_disjoint hw hs hb hr (fun r h => by
    obtain ⟨h1, h2, h3, h4⟩ := ht r h
    exact ⟨⟨h3, h4, (C110_code h1).2.1, h2⟩, (C110_code h1).2.2⟩) hp hq

/-! ### A concrete case -/
namespace ApartDemo
open Verif.Lang.Demo (data)

/-- `h = Hash()`, and `poke(v)`: `h[v] = v`. -/
def src : Module := [
  .decl (py! "h") (py! "Hash") [],
  .def { name := py! "poke", args := [(py! "v", some (py! "int"))], deco := .export, body := [
    .assignSub (.name (py! "h")) (.name (py! "v")) (.name (py! "v"))] }]

def sources (c : Str) : Option Module := if c = Verif.Demo.conB then some src else none

def chain : Chain where
  D := data
  cost := fun _ _ => (1, 0)
  topCost := fun _ _ => (1, 0)
  code := fun c => (sources c).map (compileModule c)

/-- `bob` calls `con_b.poke(v=i)`, unmetered. -/
def tx (i : Int) : Tx :=
  { sender := Verif.Demo.bob, contract := Verif.Demo.conB, function := py! "poke", kwargs := [(py! "v", .int i)], stamps := 50,
    stampCost := 1, metering := some false, code := chain.codeFor 3 Verif.Demo.conB (py! "poke") }

def world : World := Verif.Demo.world (Verif.Demo.stored Verif.Demo.conB)

theorem deployed : Deployed AstDemo.info sources chain where
  compiled := fun _ => rfl
  accepted := by
    intro c m h
    unfold sources at h
    split at h
    · rename_i e
      cases h
      rw [e]
      exact ⟨_, rfl⟩
    · cases h
  plain := by
    intro c m h
    unfold sources at h
    split at h
    · rename_i e
      rw [e]; decide
    · cases h

theorem unlisted (i : Int) : RunsUnlisted (tx i) := by
  refine ⟨AstDemo.info, sources, chain, 3, deployed, fun c m h => ?_, (by decide : startsWith (py! "poke") (py! "__") = false), rfl⟩
  unfold sources at h
  split at h
  · cases h
    refine ⟨⟨?_, ?_⟩, ?_⟩
    · simp [src, Top.All, stmtsAll, Stmt.All, Expr.All, exprsAll, kwsAll, storageClasses]
    · rw [OwnName, ← names_iff]; decide
    · simp [NeverLists, src, Top.All, stmtsAll, Stmt.All, Expr.All, exprsAll, kwsAll]
  · cases h

def common : List Str := [py! "con_b.__owner__", py! "con_b.__code__", py! "con_b.__compiled__"]

theorem tried (i : Int) {ks ws : List Str}
    (hx : (execute Verif.Demo.host {} (tx i) world).1.map (fun o => (o.status, Dict.keys o.reads, Dict.keys o.writes)) = .ok (0, ks, ws))
    (hs : (execute Verif.Demo.host {} (tx i) world).2.stack.isEmpty = true) :
    ∃ r : Trial, (r.cfg = {} ∧ r.tx = tx i) ∧
      (RunsUnlisted r.tx ∧ r.tx.autoCommit = false ∧ execute Verif.Demo.host r.cfg r.tx world = (.ok r.out, r.after) ∧ r.after.stack = []) ∧
      Dict.keys r.out.reads = ks ∧ Dict.keys r.out.writes = ws := by
  cases he : execute Verif.Demo.host {} (tx i) world with
  | mk r w1 =>
    rw [he] at hx hs
    cases r with
    | error e => cases hx
    | ok o =>
      have h2 := Except.ok.inj hx
      simp only [Prod.mk.injEq] at h2
      exact ⟨⟨{}, tx i, o, w1⟩, ⟨rfl, rfl⟩, ⟨unlisted i, rfl, he, List.isEmpty_iff.1 hs⟩, h2.2.1, h2.2.2⟩

/-- `poke(1)` and `poke(2)` can be executed in either order. -/
example : ∃ rs : List Trial, rs.map (fun r => (r.cfg, r.tx)) = [({}, tx 1), ({}, tx 2)] ∧
    ∀ rs' : List Trial, rs.Perm rs' → ∃ os os' a b,
      Executed Verif.Demo.host world (rs.map fun r => (r.cfg, r.tx)) os a ∧ Executed Verif.Demo.host world (rs'.map fun r => (r.cfg, r.tx)) os' b ∧
      List.Forall₂ SameOutput (rs.map Trial.out) os ∧ List.Forall₂ SameOutput (rs'.map Trial.out) os' ∧
      ∀ k, b.driver.find k = a.driver.find k := by
  obtain ⟨r1, ⟨c1, t1⟩, o1, k1, l1⟩ := tried 1 (ks := common ++ [py! "con_b.h:1"]) (ws := [py! "con_b.h:1"]) (by decide +kernel) (by decide +kernel)
  obtain ⟨r2, ⟨c2, t2⟩, o2, k2, l2⟩ := tried 2 (ks := common ++ [py! "con_b.h:2"]) (ws := [py! "con_b.h:2"]) (by decide +kernel) (by decide +kernel)
  refine ⟨[r1, r2], by simp [c1, c2, t1, t2], fun rs' hq => C110_any_order (.start _) rfl rfl ReadsDemo.empty_readable ?_ ?_ hq⟩
  · intro r hr
    simp only [List.mem_cons, List.not_mem_nil, or_false] at hr
    rcases hr with rfl | rfl
    · exact o1
    · exact o2
  · refine .cons ?_ (.cons (fun _ h => by cases h) .nil)
    intro s hs
    simp only [List.mem_cons, List.not_mem_nil, or_false] at hs
    subst hs
    constructor
    · intro k hk
      unfold Reads at hk
      rw [k2] at hk
      rw [Dict.get?_eq_none_iff, l1, List.mem_singleton]
      rintro rfl
      exact absurd hk (by decide)
    · intro k hk
      unfold Reads at hk
      rw [k1] at hk
      rw [Dict.get?_eq_none_iff, l2, List.mem_singleton]
      rintro rfl
      exact absurd hk (by decide)

end ApartDemo
end Verif.Lang
