import Verif.Proofs.Executor
import Verif.Proofs.Refine
import Verif.Spec.Replica
/-! # Two runs from states that differ only in what the driver has cached -/
namespace Verif

/-- What a cache answers for a key with no pending write. -/
def through (c : Dict Str PyVal) (disk : Disk) (k : Str) : Except PyErr PyVal :=
  if (dget c k).isNone then disk.get (locOf k) else .ok (dget c k)

/-- Everything in the cache is what the disk gives under that key, and the key is plain. -/
def Coh (c : Dict Str PyVal) (disk : Disk) : Prop :=
  ∀ k, (dget c k).isNone = false → Spec.PlainKey k ∧ disk.get (locOf k) = .ok (dget c k)

theorem Coh.through {c : Dict Str PyVal} {disk : Disk} (h : Coh c disk) (k : Str) : through c disk k = disk.get (locOf k) := by
  unfold Verif.through
  by_cases hn : (dget c k).isNone = true
  · rw [if_pos hn]
  · rw [if_neg hn, (h k (by simpa using hn)).2]

/-- Same driver but for the cache, and nothing in either cache differs from the disk. -/
def AlikeD (d d' : Driver) : Prop :=
  ∃ c, d' = { d with cache := c } ∧ d.bypass = false ∧ (d.pendingDeltas = [] ∧ Coh d.cache d.disk ∧ Coh c d.disk)

theorem Driver.find_through {d : Driver} (h : d.bypass = false) (k : Str) :
    d.find k = if (dget d.pendingWrites k).isNone then through d.cache d.disk k else .ok (dget d.pendingWrites k) := by
  unfold Driver.find through Driver.fromDisk
  rw [h]
  by_cases hp : (dget d.pendingWrites k).isNone = true
  · simp [hp]
  · simp [hp]

theorem AlikeD.find {d d' : Driver} (h : AlikeD d d') (k : Str) : d'.find k = d.find k := by
  obtain ⟨c, rfl, hb, hc⟩ := h
  rw [Driver.find_through hb, Driver.find_through (show ({ d with cache := c } : Driver).bypass = false from hb), hc.2.1.through,
    hc.2.2.through]

theorem AlikeD.get {d d' : Driver} (h : AlikeD d d') (k : Str) :
    ∃ r e e', d.get k = (r, e) ∧ d'.get k = (r, e') ∧ AlikeD e e' := by
  have hf := h.find k
  obtain ⟨c, rfl, hb, hc⟩ := h
  unfold Driver.get
  rw [hf]
  cases d.find k with
  | error e => exact ⟨_, _, _, rfl, rfl, c, rfl, hb, hc⟩
  | ok v =>
    refine ⟨_, _, _, rfl, rfl, c, ?_, ?_, ?_⟩
    · simp only; split <;> rfl
    · split <;> exact hb
    · split <;> exact hc

theorem AlikeD.set {d d' : Driver} (h : AlikeD d d') (m : Meter) (k : Str) (v : PyVal) (txn : Bool) :
    ∃ r m1 e e', d.set m k v txn = (r, m1, e) ∧ d'.set m k v txn = (r, m1, e') ∧ AlikeD e e' := by
  have hr : d'.pendingReads = d.pendingReads := by obtain ⟨c, rfl, _⟩ := h; rfl
  unfold Driver.set
  cases encode v with
  | error e => exact ⟨_, _, _, _, rfl, rfl, h⟩
  | ok text =>
    simp only
    generalize m.deductWrite (utf8Len k + text.length) = q
    obtain ⟨q, m1⟩ := q
    cases q with
    | error e => exact ⟨_, _, _, _, rfl, rfl, h⟩
    | ok u =>
      simp only
      have hg : ∃ r e e', (if (dget d.pendingReads k).isNone then d.get k else (.ok .none, d)) = (r, e) ∧
          (if (dget d'.pendingReads k).isNone then d'.get k else (.ok .none, d')) = (r, e') ∧ AlikeD e e' := by
        rw [hr]
        by_cases hn : (dget d.pendingReads k).isNone = true
        · rw [if_pos hn, if_pos hn]; exact h.get k
        · rw [if_neg hn, if_neg hn]; exact ⟨_, _, _, rfl, rfl, h⟩
      obtain ⟨r, e, e', h1, h2, h3⟩ := hg
      rw [h1, h2]
      cases r with
      | error x => exact ⟨_, _, _, _, rfl, rfl, h3⟩
      | ok u =>
        simp only
        cases normValue v with
        | error x => exact ⟨_, _, _, _, rfl, rfl, h3⟩
        | ok v =>
          obtain ⟨c, rfl, hb, hc⟩ := h3
          exact ⟨_, _, _, _, rfl, rfl, c, rfl, hb, hc⟩

theorem AlikeD.getOwner {d d' : Driver} (h : AlikeD d d') (k : Str) :
    ∃ r e e', d.getOwner k = (r, e) ∧ d'.getOwner k = (r, e') ∧ AlikeD e e' := by
  obtain ⟨r, e, e', h1, h2, h3⟩ := h.get (makeKey k (py! "__owner__"))
  unfold Driver.getOwner
  rw [h1, h2]
  cases r with
  | error x => exact ⟨_, _, _, rfl, rfl, h3⟩
  | ok v =>
    cases v with
    | str s => cases s <;> exact ⟨_, _, _, rfl, rfl, h3⟩
    | _ => exact ⟨_, _, _, rfl, rfl, h3⟩

/-- Same process but for the cache. -/
def Alike (a b : World) : Prop := ∃ d', b = { a with driver := d' } ∧ AlikeD a.driver d'

/-- Same result, and states that stay alike. -/
def AlikeRun {α : Type} (r s : α × World) : Prop := r.1 = s.1 ∧ Alike r.2 s.2

theorem rd_alike {w : World} {x : Except PyErr PyVal} {e e' : Driver} (h : AlikeD e e') (d' : Driver) :
    AlikeRun (w.rd (x, e)) (World.rd { w with driver := d' } (x, e')) := ⟨rfl, e', rfl, h⟩

theorem md_alike {w : World} {x : Except PyErr Unit} {m : Meter} {e e' : Driver} (h : AlikeD e e') (d' : Driver) :
    AlikeRun (w.md (x, m, e)) (World.md { w with driver := d' } (x, m, e')) := ⟨rfl, e', rfl, h⟩

theorem set_md {d d' : Driver} (h : AlikeD d d') (w : World) (m : Meter) (k : Str) (v : PyVal) (txn : Bool) (x : Driver) :
    AlikeRun (w.md (d.set m k v txn)) (World.md { w with driver := x } (d'.set m k v txn)) := by
  obtain ⟨r, m1, e, e', h1, h2, h3⟩ := h.set m k v txn
  rw [h1, h2]
  exact md_alike h3 x

theorem Action.alike {H : Host} {a : Action} {w w' : World} (hb : Spec.CacheBlind a) (h : Alike w w') :
    AlikeRun (a.run H w) (a.run H w') := by
  obtain ⟨d', rfl, hd⟩ := h
  have triv : ∀ {α : Type} {r : α} {u : World}, u.driver = w.driver →
      AlikeRun (r, u) (r, { u with driver := d' }) := fun h => ⟨rfl, d', rfl, by rw [h]; exact hd⟩
  cases a with
  | hashAll => exact hb.elim
  | hashItems => exact hb.elim
  | hashClear => exact hb.elim
  | mutate => exact hb.elim
  | varSet x v =>
    simp only [Action.run]
    unfold Variable.set
    cases x.type with
    | none => exact set_md hd _ _ _ _ _ _
    | some t =>
      simp only
      split
      · exact md_alike hd _
      · exact set_md hd _ _ _ _ _ _
  | varGet x =>
    simp only [Action.run]
    unfold Variable.get
    obtain ⟨r, e, e', h1, h2, h3⟩ := hd.get x.key
    rw [h1, h2]
    cases r <;> exact rd_alike h3 _
  | hashSet h ix v =>
    simp only [Action.run]
    unfold HashVar.setItem
    cases validateKey ix with
    | error e => exact md_alike hd _
    | ok s => exact set_md hd _ _ _ _ _ _
  | hashGet h ix =>
    simp only [Action.run]
    unfold HashVar.getItem
    cases validateKey ix with
    | error e => exact rd_alike hd _
    | ok s =>
      simp only
      obtain ⟨r, e, e', h1, h2, h3⟩ := hd.get (h.entry s)
      rw [h1, h2]
      cases r <;> exact rd_alike h3 _
  | foreignVarSet x v => exact md_alike hd _
  | foreignHashSet h ix v => exact md_alike hd _
  | foreignHashClear h args => exact md_alike hd _
  | ownerOf name =>
    simp only [Action.run]
    obtain ⟨r, e, e', h1, h2, h3⟩ := hd.get (makeKey name (py! "__owner__"))
    rw [h1, h2]
    exact rd_alike h3 _
  | rawGet key =>
    simp only [Action.run]
    obtain ⟨r, e, e', h1, h2, h3⟩ := hd.get key
    rw [h1, h2]
    exact rd_alike h3 _
  | rawSet key v => exact set_md hd _ _ _ _ _ _
  | newLog ev ps =>
    simp only [Action.run]
    unfold Verif.newLog
    simp only
    split
    · exact triv rfl
    · split
      · exact triv rfl
      · split
        · exact triv rfl
        · exact triv rfl
  | emit l data =>
    simp only [Action.run]
    split
    · exact triv rfl
    · unfold emitEvent
      split
      · exact triv rfl
      · split
        · exact triv rfl
        · split
          · exact triv rfl
          · simp only [World.current]
            split
            · exact triv rfl
            · split
              · exact triv rfl
              · obtain ⟨c, rfl, hb, hc⟩ := hd
                exact ⟨rfl, _, rfl, c, rfl, hb, hc⟩
  | seed salt =>
    simp only [Action.run]
    unfold doSeed
    simp only
    split <;> exact triv rfl
  | getrandbits k =>
    simp only [Action.run]
    unfold doGetrandbits
    simp only
    split
    · exact triv rfl
    · split <;> exact triv rfl
  | draw q =>
    simp only [Action.run]
    unfold doDraw
    simp only
    split <;> exact triv rfl
  | _ => exact triv rfl

theorem addState_alike {f : Frame} {w w' : World} (h : Alike w w') : Alike (w.addState f) (w'.addState f) := by
  obtain ⟨d', rfl, hd⟩ := h
  unfold World.addState
  have hc : World.current { w with driver := d' } = w.current := rfl
  rw [hc]
  by_cases hx : w.current.this ≠ f.this ∧ w.stack.length < World.maxFrames
  · rw [if_pos hx, if_pos hx]; exact ⟨d', rfl, hd⟩
  · rw [if_neg hx, if_neg hx]; exact ⟨d', rfl, hd⟩

theorem enter_alike {c : Str} {w w' : World} (h : Alike w w') : AlikeRun (enter c w) (enter c w') := by
  obtain ⟨d', rfl, hd⟩ := h
  unfold enter
  have hc : World.current { w with driver := d' } = w.current := rfl
  rw [hc]
  by_cases hx : w.current.this ≠ some c
  · rw [if_pos hx, if_pos hx]
    obtain ⟨r, e, e', h1, h2, h3⟩ := hd.getOwner c
    simp only [h1, h2]
    cases r with
    | error x => exact ⟨rfl, e', rfl, h3⟩
    | ok owner =>
      simp only
      have hadd := addState_alike (f :=
        { owner := owner, caller := w.current.this, signer := w.current.signer, this := some c, entry := w.current.entry,
          submission := w.current.submission })
        (show Alike { w with driver := e } { { w with driver := e } with driver := e' } from ⟨e', rfl, h3⟩)
      by_cases ho : ownerRefuses owner w.current.this = true
      · rw [if_pos ho, if_pos ho]; exact ⟨rfl, hadd⟩
      · rw [if_neg ho, if_neg ho]; exact ⟨rfl, hadd⟩
  · rw [if_neg hx, if_neg hx]
    unfold World.insState
    simp only
    split <;> exact ⟨rfl, d', rfl, hd⟩

theorem popState_alike {w w' : World} (h : Alike w w') : Alike w.popState w'.popState := by
  obtain ⟨d', rfl, hd⟩ := h
  unfold World.popState
  simp only
  split
  · exact ⟨d', rfl, hd⟩
  · split <;> exact ⟨d', rfl, hd⟩

theorem lookup_alike {H : Host} {w w' : World} {name : Str} (h : Alike w w') :
    AlikeRun (lookup H w name) (lookup H w' name) := by
  obtain ⟨d', rfl, hd⟩ := h
  obtain ⟨r, e, e', h1, h2, h3⟩ := hd.get (makeKey name (py! "__code__"))
  unfold lookup
  simp only
  split
  · exact ⟨rfl, d', rfl, hd⟩
  · split
    · exact ⟨rfl, d', rfl, hd⟩
    · split
      · exact ⟨rfl, d', rfl, hd⟩
      · rw [h1, h2]
        cases r with
        | error x => exact ⟨rfl, e', rfl, h3⟩
        | ok v =>
          simp only
          split <;> exact ⟨rfl, e', rfl, h3⟩

theorem fetchCompiled_alike {w w' : World} {name : Str} (h : Alike w w') :
    AlikeRun (fetchCompiled w name) (fetchCompiled w' name) := by
  obtain ⟨d', rfl, hd⟩ := h
  obtain ⟨r, e, e', h1, h2, h3⟩ := hd.get (makeKey name (py! "__compiled__"))
  unfold fetchCompiled
  simp only
  rw [h1, h2]
  cases r with
  | error x => exact ⟨rfl, e', rfl, h3⟩
  | ok v => cases v <;> exact ⟨rfl, e', rfl, h3⟩

theorem dynChecks_alike {H : Host} {w w' : World} {name : Str} (h : Alike w w') :
    AlikeRun (dynChecks H w name) (dynChecks H w' name) := by
  obtain ⟨d', rfl, hd⟩ := h
  obtain ⟨r, e, e', h1, h2, h3⟩ := hd.get (makeKey name (py! "__code__"))
  unfold dynChecks
  simp only
  split
  · exact ⟨rfl, d', rfl, hd⟩
  · split
    · exact ⟨rfl, d', rfl, hd⟩
    · split
      · exact ⟨rfl, d', rfl, hd⟩
      · split
        · exact ⟨rfl, d', rfl, hd⟩
        · rw [h1, h2]
          cases r with
          | error x => exact ⟨rfl, e', rfl, h3⟩
          | ok v =>
            simp only
            split <;> exact ⟨rfl, e', rfl, h3⟩

/-- Sequencing. -/
theorem AlikeRun.cases {α : Type} {r s : Except PyErr α × World} (h : AlikeRun r s) :
    (∃ e w w', r = (.error e, w) ∧ s = (.error e, w') ∧ Alike w w') ∨
    (∃ v w w', r = (.ok v, w) ∧ s = (.ok v, w') ∧ Alike w w') := by
  obtain ⟨r1, w⟩ := r
  obtain ⟨s1, w'⟩ := s
  obtain ⟨h1, h2⟩ := h
  simp only at h1
  subst h1
  cases r1 with
  | error e => exact Or.inl ⟨e, w, w', rfl, rfl, h2⟩
  | ok v => exact Or.inr ⟨v, w, w', rfl, rfl, h2⟩

theorem restrictedCheck_alike {H : Host} {w w' : World} {name : Str} (h : Alike w w') :
    AlikeRun (restrictedCheck H w name) (restrictedCheck H w' name) := by
  have hr : w'.restricted = w.restricted := by obtain ⟨d', rfl, _⟩ := h; rfl
  unfold restrictedCheck
  rw [hr]
  by_cases hx : w.restricted = true
  · rw [if_pos hx, if_pos hx]
    rcases (lookup_alike (H := H) (name := name) h).cases with ⟨e, a, b, ha, hb, hs⟩ | ⟨f, a, b, ha, hb, hs⟩
    · rw [ha, hb]; exact ⟨rfl, hs⟩
    · rw [ha, hb]; cases f <;> exact ⟨rfl, hs⟩
  · rw [if_neg hx, if_neg hx]; exact ⟨rfl, h⟩

theorem importStart_alike {H : Host} {w w' : World} {name : Str} {dyn : Bool} (h : Alike w w') :
    AlikeRun (importStart H w name dyn) (importStart H w' name dyn) := by
  unfold importStart
  have h1 : AlikeRun (if dyn then dynChecks H w name else restrictedCheck H w name)
      (if dyn then dynChecks H w' name else restrictedCheck H w' name) := by
    cases dyn
    · exact restrictedCheck_alike h
    · exact dynChecks_alike h
  rcases h1.cases with ⟨e, a, b, ha, hb, hs⟩ | ⟨v, a, b, ha, hb, hs⟩
  · rw [ha, hb]; exact ⟨rfl, hs⟩
  · rw [ha, hb]
    simp only
    rcases (lookup_alike (H := H) (name := name) hs).cases with ⟨e, c, d, hc, hd, hs⟩ | ⟨f, c, d, hc, hd, hs⟩
    · rw [hc, hd]; exact ⟨rfl, hs⟩
    · rw [hc, hd]
      cases f with
      | contract =>
        simp only
        rcases (fetchCompiled_alike (name := name) hs).cases with ⟨e, c, d, hc, hd, hs⟩ | ⟨f, c, d, hc, hd, hs⟩
        · rw [hc, hd]; exact ⟨rfl, hs⟩
        · rw [hc, hd]; exact ⟨rfl, hs⟩
      | _ => exact ⟨rfl, hs⟩

theorem Prog.alike {H : Host} : ∀ (p : Prog) {w w' : World}, p.All Spec.CacheBlind → Alike w w' →
    AlikeRun (p.run H w) (p.run H w') := by
  intro p
  induction p with
  | ret v => intro w w' _ h; exact ⟨rfl, h⟩
  | raise e => intro w w' _ h; exact ⟨rfl, h⟩
  | act a k ih =>
    intro w w' hp h
    obtain ⟨h1, h2⟩ := Action.alike (H := H) (a := a) hp.1 h
    simp only [Prog.run]
    rw [h1]
    exact ih _ (hp.2 _) h2
  | call c body k ihb ihk =>
    intro w w' hp h
    simp only [Prog.run]
    rcases (enter_alike (c := c) h).cases with ⟨e, a, b, ha, hb, hs⟩ | ⟨v, a, b, ha, hb, hs⟩
    · rw [ha, hb]; exact ihk _ (hp.2 _) hs
    · rw [ha, hb]
      simp only
      obtain ⟨h1, h2⟩ := ihb hp.1 hs
      rw [h1]
      exact ihk _ (hp.2 _) (popState_alike h2)
  | load name dyn body k ihb ihk =>
    intro w w' hp h
    simp only [Prog.run]
    rcases (importStart_alike (H := H) (name := name) (dyn := dyn) h).cases with ⟨e, a, b, ha, hb, hs⟩ | ⟨f, a, b, ha, hb, hs⟩
    · rw [ha, hb]; exact ihk _ (hp.2 _) hs
    · rw [ha, hb]
      cases f with
      | contract =>
        simp only
        rcases (ihb hp.1 hs).cases with ⟨e, c, d, hc, hd, hs⟩ | ⟨v, c, d, hc, hd, hs⟩
        · rw [hc, hd]; exact ihk _ (hp.2 _) hs
        · rw [hc, hd]
          refine ihk _ (hp.2 _) ?_
          obtain ⟨d', rfl, hdd⟩ := hs
          exact ⟨d', rfl, hdd⟩
      | _ => exact ihk _ (hp.2 _) hs

theorem callEntry_alike {H : Host} {tx : Tx} {kwargs : Dict Str PyVal} {fn : Bool × (Dict Str PyVal → Prog)} {w w' : World}
    (hp : (fn.2 kwargs).All Spec.CacheBlind) (h : Alike w w') :
    AlikeRun (callEntry H tx kwargs fn w) (callEntry H tx kwargs fn w') := by
  unfold callEntry
  split
  · exact Prog.alike _ ⟨hp, fun r => by cases r <;> exact trivial⟩ h
  · exact Prog.alike _ hp h

theorem setUp_alike {tx : Tx} {m : Bool} {w w' : World} (h : Alike w w') : Alike (setUp tx m w) (setUp tx m w') := by
  obtain ⟨d', rfl, hd⟩ := h
  exact ⟨d', rfl, hd⟩

theorem loadEntry_alike {H : Host} {tx : Tx} {w w' : World} (hp : tx.code.top.All Spec.CacheBlind) (h : Alike w w') :
    AlikeRun (loadEntry H tx w) (loadEntry H tx w') := by
  unfold loadEntry
  rcases (lookup_alike (H := H) (name := tx.contract) h).cases with ⟨e, a, b, ha, hb, hs⟩ | ⟨f, a, b, ha, hb, hs⟩
  · rw [ha, hb]; exact ⟨rfl, hs⟩
  · rw [ha, hb]
    cases f with
    | contract =>
      simp only
      rcases (fetchCompiled_alike (name := tx.contract) hs).cases with ⟨e, c, d, hc, hd, hs⟩ | ⟨f, c, d, hc, hd, hs⟩
      · rw [hc, hd]; exact ⟨rfl, hs⟩
      · rw [hc, hd]
        simp only
        rcases (Prog.alike (H := H) tx.code.top hp hs).cases with ⟨e, c, d, hc, hd, hs⟩ | ⟨f, c, d, hc, hd, hs⟩
        · rw [hc, hd]; exact ⟨rfl, hs⟩
        · rw [hc, hd]
          obtain ⟨d', rfl, hdd⟩ := hs
          exact ⟨rfl, d', rfl, hdd⟩
    | _ => exact ⟨rfl, hs⟩

theorem invoke_alike {H : Host} {tx : Tx} {m host : Bool} {w w' : World} (hp : tx.code.All Spec.CacheBlind) (h : Alike w w') :
    AlikeRun (invoke H tx m host w) (invoke H tx m host w') := by
  unfold invoke
  split
  · refine ⟨rfl, setUp_alike ?_⟩
    obtain ⟨d', rfl, hd⟩ := h
    exact ⟨d', rfl, hd⟩
  · split
    · exact ⟨rfl, h⟩
    · rename_i fn hfn
      have hb : Alike
          (if tx.contract = py! "submission" then
            { w with base := { w.base with submission := (Dict.get? tx.kwargs (py! "name")).getD .none } } else w)
          (if tx.contract = py! "submission" then
            { w' with base := { w'.base with submission := (Dict.get? tx.kwargs (py! "name")).getD .none } } else w') := by
        obtain ⟨d', rfl, hd⟩ := h
        split <;> exact ⟨d', rfl, hd⟩
      simp only
      split
      · exact ⟨rfl, hb⟩
      · exact callEntry_alike (hp.2 _ hfn _) (setUp_alike hb)

theorem setBase_alike {tx : Tx} {w w' : World} (h : Alike w w') : AlikeRun (setBase tx w) (setBase tx w') := by
  obtain ⟨d', rfl, hd⟩ := h
  obtain ⟨r, e, e', h1, h2, h3⟩ := hd.getOwner tx.contract
  unfold setBase
  simp only
  rw [h1, h2]
  cases r with
  | error x => exact ⟨rfl, e', rfl, h3⟩
  | ok owner =>
    simp only
    generalize hv : ({ w with driver := e, base :=
      { signer := some tx.sender, caller := some tx.sender, this := some tx.contract,
        entry := some (tx.contract, tx.function), owner := owner, submission := .none } } : World) = v
    have hv' : ({ w with driver := e', base :=
      { signer := some tx.sender, caller := some tx.sender, this := some tx.contract,
        entry := some (tx.contract, tx.function), owner := owner, submission := .none } } : World) = { v with driver := e' } := by
      rw [← hv]
    rw [hv']
    have hve : v.driver = e := by rw [← hv]
    have hc : World.current { v with driver := e' } = v.current := rfl
    rw [hc]
    by_cases ho : ownerRefuses v.current.owner v.current.caller = true
    · rw [if_pos ho, if_pos ho]; exact ⟨rfl, e', rfl, by rw [hve]; exact h3⟩
    · rw [if_neg ho, if_neg ho]; exact ⟨rfl, e', rfl, by rw [hve]; exact h3⟩

theorem checkFunds_alike {cfg : ExecCfg} {tx : Tx} {w w' : World} (h : Alike w w') :
    AlikeRun (checkFunds cfg tx w) (checkFunds cfg tx w') := by
  obtain ⟨d', rfl, hd⟩ := h
  have hr : ∃ r e e',
      (if cfg.bypassBalance = true then ((.ok (.int 9999999), w.driver) : Except PyErr PyVal × Driver) else
        w.driver.get (balanceKey cfg tx.sender)) = (r, e) ∧
      (if cfg.bypassBalance = true then ((.ok (.int 9999999), d') : Except PyErr PyVal × Driver) else
        d'.get (balanceKey cfg tx.sender)) = (r, e') ∧ AlikeD e e' := by
    by_cases hx : cfg.bypassBalance = true
    · rw [if_pos hx, if_pos hx]; exact ⟨_, _, _, rfl, rfl, hd⟩
    · rw [if_neg hx, if_neg hx]; exact hd.get _
  obtain ⟨r, e, e', h1, h2, h3⟩ := hr
  unfold checkFunds
  simp only
  rw [h1, h2]
  cases r with
  | error x => exact ⟨rfl, e', rfl, h3⟩
  | ok b =>
    simp only
    cases hasFunds b tx.stampCost tx.stamps with
    | error x => exact ⟨rfl, e', rfl, h3⟩
    | ok q => cases q <;> exact ⟨rfl, e', rfl, h3⟩

theorem attempt_alike {H : Host} {cfg : ExecCfg} {tx : Tx} {m : Bool} {w w' : World} (hp : tx.code.All Spec.CacheBlind)
    (h : Alike w w') : AlikeRun (attempt H cfg tx m w) (attempt H cfg tx m w') := by
  unfold attempt
  have h1 : AlikeRun (if m then checkFunds cfg tx w else (.ok (), w)) (if m then checkFunds cfg tx w' else (.ok (), w')) := by
    cases m
    · exact ⟨rfl, h⟩
    · exact checkFunds_alike h
  rcases h1.cases with ⟨e, a, b, ha, hb, hs⟩ | ⟨v, a, b, ha, hb, hs⟩
  · rw [ha, hb]; exact ⟨rfl, hs⟩
  · rw [ha, hb]
    simp only
    have h2 : Alike { a with env := Dict.update a.env tx.environment } { b with env := Dict.update b.env tx.environment } := by
      obtain ⟨d', rfl, hd⟩ := hs
      exact ⟨d', rfl, hd⟩
    rcases (setBase_alike (tx := tx) h2).cases with ⟨e, c, d, hc, hd, hs⟩ | ⟨v, c, d, hc, hd, hs⟩
    · rw [hc, hd]; exact ⟨rfl, hs⟩
    · rw [hc, hd]
      simp only
      rcases (loadEntry_alike (H := H) (tx := tx) hp.1 hs).cases with ⟨e, c, d, hc, hd, hs⟩ | ⟨v, c, d, hc, hd, hs⟩
      · rw [hc, hd]; exact ⟨rfl, hs⟩
      · rw [hc, hd]; exact invoke_alike hp hs

theorem tryBlock_alike {H : Host} {cfg : ExecCfg} {tx : Tx} {m : Bool} {snap : Dict Str PyVal} {w w' : World}
    (hp : tx.code.All Spec.CacheBlind) (ha : tx.autoCommit = false) (h : Alike w w') :
    AlikeRun (tryBlock H cfg tx m snap w) (tryBlock H cfg tx m snap w') := by
  unfold tryBlock
  rcases (attempt_alike (H := H) (cfg := cfg) (tx := tx) (m := m) hp h).cases with ⟨e, a, b, ha', hb, hs⟩ | ⟨v, a, b, ha', hb, hs⟩
  · rw [ha', hb]
    obtain ⟨d', rfl, c, rfl, hd⟩ := hs
    unfold onError
    simp only [ha, Bool.false_eq_true, if_false]
    exact ⟨rfl, _, rfl, c, rfl, hd⟩
  · rw [ha', hb]
    obtain ⟨d', rfl, c, rfl, hd⟩ := hs
    simp only [ha, Bool.false_eq_true, if_false]
    exact ⟨rfl, _, rfl, c, rfl, hd⟩

theorem chargeFee_alike {H : Host} {cfg : ExecCfg} {tx : Tx} {used : Int} {writes : Dict Str PyVal} {w w' : World}
    (ha : tx.autoCommit = false) (h : Alike w w') :
    AlikeRun (chargeFee H cfg tx used writes w) (chargeFee H cfg tx used writes w') := by
  obtain ⟨d', rfl, hd⟩ := h
  unfold chargeFee
  cases feeOf H tx used with
  | error x => exact ⟨rfl, d', rfl, hd⟩
  | ok fee =>
    obtain ⟨r, e, e', h1, h2, h3⟩ := hd.get (balanceKey cfg tx.sender)
    simp only
    rw [h1, h2]
    cases r with
    | error x => exact ⟨rfl, e', rfl, h3⟩
    | ok bal =>
      simp only
      cases afterFee bal fee with
      | error x => exact ⟨rfl, e', rfl, h3⟩
      | ok b =>
        obtain ⟨r, m1, f, f', h1, h2, h3⟩ := h3.set w.meter (balanceKey cfg tx.sender) b false
        simp only
        rw [h1, h2]
        cases r with
        | error x => exact ⟨rfl, f', rfl, h3⟩
        | ok u =>
          simp only [ha, Bool.false_eq_true, if_false]
          exact ⟨rfl, f', rfl, h3⟩

theorem execute_alike {H : Host} {cfg : ExecCfg} {tx : Tx} {w w' : World} (hp : tx.code.All Spec.CacheBlind)
    (ha : tx.autoCommit = false) (h : Alike w w') : AlikeRun (execute H cfg tx w) (execute H cfg tx w') := by
  have h0 : Alike (startWorld w) (startWorld w') := by
    obtain ⟨d', rfl, c, rfl, hd⟩ := h
    exact ⟨_, rfl, c, rfl, hd⟩
  have hpw : w'.driver.pendingWrites = w.driver.pendingWrites := by
    obtain ⟨d', rfl, c, rfl, hd⟩ := h
    rfl
  unfold execute
  simp only [hpw]
  split
  · exact ⟨rfl, h0⟩
  · have ht := tryBlock_alike (H := H) (cfg := cfg) (tx := tx) (m := tx.metering.getD cfg.metering)
      (snap := w.driver.pendingWrites) hp ha h0
    unfold startWorld at ht
    generalize tryBlock H cfg tx (tx.metering.getD cfg.metering) w.driver.pendingWrites
      { w with driver := w.driver.clearTxWrites.clearEvents } = r at ht
    generalize tryBlock H cfg tx (tx.metering.getD cfg.metering) w.driver.pendingWrites
      { w' with driver := w'.driver.clearTxWrites.clearEvents } = s at ht
    obtain ⟨o, v⟩ := r
    obtain ⟨o', v'⟩ := s
    obtain ⟨ho, hs⟩ := ht
    simp only at ho hs
    subst ho
    simp only
    have h1 : Alike { v with driver := v.driver.clearEvents.clearTxWrites, meter := v.meter.stop }
        { v' with driver := v'.driver.clearEvents.clearTxWrites, meter := v'.meter.stop } := by
      obtain ⟨d', rfl, c, rfl, hd⟩ := hs
      exact ⟨_, rfl, c, rfl, hd⟩
    generalize ({ v with driver := v.driver.clearEvents.clearTxWrites, meter := v.meter.stop } : World) = u at h1
    generalize ({ v' with driver := v'.driver.clearEvents.clearTxWrites, meter := v'.meter.stop } : World) = u' at h1
    have hu : stampsUsed tx u' = stampsUsed tx u := by
      obtain ⟨d', rfl, hd⟩ := h1
      rfl
    rw [hu]
    have hf : AlikeRun
        (if tx.metering.getD cfg.metering = true then chargeFee H cfg tx (stampsUsed tx u) o.writes u else (.ok o.writes, u))
        (if tx.metering.getD cfg.metering = true then chargeFee H cfg tx (stampsUsed tx u) o.writes u' else (.ok o.writes, u')) := by
      split
      · exact chargeFee_alike ha h1
      · exact ⟨rfl, h1⟩
    rcases hf.cases with ⟨e, a, b, ha, hb, hs⟩ | ⟨v, a, b, ha, hb, hs⟩
    · rw [ha, hb]; exact ⟨rfl, hs⟩
    · rw [ha, hb]
      obtain ⟨d', rfl, c, rfl, hd⟩ := hs
      exact ⟨rfl, _, rfl, c, rfl, hd⟩

end Verif
