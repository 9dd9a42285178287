import Verif.Proofs.Replica
import Verif.Proofs.Replica2
/-!
# Two runs from states that agree on the keys the first one reads
-/
namespace Verif

/-- The driver is one that got from `d0`, `e` one that got from `e0`, by the same calls, and they agree on the keys of `K`. -/
structure Near (S : Prop) (K : Str → Prop) (d0 e0 d e : Driver) : Prop where
  bypass : d.bypass = false ∧ e.bypass = false
  txw : e.txWrites = d.txWrites
  events : e.events = d.events
  look : ∀ k, K k → e.find k = d.find k
  thr : S → ∀ k, K k → through e.cache e.disk k = through d.cache d.disk k
  okd : ∀ k, ∃ v, through d.cache d.disk k = .ok v
  oke : ∀ k, ∃ v, through e.cache e.disk k = .ok v
  keepd : d.cache = d0.cache ∧ d.disk = d0.disk
  keepe : e.cache = e0.cache ∧ e.disk = e0.disk
  restd : ∀ k, ¬ K k → Dict.get? d.pendingWrites k = Dict.get? d0.pendingWrites k
  reste : ∀ k, ¬ K k → Dict.get? e.pendingWrites k = Dict.get? e0.pendingWrites k
  pend : (∀ k, K k → Dict.get? e0.pendingWrites k = Dict.get? d0.pendingWrites k) →
    ∀ k, K k → Dict.get? e.pendingWrites k = Dict.get? d.pendingWrites k

/-- Calls that cannot see the cache, and, if deletions are not allowed (`S` is false), that delete nothing. -/
def Blindly (S : Prop) (a : Action) : Prop := Spec.CacheBlind a ∧ (S ∨ Spec.KeepsKeys a)

theorem normValue_keeps {v z : PyVal} (h : normValue v = .ok z) (hv : v.isNone = false) : z.isNone = false := by
  cases v with
  | none => cases hv
  | flt t =>
    cases hc : cdOfStr t.text with
    | error e => simp only [normValue, hc, Except.map] at h; cases h
    | ok d => simp only [normValue, hc, Except.map] at h; cases h; rfl
  | _ => unfold normValue at h; cases h; rfl

theorem Near.found {S : Prop} {K : Str → Prop} {d0 e0 d e : Driver} (h : Near S K d0 e0 d e) (k : Str) :
    (∃ v, d.find k = .ok v) ∧ ∃ v, e.find k = .ok v := by
  rw [Driver.find_through h.bypass.1, Driver.find_through h.bypass.2]
  constructor
  · split
    · exact h.okd k
    · exact ⟨_, rfl⟩
  · split
    · exact h.oke k
    · exact ⟨_, rfl⟩

/-- What is found does not depend on what is recorded as read. -/
theorem Near.reads {S : Prop} {K : Str → Prop} {d0 e0 d e : Driver} (h : Near S K d0 e0 d e) (r s : Dict Str PyVal) :
    Near S K d0 e0 { d with pendingReads := r } { e with pendingReads := s } :=
  ⟨h.bypass, h.txw, h.events, h.look, h.thr, h.okd, h.oke, h.keepd, h.keepe, h.restd, h.reste, h.pend⟩

theorem Near.put {S : Prop} {K : Str → Prop} {d0 e0 d e : Driver} (h : Near S K d0 e0 d e) {k : Str} (hk : K k) (v : PyVal) (txn : Bool) (hv : S ∨ v.isNone = false) :
    Near S K d0 e0
      { d with pendingWrites := Dict.set d.pendingWrites k v, txWrites := if txn then Dict.set d.txWrites k v else d.txWrites }
      { e with pendingWrites := Dict.set e.pendingWrites k v, txWrites := if txn then Dict.set e.txWrites k v else e.txWrites } := by
  refine ⟨h.bypass, ?_, h.events, fun k' hk' => ?_, h.thr, h.okd, h.oke, h.keepd, h.keepe, fun k' hk' => ?_, fun k' hk' => ?_, fun h0 k' hk' => ?_⟩
  · simp only [h.txw]
  · have := h.look k' hk'
    rw [Driver.find_through h.bypass.1, Driver.find_through h.bypass.2] at this
    have f1 := Driver.find_through (d := { d with pendingWrites := Dict.set d.pendingWrites k v, txWrites := if txn then Dict.set d.txWrites k v else d.txWrites }) h.bypass.1 k'
    have f2 := Driver.find_through (d := { e with pendingWrites := Dict.set e.pendingWrites k v, txWrites := if txn then Dict.set e.txWrites k v else e.txWrites }) h.bypass.2 k'
    rw [f1, f2]
    simp only [dget_set]
    split
    · rcases hv with hv | hv
      · split
        · rw [h.thr hv k' hk']
        · rfl
      · simp only [hv, Bool.false_eq_true, if_false]
    · exact this
  · have hne : k ≠ k' := by rintro rfl; exact hk' hk
    rw [Dict.get?_set_ne _ _ hne]; exact h.restd k' hk'
  · have hne : k ≠ k' := by rintro rfl; exact hk' hk
    rw [Dict.get?_set_ne _ _ hne]; exact h.reste k' hk'
  · have := h.pend h0 k' hk'
    by_cases hx : k = k'
    · subst hx; simp
    · rw [Dict.get?_set_ne _ _ hx, Dict.get?_set_ne _ _ hx]; exact this

/-- Every key recorded as read is one of `K`. -/
def SeenD (K : Str → Prop) (d : Driver) : Prop := ∀ k, (Dict.get? d.pendingReads k).isSome = true → K k

/-- Nothing recorded as read is forgotten. -/
def GrowsD (d d' : Driver) : Prop := ∀ k, (Dict.get? d.pendingReads k).isSome = true → (Dict.get? d'.pendingReads k).isSome = true

theorem GrowsD.refl (d : Driver) : GrowsD d d := fun _ h => h
theorem GrowsD.trans {a b c : Driver} (h : GrowsD a b) (h' : GrowsD b c) : GrowsD a c := fun k x => h' k (h k x)
theorem GrowsD.seen {K : Str → Prop} {a b : Driver} (h : GrowsD a b) (hs : SeenD K b) : SeenD K a := fun k x => hs k (h k x)

theorem get_grows (d : Driver) (k : Str) : GrowsD d (d.get k).2 := by
  unfold Driver.get
  cases d.find k with
  | error e => exact .refl d
  | ok v =>
    simp only
    split
    · intro k' h
      simp only
      by_cases hx : k = k'
      · subst hx; simp
      · rw [Dict.get?_set_ne _ _ hx]; exact h
    · exact .refl d

theorem get_seen {d : Driver} {k : Str} {v : PyVal} (h : d.find k = .ok v) : (Dict.get? (d.get k).2.pendingReads k).isSome = true := by
  unfold Driver.get
  rw [h]
  simp only
  by_cases hn : (dget d.pendingReads k).isNone = true
  · rw [if_pos hn]; simp
  · rw [if_neg hn, (dget_some hn).1]; rfl

theorem Near.get {S : Prop} {K : Str → Prop} {d0 e0 d e : Driver} (h : SeenD K d → Near S K d0 e0 d e) (k : Str) (hs : SeenD K (d.get k).2) :
    (e.get k).1 = (d.get k).1 ∧ Near S K d0 e0 (d.get k).2 (e.get k).2 := by
  have hn := h ((get_grows d k).seen hs)
  obtain ⟨⟨v, hv⟩, _⟩ := hn.found k
  have hk : K k := hs k (get_seen hv)
  obtain ⟨a1, a2⟩ := d.get_frame k
  obtain ⟨b1, b2⟩ := e.get_frame k
  rw [a2, b2]
  refine ⟨hn.look k hk, ?_⟩
  rw [a1, b1]
  exact hn.reads _ _

theorem set_grows (d : Driver) (m : Meter) (k : Str) (v : PyVal) (txn : Bool) : GrowsD d (d.set m k v txn).2.2 := by
  unfold Driver.set
  cases encode v with
  | error e => exact .refl d
  | ok t =>
    simp only
    cases m.deductWrite (utf8Len k + t.length) with
    | mk q m1 =>
      cases q with
      | error e => exact .refl d
      | ok u =>
        simp only
        have hg : GrowsD d (if (dget d.pendingReads k).isNone then d.get k else (.ok .none, d)).2 := by
          split
          · exact get_grows d k
          · exact .refl d
        cases hc : (if (dget d.pendingReads k).isNone then d.get k else (.ok .none, d)) with
        | mk r d1 =>
          rw [hc] at hg
          cases r with
          | error e => exact hg
          | ok u =>
            simp only
            cases normValue v with
            | error e => exact hg
            | ok x => exact hg

theorem Near.set {S : Prop} {K : Str → Prop} {d0 e0 d e : Driver} (h : SeenD K d → Near S K d0 e0 d e) (m : Meter) (k : Str) (v : PyVal) (txn : Bool)
    (hv : S ∨ v.isNone = false) (hs : SeenD K (d.set m k v txn).2.2) :
    (e.set m k v txn).1 = (d.set m k v txn).1 ∧ (e.set m k v txn).2.1 = (d.set m k v txn).2.1 ∧
    Near S K d0 e0 (d.set m k v txn).2.2 (e.set m k v txn).2.2 := by
  have hn := h ((set_grows d m k v txn).seen hs)
  unfold Driver.set at hs ⊢
  cases hE : encode v with
  | error e => exact ⟨rfl, rfl, hn⟩
  | ok t =>
    rw [hE] at hs
    simp only at hs ⊢
    cases hD : m.deductWrite (utf8Len k + t.length) with
    | mk q m1 =>
      rw [hD] at hs
      cases q with
      | error e => exact ⟨rfl, rfl, hn⟩
      | ok u =>
        simp only at hs ⊢
        obtain ⟨⟨x, hx⟩, ⟨y, hy⟩⟩ := hn.found k
        have hd : ∃ r, (if (dget d.pendingReads k).isNone then d.get k else (.ok .none, d)).1 = .ok r ∧
            (if (dget d.pendingReads k).isNone then d.get k else (.ok .none, d)).2 =
              { d with pendingReads := (if (dget d.pendingReads k).isNone then d.get k else (.ok .none, d)).2.pendingReads } ∧
            (Dict.get? (if (dget d.pendingReads k).isNone then d.get k else (.ok .none, d)).2.pendingReads k).isSome = true := by
          by_cases hc : (dget d.pendingReads k).isNone = true
          · rw [if_pos hc]
            obtain ⟨a1, a2⟩ := d.get_frame k
            exact ⟨x, a2.trans hx, a1, get_seen hx⟩
          · rw [if_neg hc]
            exact ⟨_, rfl, rfl, by rw [(dget_some hc).1]; rfl⟩
        have he : ∃ r, (if (dget e.pendingReads k).isNone then e.get k else (.ok .none, e)).1 = .ok r ∧
            (if (dget e.pendingReads k).isNone then e.get k else (.ok .none, e)).2 =
              { e with pendingReads := (if (dget e.pendingReads k).isNone then e.get k else (.ok .none, e)).2.pendingReads } := by
          by_cases hc : (dget e.pendingReads k).isNone = true
          · rw [if_pos hc]
            obtain ⟨a1, a2⟩ := e.get_frame k
            exact ⟨y, a2.trans hy, a1⟩
          · rw [if_neg hc]
            exact ⟨_, rfl, rfl⟩
        obtain ⟨r1, p1, p2, p3⟩ := hd
        obtain ⟨r2, q1, q2⟩ := he
        generalize hq : (if (dget e.pendingReads k).isNone then e.get k else (.ok .none, e)) = q at q1 q2 ⊢
        generalize hp : (if (dget d.pendingReads k).isNone then d.get k else (.ok .none, d)) = p at hs p1 p2 p3 ⊢
        obtain ⟨p, d1⟩ := p
        obtain ⟨q, e1⟩ := q
        simp only at p1 p2 p3 q1 q2
        subst p1 q1
        have hn1 : Near S K d0 e0 d1 e1 := by rw [p2, q2]; exact hn.reads _ _
        simp only at hs ⊢
        cases hN : normValue v with
        | error e => exact ⟨rfl, rfl, hn1⟩
        | ok z =>
          rw [hN] at hs
          exact ⟨rfl, rfl, hn1.put (hs k p3) z txn (hv.imp_right (normValue_keeps hN))⟩

/-- Same process but for the driver; and the drivers agree, unless a key outside `K` has been read. -/
def Beside (S : Prop) (K : Str → Prop) (d0 e0 : Driver) (w w' : World) : Prop :=
  ∃ e, w' = { w with driver := e } ∧ (SeenD K w.driver → Near S K d0 e0 w.driver e)

/-- The first run forgets nothing it has read; and unless it read a key outside `K`, both give the same. -/
structure Both (S : Prop) (K : Str → Prop) (d0 e0 : Driver) {α : Type} (w : World) (r s : α × World) : Prop where
  grow : GrowsD w.driver r.2.driver
  same : SeenD K r.2.driver → r.1 = s.1 ∧ ∃ e, s.2 = { r.2 with driver := e } ∧ Near S K d0 e0 r.2.driver e

variable {S : Prop} {K : Str → Prop} {d0 e0 : Driver}

theorem Beside.unseen {w : World} (h : ¬ SeenD K w.driver) : Beside S K d0 e0 w w := ⟨w.driver, rfl, fun x => absurd x h⟩

/-- Sequencing. -/
theorem Both.bind {α β : Type} {w : World} {r s : α × World} (h : Both S K d0 e0 w r s) {g : α × World → β × World}
    (hg : ∀ x a b, Beside S K d0 e0 a b → Both S K d0 e0 a (g (x, a)) (g (x, b))) : Both S K d0 e0 w (g r) (g s) := by
  obtain ⟨x, a⟩ := r
  obtain ⟨y, b⟩ := s
  obtain ⟨h1, h2⟩ := h
  by_cases hs : SeenD K a.driver
  · obtain ⟨hxy, e, hb, hn⟩ := h2 hs
    simp only at hxy hb
    subst hxy
    have := hg x a b ⟨e, hb, fun _ => hn⟩
    exact ⟨h1.trans this.grow, this.same⟩
  · have := hg x a a (.unseen hs)
    exact ⟨h1.trans this.grow, fun hx => absurd (this.grow.seen hx) hs⟩

theorem Both.pure {α : Type} {w w' : World} (h : Beside S K d0 e0 w w') (x : α) : Both S K d0 e0 w (x, w) (x, w') := by
  obtain ⟨e, rfl, hn⟩ := h
  exact ⟨.refl _, fun hs => ⟨rfl, e, rfl, hn hs⟩⟩

/-- Something about the process other than the driver changes. -/
theorem Both.upd {α : Type} {w w' : World} (h : Beside S K d0 e0 w w') (x : α) (f : World → World)
    (hf : ∀ v e, f { v with driver := e } = { f v with driver := e }) : Both S K d0 e0 w (x, f w) (x, f w') := by
  obtain ⟨e, rfl, hn⟩ := h
  have hd : (f w).driver = w.driver := by
    have hx := congrArg World.driver (hf w w.driver)
    exact hx
  refine ⟨?_, fun hs => ⟨rfl, e, hf w e, ?_⟩⟩
  · show GrowsD w.driver (f w).driver
    rw [hd]; exact .refl _
  · simp only at hs ⊢
    rw [hd] at hs ⊢
    exact hn hs

theorem Beside.upd {w w' : World} (h : Beside S K d0 e0 w w') (f : World → World)
    (hf : ∀ v e, f { v with driver := e } = { f v with driver := e }) : Beside S K d0 e0 (f w) (f w') := by
  obtain ⟨e, rfl, hn⟩ := h
  have hd : (f w).driver = w.driver := by
    have hx := congrArg World.driver (hf w w.driver)
    exact hx
  exact ⟨e, hf w e, by rw [hd]; exact hn⟩

/-- The process after `driver.get(key)`, and what it returned. -/
def World.getting (w : World) (k : Str) : Except PyErr PyVal × World := ((w.driver.get k).1, { w with driver := (w.driver.get k).2 })

theorem getting_both {w w' : World} (h : Beside S K d0 e0 w w') (k : Str) : Both S K d0 e0 w (w.getting k) (w'.getting k) := by
  obtain ⟨e, rfl, hn⟩ := h
  refine ⟨get_grows _ _, fun hs => ?_⟩
  obtain ⟨h1, h2⟩ := Near.get hn k hs
  exact ⟨h1.symm, _, rfl, h2⟩

theorem setting_both {w w' : World} (h : Beside S K d0 e0 w w') (k : Str) (v : PyVal) (txn : Bool) (hv : S ∨ v.isNone = false) :
    Both S K d0 e0 w (w.md (w.driver.set w.meter k v txn)) (w'.md (w'.driver.set w'.meter k v txn)) := by
  obtain ⟨e, rfl, hn⟩ := h
  have hmd : ∀ (u : World) (r : Except PyErr Unit × Meter × Driver), (u.md r).2 = { u with meter := r.2.1, driver := r.2.2 } ∧
      (u.md r).1 = r.1.map fun _ => .none := by
    intro u r
    obtain ⟨r, m, d⟩ := r
    unfold World.md
    cases r <;> exact ⟨rfl, rfl⟩
  refine ⟨?_, fun hs => ?_⟩
  · rw [(hmd _ _).1]; exact set_grows _ _ _ _ _
  · rw [(hmd _ _).1] at hs
    obtain ⟨h1, h2, h3⟩ := Near.set hn w.meter k v txn hv hs
    rw [(hmd _ _).1, (hmd _ _).2, (hmd _ _).1, (hmd _ _).2]
    exact ⟨by rw [h1], _, by rw [h2], h3⟩

theorem Both.from {α β : Type} {w : World} {r s : α × World} (h : Both S K d0 e0 w r s) {g : α → β} : Both S K d0 e0 w (g r.1, r.2) (g s.1, s.2) :=
  ⟨h.grow, fun hs => ⟨congrArg g (h.same hs).1, (h.same hs).2⟩⟩

/-- After a read, something that only depends on what was read. -/
theorem reading_both {α : Type} {w w' : World} (h : Beside S K d0 e0 w w') (k : Str) {g : Except PyErr PyVal → α} {r s : α × World}
    (hr : r = (g (w.getting k).1, (w.getting k).2)) (hs : s = (g (w'.getting k).1, (w'.getting k).2)) : Both S K d0 e0 w r s := by
  rw [hr, hs]
  exact (getting_both h k).from

theorem Action.both {H : Host} {a : Action} {w w' : World} (hb : Blindly S a) (h : Beside S K d0 e0 w w') :
    Both S K d0 e0 w (a.run H w) (a.run H w') := by
  have triv : ∀ {α : Type} {r : α} {u : World} {e : Driver}, u.driver = w.driver → (SeenD K w.driver → Near S K d0 e0 w.driver e) →
      Both S K d0 e0 w (r, u) (r, { u with driver := e }) := by
    intro α r u e hu hn
    refine ⟨by rw [hu]; exact .refl _, fun hs => ⟨rfl, e, rfl, ?_⟩⟩
    simp only [hu] at hs ⊢
    exact hn hs
  obtain ⟨hb, hkeep⟩ := hb
  have setb : ∀ (k : Str) (v : PyVal) (txn : Bool), (S ∨ v.isNone = false) →
      Both S K d0 e0 w (w.md (w.driver.set w.meter k v txn)) (w'.md (w'.driver.set w'.meter k v txn)) :=
    fun k v txn hv => setting_both h k v txn hv
  have h' := h
  obtain ⟨e, rfl, hn⟩ := h
  cases a with
  | hashAll => exact hb.elim
  | hashItems => exact hb.elim
  | hashClear => exact hb.elim
  | mutate => exact hb.elim
  | varSet x v =>
    simp only [Action.run]
    unfold Variable.set
    cases x.type with
    | none => exact setb _ _ _ hkeep
    | some t =>
      simp only
      split
      · exact triv rfl hn
      · exact setb _ _ _ hkeep
  | varGet x =>
    refine reading_both h' x.key (g := fun r => r.map fun v => if v.isNone then x.default else v) ?_ ?_
    · simp only [Action.run, Variable.get, World.rd, World.getting]
      rcases w.driver.get x.key with ⟨_ | _, _⟩ <;> rfl
    · simp only [Action.run, Variable.get, World.rd, World.getting]
      rcases e.get x.key with ⟨_ | _, _⟩ <;> rfl
  | hashSet hv ix v =>
    simp only [Action.run]
    unfold HashVar.setItem
    cases validateKey ix with
    | error e => exact triv rfl hn
    | ok s => exact setb _ _ _ hkeep
  | hashGet hv ix =>
    simp only [Action.run]
    unfold HashVar.getItem
    cases validateKey ix with
    | error e => exact triv rfl hn
    | ok s =>
      refine reading_both h' (hv.entry s) (g := fun r => match r with | .ok v => hashValue (if v.isNone then hv.default else v) | .error e => .error e) ?_ ?_
      · simp only [World.rd, World.getting]
        rcases w.driver.get (hv.entry s) with ⟨_ | _, _⟩ <;> rfl
      · simp only [World.rd, World.getting]
        rcases e.get (hv.entry s) with ⟨_ | _, _⟩ <;> rfl
  | foreignVarSet x v => exact triv rfl hn
  | foreignHashSet h ix v => exact triv rfl hn
  | foreignHashClear h args => exact triv rfl hn
  | ownerOf name => exact getting_both h' _
  | rawGet key => exact getting_both h' _
  | rawSet key v => exact setb _ _ _ hkeep
  | newLog ev ps =>
    simp only [Action.run]
    unfold Verif.newLog
    simp only
    split
    · exact triv rfl hn
    · split
      · exact triv rfl hn
      · split
        · exact triv rfl hn
        · exact triv rfl hn
  | emit l data =>
    simp only [Action.run]
    split
    · exact triv rfl hn
    · unfold emitEvent
      split
      · exact triv rfl hn
      · split
        · exact triv rfl hn
        · split
          · exact triv rfl hn
          · simp only [World.current]
            split
            · exact triv rfl hn
            · split
              · exact triv rfl hn
              · refine ⟨fun _ x => x, fun hs => ⟨rfl, _, rfl, ?_⟩⟩
                have h := hn hs
                unfold Driver.setEvent
                exact ⟨h.bypass, h.txw, by simp only [h.events], h.look, h.thr, h.okd, h.oke, h.keepd, h.keepe, h.restd, h.reste, h.pend⟩
  | seed salt =>
    simp only [Action.run]
    unfold doSeed
    simp only
    split <;> exact triv rfl hn
  | getrandbits k =>
    simp only [Action.run]
    unfold doGetrandbits
    simp only
    split
    · exact triv rfl hn
    · split <;> exact triv rfl hn
  | draw q =>
    simp only [Action.run]
    unfold doDraw
    simp only
    split <;> exact triv rfl hn
  | _ => exact triv rfl hn

theorem Beside.loaded {w w' : World} (h : Beside S K d0 e0 w w') : w'.loaded = w.loaded ∧ w'.restricted = w.restricted ∧ w'.current = w.current ∧
    w'.env = w.env ∧ w'.meter = w.meter ∧ w'.stack = w.stack := by
  obtain ⟨e, rfl, _⟩ := h
  exact ⟨rfl, rfl, rfl, rfl, rfl, rfl⟩

theorem lookup_both {H : Host} {w w' : World} {name : Str} (h : Beside S K d0 e0 w w') : Both S K d0 e0 w (lookup H w name) (lookup H w' name) := by
  unfold lookup
  by_cases hx : name ∈ w.loaded
  · rw [if_pos hx, if_pos (show name ∈ w'.loaded by rw [h.loaded.1]; exact hx)]
    exact .pure h _
  · rw [if_neg hx, if_neg (show ¬ name ∈ w'.loaded by rw [h.loaded.1]; exact hx)]
    split
    · exact .pure h _
    · split
      · exact .pure h _
      · refine reading_both h (makeKey name (py! "__code__")) (g := fun r => match r with
          | .error e => .error e
          | .ok v => if v.isNone then .ok (if H.importable name then .host else .missing) else .ok .contract) ?_ ?_
        · simp only [World.getting]
          rcases w.driver.get (makeKey name (py! "__code__")) with ⟨_ | _, _⟩
          · rfl
          · simp only; split <;> rfl
        · simp only [World.getting]
          rcases w'.driver.get (makeKey name (py! "__code__")) with ⟨_ | _, _⟩
          · rfl
          · simp only; split <;> rfl

theorem fetchCompiled_both {w w' : World} {name : Str} (h : Beside S K d0 e0 w w') : Both S K d0 e0 w (fetchCompiled w name) (fetchCompiled w' name) := by
  unfold fetchCompiled
  refine reading_both h (makeKey name (py! "__compiled__")) (g := fun r => match r with
    | .error e => .error e
    | .ok .none => .error .importError
    | .ok (.bytes _) => .ok ()
    | .ok (.str _) => .ok ()
    | .ok _ => .error .typeError) ?_ ?_
  · simp only [World.getting]
    rcases w.driver.get (makeKey name (py! "__compiled__")) with ⟨_ | v, _⟩
    · rfl
    · cases v <;> rfl
  · simp only [World.getting]
    rcases w'.driver.get (makeKey name (py! "__compiled__")) with ⟨_ | v, _⟩
    · rfl
    · cases v <;> rfl

theorem dynChecks_both {H : Host} {w w' : World} {name : Str} (h : Beside S K d0 e0 w w') : Both S K d0 e0 w (dynChecks H w name) (dynChecks H w' name) := by
  unfold dynChecks
  split
  · exact .pure h _
  · split
    · exact .pure h _
    · split
      · exact .pure h _
      · split
        · exact .pure h _
        · refine reading_both h (makeKey name (py! "__code__")) (g := fun r => match r with
            | .error e => .error e
            | .ok v => if v.isNone then .error .importError else .ok ()) ?_ ?_
          · simp only [World.getting]
            rcases w.driver.get (makeKey name (py! "__code__")) with ⟨_ | _, _⟩
            · rfl
            · simp only; split <;> rfl
          · simp only [World.getting]
            rcases w'.driver.get (makeKey name (py! "__code__")) with ⟨_ | _, _⟩
            · rfl
            · simp only; split <;> rfl

theorem restrictedCheck_both {H : Host} {w w' : World} {name : Str} (h : Beside S K d0 e0 w w') :
    Both S K d0 e0 w (restrictedCheck H w name) (restrictedCheck H w' name) := by
  unfold restrictedCheck
  rw [h.loaded.2.1]
  split
  · have hl := lookup_both (H := H) (name := name) h
    generalize lookup H w name = r at hl ⊢
    generalize lookup H w' name = s at hl ⊢
    apply Both.bind hl
    intro x a b hab
    cases x with
    | error e => exact .pure hab _
    | ok f => cases f <;> exact .pure hab _
  · exact .pure h _

theorem importStart_both {H : Host} {w w' : World} {name : Str} {dyn : Bool} (h : Beside S K d0 e0 w w') :
    Both S K d0 e0 w (importStart H w name dyn) (importStart H w' name dyn) := by
  unfold importStart
  have h1 : Both S K d0 e0 w (if dyn then dynChecks H w name else restrictedCheck H w name)
      (if dyn then dynChecks H w' name else restrictedCheck H w' name) := by
    cases dyn
    · exact restrictedCheck_both h
    · exact dynChecks_both h
  generalize (if dyn then dynChecks H w name else restrictedCheck H w name) = r at h1 ⊢
  generalize (if dyn then dynChecks H w' name else restrictedCheck H w' name) = s at h1 ⊢
  apply Both.bind h1
  intro x a b hab
  cases x with
  | error e => exact .pure hab _
  | ok u =>
    simp only
    have hl := lookup_both (H := H) (name := name) hab
    generalize lookup H a name = r at hl ⊢
    generalize lookup H b name = s at hl ⊢
    apply Both.bind hl
    intro x a b hab
    cases x with
    | error e => exact .pure hab _
    | ok f =>
      cases f with
      | contract =>
        simp only
        have hl := fetchCompiled_both (name := name) hab
        generalize fetchCompiled a name = r at hl ⊢
        generalize fetchCompiled b name = s at hl ⊢
        apply Both.bind hl
        intro x a b hab
        cases x <;> exact .pure hab _
      | _ => exact .pure hab _

/-- `get_owner` as a read. -/
theorem getOwner_eq (d : Driver) (c : Str) : d.getOwner c =
    ((match (d.get (makeKey c (py! "__owner__"))).1 with | .error e => .error e | .ok (.str []) => .ok .none | .ok v => .ok v),
      (d.get (makeKey c (py! "__owner__"))).2) := by
  unfold Driver.getOwner
  rcases d.get (makeKey c (py! "__owner__")) with ⟨_ | v, _⟩
  · rfl
  · cases v with
    | str s => cases s <;> rfl
    | _ => rfl

/-- The process after `driver.get_owner(name)`. -/
def World.owning (w : World) (c : Str) : Except PyErr PyVal × World := ((w.driver.getOwner c).1, { w with driver := (w.driver.getOwner c).2 })

theorem owning_both {w w' : World} (h : Beside S K d0 e0 w w') (c : Str) : Both S K d0 e0 w (w.owning c) (w'.owning c) :=
  reading_both h (makeKey c (py! "__owner__"))
    (g := fun r => match r with | .error e => .error e | .ok (.str []) => .ok .none | .ok v => .ok v)
    (by unfold World.owning; rw [getOwner_eq]; rfl) (by unfold World.owning; rw [getOwner_eq]; rfl)

theorem enter_both {c : Str} {w w' : World} (h : Beside S K d0 e0 w w') : Both S K d0 e0 w (enter c w) (enter c w') := by
  have key : ∀ u : World, enter c u = (fun r : Except PyErr PyVal × World =>
      if u.current.this ≠ some c then
        match r with
        | (.error e, w) => (.error e, w)
        | (.ok owner, w) =>
          if ownerRefuses owner u.current.this then
            (.error .exception, w.addState { owner := owner, caller := u.current.this, signer := u.current.signer, this := some c, entry := u.current.entry, submission := u.current.submission })
          else (.ok (), w.addState { owner := owner, caller := u.current.this, signer := u.current.signer, this := some c, entry := u.current.entry, submission := u.current.submission })
      else (.ok (), u.insState)) (u.owning c) := by
    intro u
    unfold enter World.owning
    simp only
    split
    · rcases u.driver.getOwner c with ⟨_ | _, _⟩
      · rfl
      · simp only
    · rfl
  rw [key, key]
  by_cases hx : w.current.this ≠ some c
  · simp only [h.loaded.2.2.1, if_pos hx]
    have ho := owning_both h c
    generalize w.owning c = r at ho ⊢
    generalize w'.owning c = s at ho ⊢
    apply Both.bind ho
    intro x a b hab
    cases x with
    | error e => exact .pure hab _
    | ok owner =>
      simp only
      have hadd : ∀ (f : Frame) (v : World) (e : Driver), World.addState { v with driver := e } f = { v.addState f with driver := e } := by
        intro f v e
        unfold World.addState
        show (if v.current.this ≠ f.this ∧ v.stack.length < World.maxFrames then _ else _) = _
        split <;> rfl
      split
      · exact .upd hab _ (fun v => v.addState _) (hadd _)
      · exact .upd hab _ (fun v => v.addState _) (hadd _)
  · simp only [h.loaded.2.2.1, if_neg hx]
    refine .upd h _ World.insState fun v e => ?_
    unfold World.insState
    simp only
    split <;> rfl

theorem popState_upd (v : World) (e : Driver) : World.popState { v with driver := e } = { v.popState with driver := e } := by
  unfold World.popState
  simp only
  split
  · rfl
  · split <;> rfl

theorem Prog.both {H : Host} : ∀ (p : Prog) {w w' : World}, p.All (Blindly S) → Beside S K d0 e0 w w' →
    Both S K d0 e0 w (p.run H w) (p.run H w') := by
  intro p
  induction p with
  | ret v => intro w w' _ h; exact .pure h _
  | raise e => intro w w' _ h; exact .pure h _
  | act a k ih =>
    intro w w' hp h
    simp only [Prog.run]
    exact (Action.both (H := H) hp.1 h).bind (g := fun r => (k r.1).run H r.2) fun x a b hab => ih x (hp.2 x) hab
  | call c body k ihb ihk =>
    intro w w' hp h
    simp only [Prog.run]
    have he := enter_both (c := c) h
    generalize enter c w = r at he ⊢
    generalize enter c w' = s at he ⊢
    apply Both.bind he
    intro x a b hab
    cases x with
    | error e => exact ihk _ (hp.2 _) hab
    | ok u =>
      exact (ihb hp.1 hab).bind (g := fun r => (k r.1).run H r.2.popState) fun x a b hab => by
        have h1 := ihk x (hp.2 x) (hab.upd World.popState popState_upd)
        exact ⟨fun k hk => h1.grow k (by
          have : a.popState.driver = a.driver := by
            have hx := congrArg World.driver (popState_upd a a.driver)
            exact hx
          rw [this]; exact hk), h1.same⟩
  | load name dyn body k ihb ihk =>
    intro w w' hp h
    simp only [Prog.run]
    have he := importStart_both (H := H) (name := name) (dyn := dyn) h
    generalize importStart H w name dyn = r at he ⊢
    generalize importStart H w' name dyn = s at he ⊢
    apply Both.bind he
    intro x a b hab
    cases x with
    | error e => exact ihk _ (hp.2 _) hab
    | ok f =>
      cases f with
      | contract =>
        simp only
        have hb := ihb hp.1 hab
        generalize body.run H a = r at hb ⊢
        generalize body.run H b = s at hb ⊢
        apply Both.bind hb
        intro x a b hab
        cases x with
        | error e => exact ihk _ (hp.2 _) hab
        | ok v =>
          have h1 := ihk (.ok .none) (hp.2 _) (hab.upd (fun v => v.addLoaded name) fun _ _ => rfl)
          exact ⟨h1.grow, h1.same⟩
      | _ => exact ihk _ (hp.2 _) hab

/-- What a fee leaves of a balance is a number. -/
theorem afterFee_shape {balance b : PyVal} {fee : Dec} (h : afterFee balance fee = .ok b) : b = .int 0 ∨ ∃ r, b = .dec r := by
  have key : ∀ c : Except PyErr Dec, (do
      let c ← c
      let r ← cdSub c fee
      if (← cdLtInt r 0) then (.ok (.int 0) : Except PyErr PyVal) else .ok (.dec r)) = .ok b → b = .int 0 ∨ ∃ r, b = .dec r := by
    intro c h
    cases c with
    | error e => cases h
    | ok c =>
      cases h1 : cdSub c fee with
      | error e => simp [h1, bind, Except.bind] at h
      | ok r =>
        cases h2 : cdLtInt r 0 with
        | error e => simp [h1, h2, bind, Except.bind] at h
        | ok lt =>
          cases lt
          · simp [h1, h2, bind, Except.bind] at h; exact Or.inr ⟨r, h.symm⟩
          · simp [h1, h2, bind, Except.bind] at h; exact Or.inl h.symm
  cases balance with
  | none => exact key (cdOfInt 0) h
  | int i => exact key (cdOfInt i) h
  | bool v => exact key (cdOfInt (if v then 1 else 0)) h
  | dec d => exact key (.ok d) h
  | _ => cases h

theorem Prog.all_mono {P Q : Action → Prop} (h : ∀ a, P a → Q a) : ∀ p : Prog, p.All P → p.All Q
  | .ret _, _ => trivial
  | .raise _, _ => trivial
  | .act a k, hp => ⟨h a hp.1, fun r => Prog.all_mono h (k r) (hp.2 r)⟩
  | .call c b k, hp => ⟨Prog.all_mono h b hp.1, fun r => Prog.all_mono h (k r) (hp.2 r)⟩
  | .load n d b k, hp => ⟨Prog.all_mono h b hp.1, fun r => Prog.all_mono h (k r) (hp.2 r)⟩

theorem code_all_mono {P Q : Action → Prop} (h : ∀ a, P a → Q a) {c : Code} (hc : c.All P) : c.All Q :=
  ⟨Prog.all_mono h _ hc.1, fun fn hf kw => Prog.all_mono h _ (hc.2 fn hf kw)⟩

end Verif
