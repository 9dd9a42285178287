import Verif.Proofs.Runtime
import Verif.Proofs.Executor
import Verif.Spec.Submission
/-! # Deployment: what contract code can do to stored contracts -/
namespace Verif
open Spec

/-! ## Programs -/

theorem Prog.run_bind (H : Host) (p : Prog) (f : Except PyErr PyVal → Prog) : ∀ w,
    (p.bind f).run H w = (f (p.run H w).1).run H (p.run H w).2 := by
  induction p with
  | ret v => intro w; rfl
  | raise e => intro w; rfl
  | act a k ih => intro w; simp only [Prog.bind, Prog.run]; exact ih _ _
  | call c body k _ ihk =>
    intro w
    simp only [Prog.bind, Prog.run]
    cases enter c w with
    | mk r w1 => cases r <;> exact ihk _ _
  | load name dyn body k _ ihk =>
    intro w
    simp only [Prog.bind, Prog.run]
    cases importStart H w name dyn with
    | mk r w1 =>
      cases r with
      | error e => exact ihk _ _
      | ok f =>
        cases f with
        | contract =>
          simp only
          cases body.run H w1 with
          | mk r w2 => cases r <;> exact ihk _ _
        | _ => exact ihk _ _

theorem run_perform (H : Host) (a : Action) (k : PyVal → Prog) (w : World) :
    (perform a k).run H w =
      match a.run H w with
      | (.ok v, w1) => (k v).run H w1
      | (.error e, w1) => (.error e, w1) := by
  simp only [perform, Prog.run]
  rcases a.run H w with ⟨r, w1⟩
  cases r <;> rfl

/-! ## Keys -/

theorem last_dot {c n s t : Str} (hs : '.' ∉ s) (ht : '.' ∉ t) (h : c ++ '.' :: s = n ++ '.' :: t) : c = n ∧ s = t := by
  induction c generalizing n with
  | nil =>
    cases n with
    | nil => simpa using h
    | cons a n =>
      simp only [List.nil_append, List.cons_append, List.cons.injEq] at h
      exact absurd (by rw [h.2]; simp) hs
  | cons a c ih =>
    cases n with
    | nil =>
      simp only [List.nil_append, List.cons_append, List.cons.injEq] at h
      exact absurd (by rw [← h.2]; simp) ht
    | cons b n =>
      simp only [List.cons_append, List.cons.injEq] at h
      obtain ⟨h1, h2⟩ := ih h.2
      exact ⟨by rw [h.1, h1], h2⟩

theorem records_plain {s : Str} (h : s ∈ records) : Plain s ∧ s.head? = some '_' := by
  simp only [records, fixedRecords, List.mem_cons, List.not_mem_nil, or_false] at h
  rcases h with rfl | rfl | rfl | rfl | rfl <;> decide

theorem fixed_records {s : Str} (h : s ∈ fixedRecords) : s ∈ records := List.mem_cons_of_mem _ h

/-- The key of a record determines contract and record. -/
theorem record_inj {c n s t : Str} (hs : s ∈ records) (ht : t ∈ records) (h : makeKey c s = makeKey n t) :
    c = n ∧ s = t := last_dot (records_plain hs).1.2.1 (records_plain ht).1.2.1 h

/-- A declared variable is never a record of a contract without ":" in its name. -/
theorem userKey_ne {N : Str → Prop} {k n s : Str} (hk : UserKey N k) (hn : ':' ∉ n) (hs : s ∈ records) :
    k ≠ makeKey n s := by
  obtain ⟨c, v, rest, _, hv, hrest, rfl⟩ := hk
  intro h
  obtain ⟨hp, hh⟩ := records_plain hs
  rcases hrest with rfl | ⟨t, rfl⟩
  · rw [List.append_nil] at h
    obtain ⟨_, rfl⟩ := last_dot hv.1.2.1 hp.2.1 h
    exact hv.2 hh
  · have : ':' ∈ makeKey n s := by rw [← h]; simp
    simp only [makeKey, List.mem_append, List.mem_cons] at this
    rcases this with h | h | h
    · exact hn h
    · exact absurd h (by decide)
    · exact hp.2.2.1 h

/-! ## What is kept -/

/-- What contract code preserves about the records of contract `n`. -/
structure Kept (N : Str → Prop) (n : Str) (d d' : Driver) : Prop where
  disk : d'.disk = d.disk
  bypass : d'.bypass = d.bypass
  deltas : d'.pendingDeltas = d.pendingDeltas
  cache : ∀ s ∈ records, dget d'.cache (makeKey n s) = dget d.cache (makeKey n s)
  fixed : HasCode n d → ∀ s ∈ fixedRecords,
    Dict.get? d'.pendingWrites (makeKey n s) = Dict.get? d.pendingWrites (makeKey n s)
  keys : ∀ k ∈ Dict.keys d'.pendingWrites, k ∈ Dict.keys d.pendingWrites ∨ UserKey N k ∨
    ∃ c s, N c ∧ s ∈ records ∧ k = makeKey c s

theorem find_of {d d' : Driver} {k : Str} (h1 : d'.disk = d.disk) (h2 : d'.bypass = d.bypass)
    (h3 : dget d'.cache k = dget d.cache k) (h4 : dget d'.pendingWrites k = dget d.pendingWrites k) : d'.find k = d.find k := by
  simp only [Driver.find, Driver.fromDisk, h1, h2, h3, h4]

theorem Kept.find {N : Str → Prop} {n : Str} {d d' : Driver} (h : Kept N n d d') (hc : HasCode n d) {s : Str}
    (hs : s ∈ fixedRecords) : d'.find (makeKey n s) = d.find (makeKey n s) :=
  find_of h.disk h.bypass (h.cache s (fixed_records hs)) (by simp only [dget, h.fixed hc s hs])

theorem code_fixed : py! "__code__" ∈ fixedRecords := by decide

theorem Kept.hasCode {N : Str → Prop} {n : Str} {d d' : Driver} (h : Kept N n d d') (hc : HasCode n d) : HasCode n d' := by
  obtain ⟨v, hv, hne⟩ := hc
  exact ⟨v, (h.find ⟨v, hv, hne⟩ code_fixed).trans hv, hne⟩

theorem Kept.refl (N : Str → Prop) (n : Str) (d : Driver) : Kept N n d d :=
  ⟨rfl, rfl, rfl, fun _ _ => rfl, fun _ _ _ => rfl, fun _ h => Or.inl h⟩

theorem Kept.trans {N : Str → Prop} {n : Str} {a b c : Driver} (h : Kept N n a b) (h' : Kept N n b c) : Kept N n a c :=
  ⟨h'.disk.trans h.disk, h'.bypass.trans h.bypass, h'.deltas.trans h.deltas, fun s hs => (h'.cache s hs).trans (h.cache s hs),
   fun hc s hs => (h'.fixed (h.hasCode hc) s hs).trans (h.fixed hc s hs),
   fun k hk => (h'.keys k hk).elim (h.keys k) Or.inr⟩

theorem Kept.reads (N : Str → Prop) (n : Str) (d : Driver) (r : Dict Str PyVal) : Kept N n d { d with pendingReads := r } :=
  ⟨rfl, rfl, rfl, fun _ _ => rfl, fun _ _ _ => rfl, fun _ h => Or.inl h⟩

theorem dget_set_ne {m : Dict Str PyVal} {k k' : Str} (v : PyVal) (h : k ≠ k') : dget (Dict.set m k v) k' = dget m k' := by
  simp only [dget, Dict.get?_set_ne _ _ h]

/-- Where a `set` can change the pending writes. -/
theorem Driver.set_pend (m : Meter) (d : Driver) (k : Str) (v : PyVal) (txn : Bool) :
    (∀ k', k' ≠ k → Dict.get? (d.set m k v txn).2.2.pendingWrites k' = Dict.get? d.pendingWrites k') ∧
    ∀ k' ∈ Dict.keys (d.set m k v txn).2.2.pendingWrites, k' ∈ Dict.keys d.pendingWrites ∨ k' = k := by
  constructor
  · intro k' hk
    exact ((Driver.set_frame m d k v txn).2.2.2.2.2 k' hk).1
  · intro k' hk'
    rcases hres : d.set m k v txn with ⟨r, m', d'⟩
    rw [hres] at hk'
    cases r with
    | error e =>
      have := (Driver.set_error hres).1
      rw [this] at hk'
      exact Or.inl hk'
    | ok u =>
      obtain ⟨w, _, _, h, _⟩ := Driver.set_ok hres
      rw [h] at hk'
      simp only [Dict.keys_set] at hk'
      split at hk'
      · exact Or.inl hk'
      · rcases List.mem_append.1 hk' with h | h
        · exact Or.inl h
        · exact Or.inr (by simpa using h)

/-- Contract code writing a declared variable. -/
theorem Kept.write {N : Str → Prop} {n : Str} (hn : ':' ∉ n) (m : Meter) (d : Driver) {k : Str} (hk : UserKey N k) (v : PyVal)
    (txn : Bool) : Kept N n d (d.set m k v txn).2.2 := by
  obtain ⟨h1, h2, h3, h4, _⟩ := Driver.set_frame m d k v txn
  obtain ⟨h5, h6⟩ := Driver.set_pend m d k v txn
  refine ⟨h1, h3, h4, fun s _ => by rw [h2], fun _ s hs => h5 _ (userKey_ne hk hn (fixed_records hs)).symm, fun k' hk' => ?_⟩
  rcases h6 k' hk' with h | rfl
  · exact Or.inl h
  · exact Or.inr (Or.inl hk)

theorem mutate_put (m : Dict Str PyVal) (key : Str) (v : PyVal) :
    (∀ k, k ≠ key → Dict.get? (if Dict.has m key then Dict.set m key v else m) k = Dict.get? m k) ∧
    Dict.keys (if Dict.has m key then Dict.set m key v else m) = Dict.keys m := by
  refine ⟨fun k hk => ?_, ?_⟩
  · split
    · exact Dict.get?_set_ne _ _ hk.symm
    · rfl
  · split
    · rename_i h
      rw [Dict.keys_set, if_pos]
      exact Dict.get?_isSome_iff.1 h
    · rfl

/-- In-place change of a value stored under a declared variable. -/
theorem Kept.mutate {N : Str → Prop} {n : Str} (hn : ':' ∉ n) (d : Driver) {k : Str} (hk : UserKey N k) (v : PyVal) (x y : Bool) :
    Kept N n d (d.mutate k v x y) := by
  have hne : ∀ s ∈ records, makeKey n s ≠ k := fun s hs => (userKey_ne hk hn hs).symm
  unfold Driver.mutate
  simp only
  split
  · exact ⟨rfl, rfl, rfl, fun s hs => by simp only [dget, (mutate_put d.cache k v).1 _ (hne s hs)], fun _ _ _ => rfl, fun _ h => Or.inl h⟩
  · exact ⟨rfl, rfl, rfl, fun _ _ => rfl, fun _ s hs => (mutate_put d.pendingWrites k v).1 _ (hne s (fixed_records hs)),
      fun k' h => Or.inl (by rw [← (mutate_put d.pendingWrites k v).2]; exact h)⟩

/-- One API call of contract code. -/
theorem Kept.act {H : Host} {N : Str → Prop} {n : Str} (hn : ':' ∉ n) {a : Action} (ha : UserAction N a) (w : World) :
    Kept N n w.driver (a.run H w).2.driver := by
  by_cases hg : ∃ n, a = .guarded n
  · obtain ⟨_, rfl⟩ := hg
    exact Kept.refl N n _
  · refine Steps.rel (R := fun s s' => Kept N n s.2 s'.2) (fun _ => Kept.refl _ _ _) (fun _ _ _ => Kept.trans)
      (fun s p hp => ?_) (Action.run_steps H w a fun n h => hg ⟨n, h⟩)
    cases p with
    | write k v txn =>
      refine Kept.write hn _ _ ?_ _ _
      cases a <;> first | exact absurd hp id | exact absurd ha id | skip
      · obtain ⟨_, rfl⟩ := hp
        obtain ⟨c, v, hc, hv, hx⟩ := ha
        exact ⟨c, v, [], hc, hv, Or.inl rfl, by rw [hx, List.append_nil]⟩
      · obtain ⟨_, s, rfl⟩ := hp
        obtain ⟨c, v, hc, hv, hx⟩ := ha
        exact ⟨c, v, ':' :: s, hc, hv, Or.inr ⟨s, rfl⟩, by rw [HashVar.entry, hx]⟩
      · obtain ⟨_, t, rfl⟩ := hp
        obtain ⟨c, v, hc, hv, hx⟩ := ha
        exact ⟨c, v, ':' :: t, hc, hv, Or.inr ⟨t, rfl⟩, by rw [hx]; simp⟩
    | mutate k v x y =>
      cases hp
      exact Kept.mutate hn _ ha _ _ _
    | read r => exact Kept.reads _ _ _ _
    | event e => exact ⟨rfl, rfl, rfl, fun _ _ => rfl, fun _ _ _ => rfl, fun _ h => Or.inl h⟩
    | _ => exact Kept.refl _ _ _

/-! ## The submission contract's own writes -/

/-- Like `Kept`, except that the records of `name` may be written. -/
structure KeptBut (N : Str → Prop) (name n : Str) (d d' : Driver) : Prop where
  disk : d'.disk = d.disk
  bypass : d'.bypass = d.bypass
  deltas : d'.pendingDeltas = d.pendingDeltas
  cache : d'.cache = d.cache
  fixed : n ≠ name → ∀ s ∈ fixedRecords,
    Dict.get? d'.pendingWrites (makeKey n s) = Dict.get? d.pendingWrites (makeKey n s)
  keys : ∀ k ∈ Dict.keys d'.pendingWrites, k ∈ Dict.keys d.pendingWrites ∨ UserKey N k ∨
    ∃ c s, N c ∧ s ∈ records ∧ k = makeKey c s

theorem KeptBut.refl (N : Str → Prop) (name n : Str) (d : Driver) : KeptBut N name n d d :=
  ⟨rfl, rfl, rfl, rfl, fun _ _ _ => rfl, fun _ h => Or.inl h⟩

theorem KeptBut.trans {N : Str → Prop} {name n : Str} {a b c : Driver} (h : KeptBut N name n a b) (h' : KeptBut N name n b c) :
    KeptBut N name n a c :=
  ⟨h'.disk.trans h.disk, h'.bypass.trans h.bypass, h'.deltas.trans h.deltas, h'.cache.trans h.cache,
   fun hc s hs => (h'.fixed hc s hs).trans (h.fixed hc s hs), fun k hk => (h'.keys k hk).elim (h.keys k) Or.inr⟩

theorem KeptBut.kept {N : Str → Prop} {name n : Str} {d d' : Driver} (h : KeptBut N name n d d')
    (hc : HasCode n d → n ≠ name) : Kept N n d d' :=
  ⟨h.disk, h.bypass, h.deltas, fun s _ => by rw [h.cache], fun hh => h.fixed (hc hh), h.keys⟩

/-- A record of `name` being written. -/
theorem KeptBut.rawSet {H : Host} {N : Str → Prop} {name n s : Str} (hN : N name) (hs : s ∈ records) (v : PyVal) (w : World) :
    KeptBut N name n w.driver ((Action.rawSet (makeKey name s) v).run H w).2.driver := by
  simp only [Action.run, World.md]
  obtain ⟨h1, h2, h3, h4, _⟩ := Driver.set_frame w.meter w.driver (makeKey name s) v false
  obtain ⟨h5, h6⟩ := Driver.set_pend w.meter w.driver (makeKey name s) v false
  refine ⟨h1, h3, h4, h2, fun hne t ht => h5 _ fun he => hne (record_inj (fixed_records ht) hs he).1, fun k' hk' => ?_⟩
  rcases h6 k' hk' with h | rfl
  · exact Or.inl h
  · exact Or.inr (Or.inr ⟨name, s, hN, hs, rfl⟩)

/-- A chain of such writes. -/
theorem KeptBut.perform {H : Host} {N : Str → Prop} {name n s : Str} (hN : N name) (hs : s ∈ records) (v : PyVal)
    {k : PyVal → Prog} (hk : ∀ v w, KeptBut N name n w.driver ((k v).run H w).2.driver) (w : World) :
    KeptBut N name n w.driver ((Verif.perform (.rawSet (makeKey name s) v) k).run H w).2.driver := by
  rw [run_perform]
  have h := KeptBut.rawSet (H := H) (n := n) hN hs v w
  rcases hr : (Action.rawSet (makeKey name s) v).run H w with ⟨r, w1⟩
  rw [hr] at h
  cases r with
  | error e => exact h
  | ok u => exact h.trans (hk u w1)

theorem rawGet_run (H : Host) (w : World) (k : Str) :
    (Action.rawGet k).run H w = ((w.driver.get k).1, { w with driver := (w.driver.get k).2 }) := rfl

theorem get_result (d : Driver) (k : Str) : (d.get k).1 = d.find k := by
  unfold Driver.get
  cases d.find k <;> rfl

theorem setContract_kept {H : Host} {N : Str → Prop} {T : Toolchain} {name n text : Str} {owner time developer : PyVal}
    (hN : N name) (w : World) : Kept N n w.driver ((setContract T name text owner time developer).run H w).2.driver := by
  unfold setContract
  rw [run_perform, rawGet_run, get_result]
  have hr : Kept N n w.driver (w.driver.get (codeKey name)).2 := by
    rw [get_reads]; exact Kept.reads _ _ _ _
  cases hf : w.driver.find (codeKey name) with
  | error e => exact hr
  | ok v =>
    simp only
    split
    · rename_i hv
      cases T.marshal text with
      | error e => exact hr
      | ok blob =>
        simp only
        have hb := KeptBut.perform (H := H) (N := N) (name := name) (n := n) hN (s := py! "__code__") (by decide) (.str text)
          (fun _ => KeptBut.perform hN (s := py! "__compiled__") (by decide) (.bytes blob)
            (fun _ => KeptBut.perform hN (s := py! "__owner__") (by decide) owner
              (fun _ => KeptBut.perform hN (s := py! "__submitted__") (by decide) time
                (fun _ => KeptBut.perform hN (s := py! "__developer__") (by decide) developer
                  (k := fun _ => .ret .none) (fun _ w => KeptBut.refl N name n w.driver)))))
          { w with driver := (w.driver.get (codeKey name)).2 }
        refine hr.trans (hb.kept ?_)
        rintro hc rfl
        obtain ⟨u, hu, hne⟩ := hc
        have : (w.driver.get (codeKey n)).2.find (codeKey n) = w.driver.find (codeKey n) := by
          rw [get_reads]; rfl
        rw [this, hf] at hu
        cases hu
        exact hne (by cases v <;> first | rfl | cases hv)
    · exact hr

theorem submit_kept {H : Host} {N : Str → Prop} {T : Toolchain} {name n code : Str} {owner developer : PyVal} {top : Prog}
    (hN : N name) (htop : ∀ w, Kept N n w.driver (top.run H w).2.driver) (w : World) :
    Kept N n w.driver ((submit T name code owner developer top).run H w).2.driver := by
  unfold submit
  rw [run_perform, rawGet_run]
  have hr : Kept N n w.driver (w.driver.get (codeKey name)).2 := by
    rw [get_reads]; exact Kept.reads _ _ _ _
  cases (w.driver.get (codeKey name)).1 with
  | error e => exact hr
  | ok v =>
    simp only
    split
    · cases T.parse name code with
      | error e => exact hr
      | ok text =>
        simp only
        rw [Prog.run_bind]
        refine (hr.trans (htop { w with driver := (w.driver.get (codeKey name)).2 })).trans ?_
        split
        · exact Kept.refl _ _ _
        · exact setContract_kept hN _
        · rw [run_perform]
          exact setContract_kept hN _
    · exact hr

theorem submitContract_kept {H : Host} {N : Str → Prop} {T : Toolchain} {name n code : Str} {owner : PyVal} {top : Prog}
    (hN : N name) (htop : ∀ w, Kept N n w.driver (top.run H w).2.driver) (w : World) :
    Kept N n w.driver ((submitContract H T name code owner top).run H w).2.driver := by
  unfold submitContract
  rw [run_perform]
  simp only [Action.run]
  split
  · exact Kept.refl _ _ _
  · rw [run_perform]
    simp only [Action.run]
    repeat' split
    all_goals first | exact submit_kept hN htop w | exact Kept.refl _ _ _

theorem changeDeveloper_kept {H : Host} {N : Str → Prop} {contract n : Str} {new : PyVal}
    (hN : N contract) (w : World) :
    Kept N n w.driver ((changeDeveloper contract new).run H w).2.driver := by
  unfold changeDeveloper
  rw [run_perform, rawGet_run]
  have hr : Kept N n w.driver (w.driver.get (developerKey contract)).2 := by
    rw [get_reads]; exact Kept.reads _ _ _ _
  cases (w.driver.get (developerKey contract)).1 with
  | error e => exact hr
  | ok v =>
    simp only
    rw [run_perform]
    simp only [Action.run]
    split
    · exact hr
    · refine hr.trans ?_
      rw [run_perform]
      have h : Kept N n (w.driver.get (developerKey contract)).2
          ((Action.rawSet (developerKey contract) new).run H { w with driver := (w.driver.get (developerKey contract)).2 }).2.driver := by
        simp only [Action.run, World.md, developerKey]
        obtain ⟨h1, h2, h3, h4, _⟩ := Driver.set_frame w.meter (w.driver.get (makeKey contract (py! "__developer__"))).2
          (makeKey contract (py! "__developer__")) new false
        obtain ⟨h5, h6⟩ := Driver.set_pend w.meter (w.driver.get (makeKey contract (py! "__developer__"))).2
          (makeKey contract (py! "__developer__")) new false
        refine ⟨h1, h3, h4, fun s _ => by rw [h2], fun _ t ht => h5 _ fun he => ?_, fun k' hk' => ?_⟩
        · have := (record_inj (fixed_records ht) (by decide) he).2
          subst this
          exact absurd ht (by decide)
        · rcases h6 k' hk' with h | rfl
          · exact Or.inl h
          · exact Or.inr (Or.inr ⟨contract, _, hN, by decide, rfl⟩)
      rcases hs : (Action.rawSet (developerKey contract) new).run H { w with driver := (w.driver.get (developerKey contract)).2 }
        with ⟨r, w1⟩
      rw [hs] at h
      cases r <;> exact h

/-- Every execution of contract code. -/
theorem Spec.UserProg.kept {H : Host} {T : Toolchain} {N : Str → Prop} {n : Str} (hn : ':' ∉ n) {p : Prog} (hp : UserProg H T N p) :
    ∀ w, Kept N n w.driver (p.run H w).2.driver := by
  induction hp with
  | ret v => intro w; exact Kept.refl _ _ _
  | raise e => intro w; exact Kept.refl _ _ _
  | act ha _ ih => intro w; exact (Kept.act hn ha w).trans (ih _ _)
  | @call c body k _ _ ihb ihk =>
    intro w
    simp only [Prog.run]
    obtain ⟨r, s, h⟩ := enter_frame c w
    have he : Kept N n w.driver (enter c w).2.driver := by rw [h]; exact Kept.reads _ _ _ _
    rcases hen : enter c w with ⟨r, w1⟩
    rw [hen] at he
    cases r with
    | error e => exact he.trans (ihk _ _)
    | ok u =>
      have hpop : (body.run H w1).2.popState.driver = (body.run H w1).2.driver := by
        obtain ⟨s, h⟩ := popState_frame (body.run H w1).2
        rw [h]
      simp only
      refine (he.trans (ihb w1)).trans ?_
      rw [← hpop]
      exact ihk _ _
  | @load name dyn body k _ _ ihb ihk =>
    intro w
    simp only [Prog.run]
    obtain ⟨r, h⟩ := importStart_frame H w name dyn
    have he : Kept N n w.driver (importStart H w name dyn).2.driver := by rw [h]; exact Kept.reads _ _ _ _
    rcases hen : importStart H w name dyn with ⟨r, w1⟩
    rw [hen] at he
    cases r with
    | error e => exact he.trans (ihk _ _)
    | ok f =>
      cases f with
      | contract =>
        have hb := ihb w1
        simp only
        rcases hbr : body.run H w1 with ⟨r, w2⟩
        rw [hbr] at hb
        cases r with
        | error e => exact (he.trans hb).trans (ihk _ _)
        | ok v => exact (he.trans hb).trans (ihk _ (w2.addLoaded name))
      | _ => exact he.trans (ihk _ _)
  | submit hN _ ih => intro w; exact submitContract_kept hN ih w
  | changeDeveloper hN => intro w; exact changeDeveloper_kept hN w

end Verif
