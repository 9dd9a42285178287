import Verif.Spec.Lock
import Mathlib.Logic.Function.Iterate
/-! # C84: disk calls from several threads -/
namespace Verif
open Spec (Returned oneByOne alone)

/-! ### One call: its steps do what the call alone does -/

/-- One step of a call. -/
def oneStep : Disk × List Micro → Disk × List Micro
  | (d, []) => (d, [])
  | (d, m :: r) => m.run d r

/-- All remaining steps. -/
def finishAll : List Micro → Disk → Disk
  | [], d => d
  | .op o :: r, d => finishAll r (d.apply o)
  | .delOrStop l :: r, d => if (d.attrs l).value = none then d else finishAll r (d.apply (.delValue l))

theorem finishAll_oneStep (x : Disk × List Micro) : finishAll (oneStep x).2 (oneStep x).1 = finishAll x.2 x.1 := by
  obtain ⟨d, _ | ⟨_ | _, r⟩⟩ := x
  · rfl
  · rfl
  · simp only [oneStep, Micro.run, finishAll]
    split <;> rfl

theorem finishAll_iter (k : Nat) (x : Disk × List Micro) : finishAll (oneStep^[k] x).2 (oneStep^[k] x).1 = finishAll x.2 x.1 := by
  induction k with
  | zero => rfl
  | succ k ih => rw [Function.iterate_succ_apply', finishAll_oneStep, ih]

theorem attrs_set (d : Disk) (l l' : Loc) (a : Attrs) : Disk.attrs (Dict.set d l a) l' = if l = l' then a else d.attrs l' := by
  unfold Disk.attrs
  rw [Dict.get?_set]
  split <;> rfl

theorem finishAll_alone (c : DiskCall) (d : Disk) (l : Loc) : Dict.get? (finishAll c.micros d) l = Dict.get? (alone d c) l := by
  cases c with
  | set k text block =>
    by_cases h : k = l
    · subst h
      cases text <;> simp [DiskCall.micros, Disk.setOps, finishAll, Disk.apply, alone, attrs_set]
    · cases text <;> simp [DiskCall.micros, Disk.setOps, finishAll, Disk.apply, alone, Dict.get?_set, h]
  | delete k =>
    simp only [DiskCall.micros, finishAll, alone]
    split
    · rfl
    · by_cases h : k = l
      · subst h; simp [Disk.apply, attrs_set]
      · simp [Disk.apply, Dict.get?_set, h]

/-- The value a reader sees while the call runs: the old one, none, or the new one. -/
theorem value_iter (c : DiskCall) (d : Disk) (k : Nat) :
    (Disk.attrs (oneStep^[k] (d, c.micros)).1 c.loc).value = (d.attrs c.loc).value ∨
    (Disk.attrs (oneStep^[k] (d, c.micros)).1 c.loc).value = none ∨
    (Disk.attrs (oneStep^[k] (d, c.micros)).1 c.loc).value = ((alone d c).attrs c.loc).value := by
  have hfin : ∀ (e : Disk) (n : Nat), oneStep^[n] (e, []) = (e, []) := fun e n => by
    induction n with
    | zero => rfl
    | succ n ih => rw [Function.iterate_succ_apply]; exact ih
  cases c with
  | set l text block =>
    cases text with
    | none =>
      match k with
      | 0 => exact Or.inl rfl
      | 1 => left; simp [DiskCall.micros, Disk.setOps, oneStep, Micro.run, Disk.apply, DiskCall.loc, attrs_set]
      | 2 => right; left; simp [DiskCall.micros, Disk.setOps, oneStep, Micro.run, Disk.apply, DiskCall.loc, attrs_set]
      | 3 => right; left; simp [DiskCall.micros, Disk.setOps, oneStep, Micro.run, Disk.apply, DiskCall.loc, attrs_set]
      | 4 => right; left; simp [DiskCall.micros, Disk.setOps, oneStep, Micro.run, Disk.apply, DiskCall.loc, attrs_set]
      | n + 5 =>
        right; left
        rw [Function.iterate_add_apply]
        simp [DiskCall.micros, Disk.setOps, oneStep, Micro.run, Disk.apply, DiskCall.loc, attrs_set, hfin]
    | some t =>
      match k with
      | 0 => exact Or.inl rfl
      | 1 => left; simp [DiskCall.micros, Disk.setOps, oneStep, Micro.run, Disk.apply, DiskCall.loc, attrs_set]
      | 2 => right; left; simp [DiskCall.micros, Disk.setOps, oneStep, Micro.run, Disk.apply, DiskCall.loc, attrs_set]
      | 3 => right; right; simp [DiskCall.micros, Disk.setOps, oneStep, Micro.run, Disk.apply, DiskCall.loc, attrs_set, alone]
      | 4 => right; right; simp [DiskCall.micros, Disk.setOps, oneStep, Micro.run, Disk.apply, DiskCall.loc, attrs_set, alone]
      | 5 => right; right; simp [DiskCall.micros, Disk.setOps, oneStep, Micro.run, Disk.apply, DiskCall.loc, attrs_set, alone]
      | n + 6 =>
        right; right
        rw [Function.iterate_add_apply]
        simp [DiskCall.micros, Disk.setOps, oneStep, Micro.run, Disk.apply, DiskCall.loc, attrs_set, hfin, alone]
  | delete l =>
    by_cases hv : (d.attrs l).value = none
    · match k with
      | 0 => exact Or.inl rfl
      | n + 1 => left; simp [DiskCall.micros, oneStep, Micro.run, DiskCall.loc, hv, hfin]
    · match k with
      | 0 => exact Or.inl rfl
      | 1 => right; left; simp [DiskCall.micros, oneStep, Micro.run, DiskCall.loc, hv, Disk.apply, attrs_set]
      | n + 2 =>
        right; left
        rw [Function.iterate_add_apply]
        simp [DiskCall.micros, oneStep, Micro.run, DiskCall.loc, hv, Disk.apply, attrs_set, hfin]

/-! ### Steps are local -/

/-- The place a step touches. -/
def Micro.loc : Micro → Loc
  | .op o => o.loc
  | .delOrStop l => l

/-- Same groups and attributes in a file. -/
def Agree (f : Str) (d e : Disk) : Prop := ∀ l : Loc, l.1 = f → Dict.get? d l = Dict.get? e l

theorem Agree.attrs {f : Str} {d e : Disk} (h : Agree f d e) {l : Loc} (hl : l.1 = f) : d.attrs l = e.attrs l := by
  unfold Disk.attrs; rw [h l hl]

theorem Agree.set {f : Str} {d e : Disk} (h : Agree f d e) (l : Loc) (a : Attrs) : Agree f (Dict.set d l a) (Dict.set e l a) := by
  intro l' hl'
  rw [Dict.get?_set, Dict.get?_set, h l' hl']

theorem Agree.apply {f : Str} {d e : Disk} (h : Agree f d e) (o : DiskOp) (ho : o.loc.1 = f) : Agree f (d.apply o) (e.apply o) := by
  cases o <;> simp only [DiskOp.loc] at ho <;> simp only [Disk.apply, h.attrs ho] <;> exact h.set _ _

theorem Agree.run {f : Str} {d e : Disk} (h : Agree f d e) (m : Micro) (hm : m.loc.1 = f) (r : List Micro) :
    Agree f (m.run d r).1 (m.run e r).1 ∧ (m.run d r).2 = (m.run e r).2 := by
  cases m with
  | op o => exact ⟨h.apply o hm, rfl⟩
  | delOrStop l =>
    simp only [Micro.run, h.attrs (l := l) hm]
    split
    · exact ⟨h, rfl⟩
    · exact ⟨h.apply (.delValue l) hm, rfl⟩

theorem apply_other (d : Disk) (o : DiskOp) {l : Loc} (h : o.loc ≠ l) : Dict.get? (d.apply o) l = Dict.get? d l := by
  cases o <;> exact Dict.get?_set_ne _ _ h

theorem run_other (d : Disk) (m : Micro) (r : List Micro) {l : Loc} (h : m.loc ≠ l) : Dict.get? (m.run d r).1 l = Dict.get? d l := by
  cases m with
  | op o => exact apply_other d o h
  | delOrStop k =>
    simp only [Micro.run]
    split
    · rfl
    · exact apply_other d (.delValue k) h

theorem micros_loc (c : DiskCall) : ∀ m ∈ c.micros, m.loc = c.loc := by
  cases c with
  | set l text b => cases text <;> simp [DiskCall.micros, Disk.setOps, Micro.loc, DiskOp.loc, DiskCall.loc]
  | delete l => simp [DiskCall.micros, Micro.loc, DiskOp.loc, DiskCall.loc]

theorem run_rest (d : Disk) (m : Micro) (r : List Micro) : ∀ m' ∈ (m.run d r).2, m' ∈ r := by
  cases m with
  | op o => exact fun _ h => h
  | delOrStop l =>
    simp only [Micro.run]
    split
    · exact fun _ h => by cases h
    · exact fun _ h => h

theorem iter_loc (c : DiskCall) (d : Disk) (k : Nat) :
    (∀ m ∈ (oneStep^[k] (d, c.micros)).2, m.loc = c.loc) ∧
    ∀ l, l ≠ c.loc → Dict.get? (oneStep^[k] (d, c.micros)).1 l = Dict.get? d l := by
  induction k with
  | zero => exact ⟨micros_loc c, fun _ _ => rfl⟩
  | succ k ih =>
    rw [Function.iterate_succ_apply']
    generalize oneStep^[k] (d, c.micros) = x at ih
    obtain ⟨e, _ | ⟨m, r⟩⟩ := x
    · exact ih
    · refine ⟨fun m' h => ih.1 m' (List.mem_cons_of_mem _ (run_rest e m r m' h)), fun l hl => ?_⟩
      have hm := ih.1 m (List.mem_cons_self ..)
      exact (run_other e m r (by rw [hm]; exact hl.symm)).trans (ih.2 l hl)

theorem alone_other (d : Disk) (c : DiskCall) {l : Loc} (h : l ≠ c.loc) : Dict.get? (alone d c) l = Dict.get? d l := by
  rw [← finishAll_alone]
  cases c with
  | set k text b => 
    rw [finishAll_alone]
    exact Dict.get?_set_ne _ _ (Ne.symm h)
  | delete k =>
    rw [finishAll_alone]
    simp only [alone]
    split
    · rfl
    · exact Dict.get?_set_ne _ _ (Ne.symm h)

/-! ### The invariant of schedules -/

/-- `base` is what the returned calls left. A lock is held exactly by the thread inside a call on its file; the file then is
as the first steps of that call alone leave it. Files nobody holds are as in `base`. -/
structure LockInv (s : Threads) (base : Disk) : Prop where
  held : ∀ f t, s.holder f = some t → ∃ c rest, s.status t = .inside c rest ∧ c.loc.1 = f
  inside : ∀ t c rest, s.status t = .inside c rest → s.holder c.loc.1 = some t ∧
    ∃ k, rest = (oneStep^[k] (base, c.micros)).2 ∧ Agree c.loc.1 s.disk (oneStep^[k] (base, c.micros)).1
  free : ∀ f, s.holder f = none → Agree f s.disk base

/-- The calls in progress, from the state. -/
def ThreadSt.call : ThreadSt → Option DiskCall
  | .idle => none
  | .waiting c | .inside c _ => some c

theorem upd_self {α β : Type} [DecidableEq α] (f : α → β) (a : α) (b : β) : upd f a b a = b := if_pos rfl
theorem upd_ne {α β : Type} [DecidableEq α] (f : α → β) {a x : α} (b : β) (h : x ≠ a) : upd f a b x = f x := if_neg h

/-- What an event adds to the returned calls. -/
def retOf (s : Threads) : SchedEvent → List DiskCall
  | .release t => (s.status t).call.toList
  | _ => []

theorem LockInv.next {s s' : Threads} {base : Disk} (h : LockInv s base) {e : SchedEvent} (he : s.next e = some s') :
    LockInv s' (oneByOne base (retOf s e)) := by
  cases e with
  | call t c =>
    simp only [Threads.next] at he
    split at he
    · rename_i hst
      cases he
      refine ⟨fun f u hu => ?_, fun u c' rest hu => ?_, h.free⟩
      · obtain ⟨c', rest, h1, h2⟩ := h.held f u hu
        refine ⟨c', rest, ?_, h2⟩
        have : u ≠ t := fun x => by rw [x, hst] at h1; cases h1
        exact (upd_ne _ _ this).trans h1
      · have : u ≠ t := fun x => by rw [x] at hu; exact absurd ((upd_self _ _ _).symm.trans hu) (by simp)
        exact h.inside u c' rest ((upd_ne _ _ this).symm.trans hu)
    · cases he
  | timeout t =>
    simp only [Threads.next] at he
    split at he
    · rename_i c hst
      cases he
      refine ⟨fun f u hu => ?_, fun u c' rest hu => ?_, h.free⟩
      · obtain ⟨c', rest, h1, h2⟩ := h.held f u hu
        refine ⟨c', rest, ?_, h2⟩
        have : u ≠ t := fun x => by rw [x, hst] at h1; cases h1
        exact (upd_ne _ _ this).trans h1
      · have : u ≠ t := fun x => by rw [x] at hu; exact absurd ((upd_self _ _ _).symm.trans hu) (by simp)
        exact h.inside u c' rest ((upd_ne _ _ this).symm.trans hu)
    · cases he
  | acquire t =>
    simp only [Threads.next] at he
    split at he
    · rename_i c hst
      split at he
      · rename_i hfree
        cases he
        refine ⟨fun f u hu => ?_, fun u c' rest hu => ?_, fun f hf => ?_⟩
        · by_cases hf : f = c.loc.1
          · rw [hf] at hu
            have := (upd_self s.holder c.loc.1 (some t)).symm.trans hu
            cases this
            exact ⟨c, c.micros, upd_self _ _ _, hf.symm⟩
          · have hu' := (upd_ne s.holder (some t) hf).symm.trans hu
            obtain ⟨c', rest, h1, h2⟩ := h.held f u hu'
            have : u ≠ t := fun x => by rw [x, hst] at h1; cases h1
            exact ⟨c', rest, (upd_ne _ _ this).trans h1, h2⟩
        · by_cases hut : u = t
          · subst hut
            have := (upd_self s.status u _).symm.trans hu
            cases this
            exact ⟨upd_self _ _ _, 0, rfl, h.free _ hfree⟩
          · obtain ⟨h1, h2⟩ := h.inside u c' rest ((upd_ne _ _ hut).symm.trans hu)
            refine ⟨?_, h2⟩
            have : c'.loc.1 ≠ c.loc.1 := fun x => by rw [x, hfree] at h1; cases h1
            exact (upd_ne _ _ this).trans h1
        · have hne : f ≠ c.loc.1 := fun x => by
            rw [x] at hf; exact absurd ((upd_self s.holder _ _).symm.trans hf) (by simp)
          exact h.free f ((upd_ne s.holder _ hne).symm.trans hf)
      · cases he
    · cases he
  | step t =>
    simp only [Threads.next] at he
    split at he
    · rename_i c m r hst
      cases he
      obtain ⟨hh, k, hr, hag⟩ := h.inside t c (m :: r) hst
      have hloc : m.loc = c.loc := (iter_loc c base k).1 m (by rw [← hr]; exact List.mem_cons_self ..)
      have hx : oneStep^[k + 1] (base, c.micros) = m.run (oneStep^[k] (base, c.micros)).1 r := by
        rw [Function.iterate_succ_apply']
        generalize oneStep^[k] (base, c.micros) = x at hr
        obtain ⟨e, ms⟩ := x
        subst hr
        rfl
      obtain ⟨g1, g2⟩ := hag.run m (by rw [hloc]) r
      have hother : ∀ f, f ≠ c.loc.1 → Agree f (m.run s.disk r).1 s.disk := fun f hf l hl =>
        run_other _ _ _ (by rw [hloc]; exact fun x => hf (by rw [x]; exact hl.symm))
      refine ⟨fun f u hu => ?_, fun u c' rest hu => ?_, fun f hf => ?_⟩
      · obtain ⟨c', rest, h1, h2⟩ := h.held f u hu
        by_cases hut : u = t
        · rw [hut, hst] at h1
          cases h1
          exact ⟨c, _, by rw [hut]; exact upd_self _ _ _, h2⟩
        · exact ⟨c', rest, (upd_ne _ _ hut).trans h1, h2⟩
      · by_cases hut : u = t
        · subst hut
          have := (upd_self s.status u _).symm.trans hu
          cases this
          refine ⟨hh, k + 1, ?_, ?_⟩
          · simp only [oneByOne, retOf, List.foldl_nil, hx]; exact g2
          · simp only [oneByOne, retOf, List.foldl_nil, hx]; exact g1
        · obtain ⟨h1, k', h2, h3⟩ := h.inside u c' rest ((upd_ne _ _ hut).symm.trans hu)
          have hne : c'.loc.1 ≠ c.loc.1 := fun x => by
            rw [x, hh] at h1; exact hut (Option.some.inj h1).symm
          exact ⟨h1, k', h2, fun l hl => (hother _ hne l hl).trans (h3 l hl)⟩
      · have hne : f ≠ c.loc.1 := fun x => by
          have hf' : s.holder f = none := hf
          rw [x, hh] at hf'; cases hf'
        exact fun l hl => (hother _ hne l hl).trans (h.free f hf l hl)
    · cases he
  | release t =>
    simp only [Threads.next] at he
    split at he
    · rename_i c hst
      cases he
      obtain ⟨hh, k, hr, hag⟩ := h.inside t c [] hst
      have hret : oneByOne base (retOf s (.release t)) = alone base c := by
        simp only [retOf, hst, ThreadSt.call, Option.toList, oneByOne, List.foldl_cons, List.foldl_nil]
      rw [hret]
      have hsame : Agree c.loc.1 s.disk (alone base c) := fun l hl => by
        rw [hag l hl, ← finishAll_alone]
        have := finishAll_iter k (base, c.micros)
        rw [← hr] at this
        exact congrArg (Dict.get? · l) this
      have hbase : ∀ f, f ≠ c.loc.1 → Agree f (alone base c) base := fun f hf l hl =>
        alone_other _ _ (fun x => hf (by rw [← x]; exact hl.symm))
      refine ⟨fun f u hu => ?_, fun u c' rest hu => ?_, fun f hf => ?_⟩
      · have hne : f ≠ c.loc.1 := fun x => by
          rw [x] at hu; exact absurd ((upd_self s.holder _ _).symm.trans hu) (by simp)
        have hu' := (upd_ne s.holder _ hne).symm.trans hu
        obtain ⟨c', rest, h1, h2⟩ := h.held f u hu'
        have : u ≠ t := fun x => by
          rw [x, hst] at h1; cases h1; exact hne h2.symm
        exact ⟨c', rest, (upd_ne _ _ this).trans h1, h2⟩
      · have hut : u ≠ t := fun x => by rw [x] at hu; exact absurd ((upd_self _ _ _).symm.trans hu) (by simp)
        obtain ⟨h1, k', h2, h3⟩ := h.inside u c' rest ((upd_ne _ _ hut).symm.trans hu)
        have hne : c'.loc.1 ≠ c.loc.1 := fun x => by
          rw [x, hh] at h1; exact hut (Option.some.inj h1).symm
        refine ⟨(upd_ne _ _ hne).trans h1, k', ?_⟩
        have : ∀ n, Agree c'.loc.1 (oneStep^[n] (base, c'.micros)).1 (oneStep^[n] (alone base c, c'.micros)).1 ∧
            (oneStep^[n] (base, c'.micros)).2 = (oneStep^[n] (alone base c, c'.micros)).2 := by
          intro n
          induction n with
          | zero => exact ⟨fun l hl => (hbase _ hne l hl).symm, rfl⟩
          | succ n ih =>
            rw [Function.iterate_succ_apply', Function.iterate_succ_apply']
            have hl := (iter_loc c' base n).1
            generalize oneStep^[n] (base, c'.micros) = x at ih hl
            generalize oneStep^[n] (alone base c, c'.micros) = y at ih
            obtain ⟨d1, r1⟩ := x
            obtain ⟨d2, r2⟩ := y
            obtain ⟨i1, rfl⟩ := ih
            cases r1 with
            | nil => exact ⟨i1, rfl⟩
            | cons m r => exact i1.run m (by rw [hl m (List.mem_cons_self ..)]) r
        exact ⟨h2.trans (this k').2, fun l hl => (h3 l hl).trans ((this k').1 l hl)⟩
      · by_cases hfc : f = c.loc.1
        · rw [hfc]; exact hsame
        · have hf' := (upd_ne s.holder _ hfc).symm.trans hf
          exact fun l hl => (h.free f hf' l hl).trans (hbase f hfc l hl).symm
    · cases he

theorem returned_next {s s' : Threads} {e : SchedEvent} (he : s.next e = some s') (cur : Nat → Option DiskCall)
    (hcur : ∀ t, s.status t ≠ .idle → (s.status t).call = cur t) (es : List SchedEvent) :
    ∃ cur', (∀ t, s'.status t ≠ .idle → (s'.status t).call = cur' t) ∧
      Spec.returned cur (e :: es) = retOf s e ++ Spec.returned cur' es := by
  cases e with
  | call t c =>
    simp only [Threads.next] at he
    split at he
    · cases he
      refine ⟨upd cur t (some c), fun u hu => ?_, rfl⟩
      by_cases hut : u = t
      · subst hut; simp only [upd_self, ThreadSt.call]
      · simp only [upd_ne _ _ hut] at hu ⊢; exact hcur u hu
    · cases he
  | acquire t =>
    simp only [Threads.next] at he
    split at he
    · rename_i c hst
      split at he
      · cases he
        refine ⟨cur, fun u hu => ?_, rfl⟩
        by_cases hut : u = t
        · subst hut
          simp only [upd_self]
          have := hcur u (by rw [hst]; simp)
          rw [hst] at this; exact this
        · simp only [upd_ne _ _ hut] at hu ⊢; exact hcur u hu
      · cases he
    · cases he
  | timeout t =>
    simp only [Threads.next] at he
    split at he
    · cases he
      refine ⟨cur, fun u hu => ?_, rfl⟩
      by_cases hut : u = t
      · subst hut; simp only [upd_self] at hu; exact absurd rfl hu
      · simp only [upd_ne _ _ hut] at hu ⊢; exact hcur u hu
    · cases he
  | step t =>
    simp only [Threads.next] at he
    split at he
    · rename_i c m r hst
      cases he
      refine ⟨cur, fun u hu => ?_, rfl⟩
      by_cases hut : u = t
      · subst hut
        simp only [upd_self]
        have := hcur u (by rw [hst]; simp)
        rw [hst] at this; exact this
      · simp only [upd_ne _ _ hut] at hu ⊢; exact hcur u hu
    · cases he
  | release t =>
    simp only [Threads.next] at he
    split at he
    · rename_i c hst
      cases he
      refine ⟨cur, fun u hu => ?_, ?_⟩
      · by_cases hut : u = t
        · subst hut; simp only [upd_self] at hu; exact absurd rfl hu
        · simp only [upd_ne _ _ hut] at hu ⊢; exact hcur u hu
      · have := hcur t (by rw [hst]; simp)
        simp only [Spec.returned, retOf, this]
    · cases he

theorem LockInv.play {s s' : Threads} {base : Disk} {es : List SchedEvent} (h : LockInv s base) (hs : s.play es = some s')
    (cur : Nat → Option DiskCall) (hcur : ∀ t, s.status t ≠ .idle → (s.status t).call = cur t) :
    LockInv s' (oneByOne base (Spec.returned cur es)) := by
  induction es generalizing s base cur with
  | nil => cases hs; exact h
  | cons e es ih =>
    simp only [Threads.play] at hs
    split at hs
    · rename_i s1 he
      obtain ⟨cur', h1, h2⟩ := returned_next he cur hcur es
      rw [h2]
      have := ih (h.next he) hs cur' h1
      unfold oneByOne at this ⊢
      rw [List.foldl_append]
      exact this
    · cases hs

theorem lockInv {d : Disk} {es : List SchedEvent} {s : Threads} (h : (Threads.init d).play es = some s) :
    LockInv s (oneByOne d (Returned es)) :=
  LockInv.play (base := d) ⟨fun _ _ h => (by cases h), fun _ _ _ h => (by cases h), fun _ _ _ _ => rfl⟩ h _ (fun _ h => absurd rfl h)

/-! ### C84 -/

/-- **C84.** However the threads are scheduled, and wherever the schedule is cut off: a place no call is writing holds exactly
what the calls that have returned leave there when made one after the other, in the order in which they returned. -/
theorem C84_oneByOne {d : Disk} {es : List SchedEvent} {s : Threads} (h : (Threads.init d).play es = some s) {l : Loc}
    (hl : ∀ t c rest, s.status t = .inside c rest → c.loc ≠ l) :
    Dict.get? s.disk l = Dict.get? (oneByOne d (Returned es)) l := by
  have hi := lockInv h
  cases hf : s.holder l.1 with
  | none => exact hi.free _ hf l rfl
  | some t =>
    obtain ⟨c, rest, h1, h2⟩ := hi.held _ _ hf
    obtain ⟨_, k, _, h4⟩ := hi.inside t c rest h1
    rw [h4 l h2.symm]
    exact (iter_loc c _ k).2 l (Ne.symm (hl t c rest h1))

/-- When no call is in progress the whole disk is that of the returned calls, one by one. -/
theorem C84_quiet {d : Disk} {es : List SchedEvent} {s : Threads} (h : (Threads.init d).play es = some s)
    (hq : ∀ t, s.status t = .idle) (l : Loc) : Dict.get? s.disk l = Dict.get? (oneByOne d (Returned es)) l :=
  C84_oneByOne h (fun t c rest hi => by rw [hq t] at hi; cases hi)

/-- **C84, reads.** Readers take no lock. At a place that is being written they see the value before the call, the value after it,
or none; and when the call has done all its steps, exactly what it leaves alone. -/
theorem C84_reads {d : Disk} {es : List SchedEvent} {s : Threads} (h : (Threads.init d).play es = some s) {t : Nat} {c : DiskCall}
    {rest : List Micro} (hc : s.status t = .inside c rest) :
    let before := oneByOne d (Returned es)
    (s.disk.get c.loc = before.get c.loc ∨ s.disk.get c.loc = .ok .none ∨ s.disk.get c.loc = (alone before c).get c.loc) ∧
    (rest = [] → Dict.get? s.disk c.loc = Dict.get? (alone before c) c.loc) := by
  intro before
  obtain ⟨_, k, h3, h4⟩ := (lockInv h).inside t c rest hc
  constructor
  · have ha := h4.attrs (l := c.loc) rfl
    unfold Disk.get
    rw [ha]
    rcases value_iter c before k with hv | hv | hv
    · left; rw [hv]
    · right; left; rw [hv]
    · right; right; rw [hv]
  · rintro rfl
    rw [h4 _ rfl, ← finishAll_alone]
    have := finishAll_iter k (before, c.micros)
    rw [← h3] at this
    exact congrArg (Dict.get? · c.loc) this

/-- **C84, exclusion.** Two threads are never inside calls on the same file. -/
theorem C84_exclusive {d : Disk} {es : List SchedEvent} {s : Threads} (h : (Threads.init d).play es = some s) {t t' : Nat}
    {c c' : DiskCall} {r r' : List Micro} (h1 : s.status t = .inside c r) (h2 : s.status t' = .inside c' r')
    (hf : c.loc.1 = c'.loc.1) : t = t' := by
  have a := ((lockInv h).inside t c r h1).1
  have b := ((lockInv h).inside t' c' r' h2).1
  rw [hf, b] at a
  exact (Option.some.inj a).symm

/-- **C84, no deadlock.** While some call is waiting or running, some thread can get its lock, do a step or return. -/
theorem C84_progress {d : Disk} {es : List SchedEvent} {s : Threads} (h : (Threads.init d).play es = some s) {t : Nat}
    (ht : s.status t ≠ .idle) :
    ∃ t' s', s.next (.acquire t') = some s' ∨ s.next (.step t') = some s' ∨ s.next (.release t') = some s' := by
  have run : ∀ u c rest, s.status u = .inside c rest →
      ∃ t' s', s.next (.acquire t') = some s' ∨ s.next (.step t') = some s' ∨ s.next (.release t') = some s' := by
    intro u c rest hu
    cases rest with
    | nil => exact ⟨u, _, Or.inr (Or.inr (by simp only [Threads.next, hu]; rfl))⟩
    | cons m r => exact ⟨u, _, Or.inr (Or.inl (by simp only [Threads.next, hu]; rfl))⟩
  cases hst : s.status t with
  | idle => exact absurd hst ht
  | inside c rest => exact run t c rest hst
  | waiting c =>
    cases hf : s.holder c.loc.1 with
    | none => exact ⟨t, _, Or.inl (by simp only [Threads.next, hst, hf, if_true]; rfl)⟩
    | some u =>
      obtain ⟨c', rest, h1, _⟩ := (lockInv h).held _ _ hf
      exact run u c' rest h1

theorem run_length (d : Disk) (m : Micro) (r : List Micro) : (m.run d r).2.length ≤ r.length := by
  cases m with
  | op o => exact Nat.le_refl _
  | delOrStop l =>
    simp only [Micro.run]
    split
    · exact Nat.zero_le _
    · exact Nat.le_refl _

theorem iter_length (c : DiskCall) (d : Disk) (k : Nat) : (oneStep^[k] (d, c.micros)).2.length ≤ 6 := by
  induction k with
  | zero =>
    cases c with
    | set l text b => cases text <;> simp [DiskCall.micros, Disk.setOps]
    | delete l => simp [DiskCall.micros]
  | succ k ih =>
    rw [Function.iterate_succ_apply']
    generalize oneStep^[k] (d, c.micros) = x at ih
    obtain ⟨e, _ | ⟨m, r⟩⟩ := x
    · exact ih
    · exact Nat.le_trans (run_length e m r) (Nat.le_trans (Nat.le_succ _) ih)

theorem run_out (n : Nat) : ∀ (s : Threads) (t : Nat) (c : DiskCall) (rest : List Micro), s.status t = .inside c rest →
    rest.length ≤ n → ∃ k s', k ≤ n ∧ s.play (List.replicate k (.step t) ++ [.release t]) = some s' ∧ s'.status t = .idle := by
  induction n with
  | zero =>
    intro s t c rest h hl
    rw [List.eq_nil_of_length_eq_zero (Nat.le_zero.1 hl)] at h
    exact ⟨0, _, Nat.le_refl _, by simp only [List.replicate, List.nil_append, Threads.play, Threads.next, h]; rfl, upd_self _ _ _⟩
  | succ n ih =>
    intro s t c rest h hl
    cases rest with
    | nil => exact ⟨0, _, Nat.zero_le _, by simp only [List.replicate, List.nil_append, Threads.play, Threads.next, h]; rfl, upd_self _ _ _⟩
    | cons m r =>
      obtain ⟨k, s', h1, h2, h3⟩ := ih { s with disk := (m.run s.disk r).1, status := upd s.status t (.inside c (m.run s.disk r).2) }
        t c (m.run s.disk r).2 (upd_self _ _ _) (Nat.le_trans (run_length _ _ _) (Nat.le_of_succ_le_succ hl))
      refine ⟨k + 1, s', Nat.succ_le_succ h1, ?_, h3⟩
      simp only [List.replicate, List.cons_append, Threads.play, Threads.next, h]
      exact h2

/-- **C84, locks are not kept.** A call that has its lock returns after at most six operations of its own thread, whatever the others do. -/
theorem C84_returns {d : Disk} {es : List SchedEvent} {s : Threads} (h : (Threads.init d).play es = some s) {t : Nat} {c : DiskCall}
    {rest : List Micro} (hc : s.status t = .inside c rest) :
    ∃ k s', k ≤ 6 ∧ s.play (List.replicate k (.step t) ++ [.release t]) = some s' ∧ s'.status t = .idle := by
  obtain ⟨_, k, h3, _⟩ := (lockInv h).inside t c rest hc
  exact run_out 6 s t c rest hc (by rw [h3]; exact iter_length c _ k)

/-! ### Concrete schedules -/

/-- Two places of one file and one of another. -/
def lockA : Loc := (py! "con", [py! "a"])
def lockB : Loc := (py! "con", [py! "b"])
def lockC : Loc := (py! "other", [py! "a"])

/-- Thread 1 writes `a`; thread 2 times out on the same file while 1 is inside, thread 3 writes another file meanwhile;
then 2 tries again and deletes `a`, and is cut off with one operation done. -/
def lockRun : List SchedEvent :=
  [.call 1 (.set lockA (some (py! "1")) 5), .call 2 (.set lockB (some (py! "2")) 6), .acquire 1, .call 3 (.set lockC (some (py! "3")) 7),
   .step 1, .acquire 3, .step 3, .step 1, .timeout 2, .step 3, .step 1, .step 3, .step 1, .step 3, .step 3, .step 1, .step 3, .step 1,
   .release 3, .release 1, .call 2 (.delete lockA), .acquire 2, .step 2]

/-- It is possible: the hypotheses are met. -/
example : ((Threads.init []).play lockRun).isSome = true := by decide +kernel
example : Returned lockRun = [.set lockC (some (py! "3")) 7, .set lockA (some (py! "1")) 5] := rfl

example : ((Threads.init []).play lockRun).map (fun s => (s.disk.get lockA, s.disk.get lockB, s.disk.get lockC)) =
    some (.ok .none, .ok .none, .ok (.int 3)) := rfl

/-- No call is writing `lockB` in the middle of a call on `lockA`. -/
example : ∃ s, (Threads.init []).play [.call 1 (.set lockA (some (py! "1")) 5), .acquire 1, .step 1] = some s ∧
    ∀ t c rest, s.status t = .inside c rest → c.loc ≠ lockB := by
  refine ⟨_, rfl, fun t c rest h => ?_⟩
  by_cases e : t = 1
  · subst e; cases h; decide
  · simp [upd, e, Threads.init] at h

/-- **C84, "a reader sees the value before or after": false.** While 2 replaces the value of `a` a reader finds none. -/
theorem C84_refuted : let es : List SchedEvent := [.call 1 (.set lockA (some (py! "1")) 5), .acquire 1, .step 1, .step 1]
    let d : Disk := [(lockA, { value := some (py! "0"), block := some 1 })]
    d.get lockA = .ok (.int 0) ∧ (alone d (.set lockA (some (py! "1")) 5)).get lockA = .ok (.int 1) ∧
    ((Threads.init d).play es).map (fun s => s.disk.get lockA) = some (.ok .none) := ⟨rfl, rfl, rfl⟩

/-- Six steps under the lock. -/
def lockWhole (t : Nat) (l : Loc) (x : Str) : List SchedEvent :=
  [.call t (.set l (some x) 0), .acquire t, .step t, .step t, .step t, .step t, .step t, .step t, .release t]

/-- **C84, "two commits do not mix": false.** The lock protects single values only: with two threads each writing `a` then `b`,
`a` can end up with the value of one and `b` with that of the other. -/
theorem C84_mix : let es := lockWhole 1 lockA (py! "1") ++ lockWhole 2 lockA (py! "2") ++ lockWhole 2 lockB (py! "2") ++ lockWhole 1 lockB (py! "1")
    ((Threads.init []).play es).map (fun s => (s.disk.get lockA, s.disk.get lockB)) = some (.ok (.int 2), .ok (.int 1)) := rfl

end Verif
