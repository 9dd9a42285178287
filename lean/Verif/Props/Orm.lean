import Verif.Props.Driver
import Verif.Proofs.Runtime
import Verif.Spec.Types
/-!
# Properties C55, C60: typed variables and foreign objects
-/
namespace Verif
open Spec

/-! ## C55: typed variables -/

/-- A value a variable declared with type `t` may hold. -/
def Spec.OfType (t : PyType) (v : PyVal) : Prop := v = .none ∨ InstanceOf t v

/-- **C55, a rejected set.** Setting a typed variable to something that is neither `None` nor an instance of the type
raises an assertion error and changes nothing at all. -/
theorem C55_reject (H : Host) (w : World) (x : Variable) (t : PyType) (v : PyVal) (ht : x.type = some t)
    (hv : ¬ OfType t v) : (Action.varSet x v).run H w = (.error .assertion, w) := by
  have h1 : v.isNone = false := by
    cases h : v.isNone with
    | false => rfl
    | true => exact absurd (.inl (isNone_iff.1 h)) hv
  have h2 : isInstance v t = false := by
    cases h : isInstance v t with
    | false => rfl
    | true => exact absurd (.inr (isInstance_iff.1 h)) hv
  simp only [Action.run, Variable.set, ht, h1, h2, and_self, if_true, World.md]
  rfl

/-- **C55, only these are rejected for their type.** A set of a value of the type does exactly what a set of an untyped
variable does. -/
theorem C55_accept (H : Host) (w : World) (x : Variable) (t : PyType) (v : PyVal) (ht : x.type = some t)
    (hv : OfType t v) : (Action.varSet x v).run H w = (Action.varSet { x with type := none } v).run H w := by
  have h : ¬ (v.isNone = false ∧ isInstance v t = false) := by
    rintro ⟨h1, h2⟩
    rcases hv with rfl | hv
    · cases h1
    · exact isInstance_false.1 h2 hv
  simp only [Action.run, Variable.set, ht, if_neg h]

/-- One step of a node: a set of the variable, or any call that does not write under its key. -/
inductive Spec.VarOp where
  | set (m : Meter) (v : PyVal)
  | other (c : Call)

/-- Perform it on variable `x`. -/
def Spec.VarOp.run (x : Variable) (d : Driver) : VarOp → Driver
  | .set m v => (x.set m d v).2.2
  | .other c => (c.run d).2

/-- The driver after a history. -/
def Spec.varAfter (x : Variable) (d : Driver) : List VarOp → Driver
  | [] => d
  | o :: os => varAfter x (o.run x d) os

/-- Values are storable; the other calls write plain keys other than the variable's. -/
def Spec.VarOp.OK (x : Variable) : VarOp → Prop
  | .set _ v => Storable v
  | .other (.set m k v txn) => k ≠ x.key ∧ (Call.set m k v txn).OK
  | .other c => c.OK

/-- The driver calls behind it. -/
def varCalls (x : Variable) (t : PyType) : List VarOp → List Call
  | [] => []
  | .set m v :: os =>
    if v.isNone = false ∧ isInstance v t = false then varCalls x t os else .set m x.key v true :: varCalls x t os
  | .other c :: os => c :: varCalls x t os

theorem varAfter_calls {x : Variable} {t : PyType} (ht : x.type = some t) (os : List VarOp) : ∀ d,
    varAfter x d os = after d (varCalls x t os) := by
  induction os with
  | nil => intro d; rfl
  | cons o os ih =>
    intro d
    cases o with
    | other c => exact ih _
    | set m v =>
      by_cases h : v.isNone = false ∧ isInstance v t = false
      · simp only [varAfter, varCalls, if_pos h, VarOp.run, Variable.set, ht]; exact ih _
      · simp only [varAfter, varCalls, if_neg h, VarOp.run, Variable.set, ht, after, Call.run]; exact ih _

theorem PyEq.isInstance {v w : PyVal} (h : PyEq v w) (t : PyType) : isInstance w t = isInstance v t := by
  cases v <;> cases w <;> simp only [PyEq] at h <;> first
    | (cases h; done)
    | (cases h; rfl)
    | (cases t <;> rfl)

theorem normValue_type {v w : PyVal} {t : PyType} (hf : t ≠ .float) (h : normValue v = .ok w) (hv : OfType t v) :
    OfType t w := by
  unfold normValue at h
  split at h
  · rcases hv with hv | hv
    · cases hv
    · rw [← isInstance_iff] at hv; cases t <;> first | exact absurd rfl hf | cases hv
  · cases h; exact hv

/-- What the pair of maps may hold under a key. -/
def mapsTyped (t : PyType) (k : Str) (s : Maps) : Prop :=
  OfType t (s.committed k) ∧ ∀ v, s.overlay k = some v → OfType t v

theorem mapsTyped_step {t : PyType} (hf : t ≠ .float) {k : Str} {s : Maps} (h : mapsTyped t k s) (b : Bool) (c : Call)
    (hc : ∀ m v txn, c = .set m k v txn → OfType t v) : mapsTyped t k (s.step b c) := by
  have hread : OfType t (s.read k) := by
    unfold Maps.read
    cases ho : s.overlay k with
    | none => exact h.1
    | some v => exact h.2 v ho
  cases c with
  | set m k' v txn =>
    simp only [Maps.step]
    split
    · split
      · rename_i w hw
        refine ⟨h.1, fun u hu => ?_⟩
        simp only [Maps.write] at hu
        split at hu
        · rename_i hk; subst hk; cases hu; exact normValue_type hf hw (hc _ _ _ rfl)
        · exact h.2 u hu
      · exact h
    · exact h
  | delete m k' =>
    simp only [Maps.step]
    split
    · refine ⟨h.1, fun u hu => ?_⟩
      simp only [Maps.write] at hu
      split at hu
      · cases hu; exact .inl rfl
      · exact h.2 u hu
    · exact h
  | commit => exact ⟨hread, fun v hv => by cases hv⟩
  | hardApply n => exact ⟨hread, fun v hv => by cases hv⟩
  | rollback => exact ⟨h.1, fun v hv => by cases hv⟩
  | flushCache => exact ⟨h.1, fun v hv => by cases hv⟩
  | _ => exact h

theorem mapsTyped_after {t : PyType} (hf : t ≠ .float) {k : Str} (cs : List Call)
    (hc : ∀ c ∈ cs, ∀ m v txn, c = .set m k v txn → OfType t v) : ∀ {s : Maps} (d : Driver), mapsTyped t k s →
    mapsTyped t k (s.after d cs) := by
  induction cs with
  | nil => intro s d h; exact h
  | cons c cs ih =>
    intro s d h
    exact ih (fun c' h' => hc c' (by simp [h'])) _ (mapsTyped_step hf h _ c (hc c (by simp)))

theorem varCalls_ok {x : Variable} {t : PyType} (hk : PlainKey x.key) (os : List VarOp) (h : ∀ o ∈ os, o.OK x) :
    (∀ c ∈ varCalls x t os, c.OK) ∧ ∀ c ∈ varCalls x t os, ∀ m v txn, c = .set m x.key v txn → OfType t v := by
  induction os with
  | nil => simp [varCalls]
  | cons o os ih =>
    have ih := ih (fun o' h' => h o' (by simp [h']))
    have ho := h o (by simp)
    cases o with
    | set m v =>
      simp only [varCalls]
      split
      · exact ih
      · rename_i hi
        constructor
        · intro c hc
          rcases List.mem_cons.1 hc with rfl | hc
          · exact ⟨hk, ho⟩
          · exact ih.1 c hc
        · intro c hc
          rcases List.mem_cons.1 hc with rfl | hc
          · intro m' v' txn' he
            cases he
            by_cases h1 : v = .none
            · exact .inl h1
            · right
              cases h2 : isInstance v t with
              | true => exact isInstance_iff.1 h2
              | false =>
                refine absurd ⟨?_, h2⟩ hi
                cases h3 : v.isNone with
                | false => rfl
                | true => exact absurd (isNone_iff.1 h3) h1
          · exact ih.2 c hc
    | other c0 =>
      simp only [varCalls]
      have hok : c0.OK := by cases c0 <;> first | exact ho.2 | exact ho
      constructor
      · intro c hc
        rcases List.mem_cons.1 hc with rfl | hc
        · exact hok
        · exact ih.1 c hc
      · intro c hc
        rcases List.mem_cons.1 hc with rfl | hc
        · intro m v txn he
          subst he
          exact absurd rfl ho.1
        · exact ih.2 c hc

/-- **C55, histories.** Start from any readable disk on which the variable's entry is empty or of its type. After any
history of sets of the variable (of any storable values, of any type) and any other driver calls that do not write its
key (other writes, deletions even of this key, commits, hard applies, rollbacks, cache flushes and evictions), reading the variable gives
its default, or an instance of its type. Not for the type `float` (`C55_refuted`) and values that are not storable,
such as tuples. -/
theorem C55_history {disk : Disk} (h : Readable disk) {x : Variable} {t : PyType} (ht : x.type = some t)
    (hf : t ≠ .float) (hk : PlainKey x.key) (h0 : ∀ v, disk.get (locOf x.key) = .ok v → OfType t v)
    (os : List VarOp) (hos : ∀ o ∈ os, o.OK x) :
    ∃ v, (x.get (varAfter x (.open disk) os)).1 = .ok v ∧ (v = x.default ∨ InstanceOf t v) := by
  obtain ⟨hc1, hc2⟩ := varCalls_ok (t := t) hk os hos
  have hm0 : mapsTyped t x.key (Maps.ofDisk disk) := by
    refine ⟨?_, fun v hv => by cases hv⟩
    simp only [Maps.ofDisk]
    cases hg : disk.get (locOf x.key) with
    | ok w => exact h0 w hg
    | error e => exact .inl rfl
  have hm := mapsTyped_after hf _ hc2 (.open disk) hm0
  obtain ⟨w, hw1, hw2⟩ := C17_refines h (varCalls x t os) hc1 hk
  have hr : OfType t ((Maps.after (Maps.ofDisk disk) (.open disk) (varCalls x t os)).readDeferred x.key) := by
    unfold Maps.readDeferred
    split
    · exact hm.1
    · rename_i v _ ho; exact hm.2 v ho
    · exact hm.1
  have hw : OfType t w := by
    rcases hr with hr | hr
    · rw [hr] at hw2; exact .inl hw2.none_eq
    · right; rw [← isInstance_iff, hw2.isInstance, isInstance_iff]; exact hr
  rw [varAfter_calls ht]
  unfold Variable.get
  cases hg : (after (Driver.open disk) (varCalls x t os)).get x.key with
  | mk r d =>
    rw [hg] at hw1
    simp only at hw1
    subst hw1
    rcases hw with rfl | hw
    · exact ⟨_, rfl, .inl rfl⟩
    · have : w.isNone = false := by cases w <;> first | rfl | (cases t <;> rw [← isInstance_iff] at hw <;> cases hw)
      exact ⟨w, by simp [this], .inr hw⟩

/-- A non-trivial case: an `int` variable, set to 5, to a string (rejected), committed, deleted, and read. -/
example : let x := Variable.make (py! "con_a") (py! "n") (some .int) (.int 7)
    let os : List VarOp := [.set {} (.int 5), .other .commit, .set {} (.str (py! "no")), .other (.get x.key)]
    (∀ o ∈ os, o.OK x) ∧ (x.get (varAfter x (.open []) os)).1 = .ok (.int 5) := by
  refine ⟨?_, by rfl⟩
  intro o ho
  simp only [List.mem_cons, List.not_mem_nil, or_false] at ho
  rcases ho with rfl | rfl | rfl | rfl <;> simp [VarOp.OK, Storable, Call.OK]

/-- **C55 is false for `float`, and for tuples.** A variable of type `float` set to `1.5` holds a decimal, which is not a
float, at once; one of type `tuple` holds a list after a commit and an eviction. -/
theorem C55_refuted :
    (let x := Variable.make (py! "con_a") (py! "f") (some .float)
     let d := varAfter x (.open []) [.set {} (.flt (.lit false 1 ['5'] none))]
     ((x.get d).1.map fun v => decide (InstanceOf .decimal v ∧ ¬ InstanceOf .float v)) = .ok true) ∧
    (let x := Variable.make (py! "con_a") (py! "f") (some .tuple)
     let d := varAfter x (.open []) [.set {} (.tuple [.int 1]), .other .commit, .other (.evict fun _ => false)]
     ((x.get d).1.map fun v => decide (InstanceOf .list v ∧ ¬ InstanceOf .tuple v)) = .ok true) := by
  refine ⟨by decide +kernel, by decide +kernel⟩

/-! ## C60: foreign objects -/

/-- **C60, no writes.** Whatever the state, every writing operation on a foreign variable or hash raises and changes
nothing (not even the meter). -/
theorem C60_readonly (H : Host) (w : World) (c n : Str) (ix : Index) (args : List Comp) (v : PyVal) :
    (Action.foreignVarSet (foreignVariable c n) v).run H w = (.error .referenceError, w) ∧
    (Action.foreignHashSet (foreignHash c n) ix v).run H w = (.error .referenceError, w) ∧
    (Action.foreignHashClear (foreignHash c n) args).run H w = (.error .exception, w) := ⟨rfl, rfl, rfl⟩

/-- Only the record of what was read may differ. -/
def Spec.SameButReads (w w' : World) : Prop :=
  w' = { w with driver := { w.driver with pendingReads := w'.driver.pendingReads } }

/-- **C60, reads change nothing.** Reading a foreign variable, an entry of a foreign hash, or listing a foreign hash changes
nothing but the record of reads. -/
theorem C60_reads (H : Host) (w : World) (c n : Str) (ix : Index) (args : List Comp) :
    SameButReads w ((Action.varGet (foreignVariable c n)).run H w).2 ∧
    SameButReads w ((Action.hashGet (foreignHash c n) ix).run H w).2 ∧
    SameButReads w ((Action.hashAll (foreignHash c n) args).run H w).2 ∧
    SameButReads w ((Action.hashItems (foreignHash c n) args).run H w).2 := by
  unfold SameButReads
  refine ⟨?_, ?_, ?_, ?_⟩
  · simp only [Action.run, World.rd]; rw [← var_get_reads]
  · simp only [Action.run, World.rd]; rw [← hash_get_reads]
  · simp only [Action.run, World.rd]; rw [← hash_all_reads]
  · simp only [Action.run, World.rd]; rw [← hash_items_reads]

/-- **C60, the owner's values.** After the owner's contract has set its variable (an entry of its hash) to a value,
reading it through a foreign variable (hash) in any other contract gives that value (a float as the decimal of its
text); and in every state a foreign read equals the owner's read, if the owner declares no default value. -/
theorem C60_values (H : Host) (w w' : World) (c n : Str) (t : Option PyType) (ix : Index) (v : PyVal)
    (hv : v ≠ .none) (hb : w.driver.bypass = false) :
    (∀ dflt, (Action.varSet (Variable.make c n t dflt) v).run H w = (.ok .none, w') →
      ∃ u, normValue v = .ok u ∧ ((Action.varGet (foreignVariable c n)).run H w').1 = .ok u) ∧
    (Action.varGet (foreignVariable c n)).run H w = (Action.varGet (Variable.make c n t)).run H w ∧
    (Action.hashGet (foreignHash c n) ix).run H w = (Action.hashGet (HashVar.make c n) ix).run H w := by
  refine ⟨fun dflt h => ?_, rfl, rfl⟩
  have hset : ∃ m', w.driver.set w.meter (makeKey c n) v true = (.ok (), m', w'.driver) := by
    simp only [Action.run, World.md, Variable.set, Variable.make] at h
    cases t with
    | none =>
      simp only at h
      cases hs : w.driver.set w.meter (makeKey c n) v true with
      | mk a b =>
        rw [hs] at h
        cases a with
        | error e => cases h
        | ok x => cases h; exact ⟨_, rfl⟩
    | some t =>
      simp only at h
      split at h
      · cases h
      · cases hs : w.driver.set w.meter (makeKey c n) v true with
        | mk a b =>
          rw [hs] at h
          cases a with
          | error e => cases h
          | ok x => cases h; exact ⟨_, rfl⟩
  obtain ⟨m', hset⟩ := hset
  obtain ⟨u, hu, hg⟩ := C16_set hb hset hv
  refine ⟨u, hu, ?_⟩
  have hn : u.isNone = false := by
    cases h0 : u.isNone with
    | false => rfl
    | true => exact absurd (normValue_none hu (isNone_iff.1 h0)) hv
  simp only [Action.run, World.rd, Variable.get, foreignVariable]
  cases hg' : w'.driver.get (makeKey c n) with
  | mk a d =>
    rw [hg'] at hg
    simp only at hg
    subst hg
    simp [hn]

/-- A non-trivial case: the owner stores 5, a foreign variable reads 5. -/
example (H : Host) : let x := Variable.make (py! "con_a") (py! "n") (some .int) (.int 7)
    let w : World := { driver := .open [] }
    ((Action.varSet x (.int 5)).run H w).1 = .ok .none ∧
    ((Action.varGet (foreignVariable (py! "con_a") (py! "n"))).run H ((Action.varSet x (.int 5)).run H w).2).1 =
      .ok (.int 5) := ⟨rfl, rfl⟩

/-- **C60 is false for default values**: what the owner declares as default is not seen through a foreign variable or
hash. -/
theorem C60_refuted (H : Host) : let w : World := { driver := .open [] }
    ((Action.varGet (Variable.make (py! "con_a") (py! "n") none (.int 7))).run H w).1 = .ok (.int 7) ∧
    ((Action.varGet (foreignVariable (py! "con_a") (py! "n"))).run H w).1 = .ok .none ∧
    ((Action.hashGet (HashVar.make (py! "con_a") (py! "h") (.int 7)) (.one (.str (py! "x")))).run H w).1 = .ok (.int 7) ∧
    ((Action.hashGet (foreignHash (py! "con_a") (py! "h")) (.one (.str (py! "x")))).run H w).1 = .ok .none :=
  ⟨rfl, rfl, rfl, rfl⟩

end Verif
