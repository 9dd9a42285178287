import Verif.Proofs.Stamps
import Verif.Props.Meter
/-!
# What a metered run does, an unmetered one does
-/
namespace Verif
open Verif.Lang

/-- A read that does not look at what has been recorded as read. -/
def Blind {α : Type} (f : Driver → α × Driver) : Prop :=
  ∀ (d : Driver) (r : Dict Str PyVal), ∃ r', f { d with pendingReads := r } = ((f d).1, { (f d).2 with pendingReads := r' })

theorem get_blind (k : Str) : Blind fun d => d.get k := by
  intro d r
  have h1 := d.get_frame k
  have h2 := Driver.get_frame { d with pendingReads := r } k
  refine ⟨(Driver.get { d with pendingReads := r } k).2.pendingReads, Prod.ext (h2.2.trans h1.2.symm) (h2.1.trans ?_)⟩
  simp only
  rw [h1.1]

theorem Blind.bind {α β : Type} {f : Driver → α × Driver} (hf : Blind f) {g : α → Driver → β × Driver} (hg : ∀ x, Blind (g x)) :
    Blind fun d => g (f d).1 (f d).2 := by
  intro d r
  obtain ⟨r1, h1⟩ := hf d r
  obtain ⟨r2, h2⟩ := hg (f d).1 (f d).2 r1
  exact ⟨r2, by simp only [h1]; exact h2⟩

theorem Blind.pure {α : Type} (x : α) : Blind fun d => (x, d) := fun _ r => ⟨r, rfl⟩

theorem Blind.of_eq {α : Type} {f g : Driver → α × Driver} (hf : Blind f) (h : ∀ d, g d = f d) : Blind g := by
  have : g = f := funext h
  rw [this]; exact hf

theorem getOwner_blind (c : Str) : Blind fun d => d.getOwner c :=
  ((get_blind (makeKey c (py! "__owner__"))).bind (g := fun r d => (match r with | .error e => .error e | .ok (.str []) => .ok .none | .ok v => .ok v, d))
    fun x => .pure _).of_eq fun d => by
      unfold Driver.getOwner
      rcases d.get (makeKey c (py! "__owner__")) with ⟨_ | v, _⟩
      · rfl
      · cases v with
        | str s => cases s <;> rfl
        | _ => rfl

theorem itemsFromDisk_blind (ks : List Str) : ∀ acc, Blind fun d => d.itemsFromDisk acc ks := by
  induction ks with
  | nil => intro acc; exact .pure _
  | cons k ks ih =>
    intro acc
    refine ((get_blind k).bind (g := fun r d => match r with | .error e => (.error e, d) | .ok v => d.itemsFromDisk (Dict.set acc k v) ks)
      fun x => ?_).of_eq fun d => ?_
    · cases x with
      | error e => exact .pure _
      | ok v => exact ih _
    · simp only [Driver.itemsFromDisk]
      rcases d.get k with ⟨_ | v, _⟩ <;> rfl

theorem items_blind (p : Str) : Blind fun d => d.items p := by
  intro d r
  exact itemsFromDisk_blind _ _ d r

theorem hash_items_blind (h : HashVar) (args : List Comp) : Blind fun d => h.items d args := by
  unfold HashVar.items
  cases h.prefixFor args with
  | error e => exact .pure _
  | ok p => exact items_blind p

theorem hash_all_blind (h : HashVar) (args : List Comp) : Blind fun d => h.all d args := by
  refine ((hash_items_blind h args).bind (g := fun r d => match r with
    | .error e => (.error e, d)
    | .ok _ => ((h.items d args).1.map Dict.values, (h.items d args).2)) fun x => ?_).of_eq fun d => ?_
  · cases x with
    | error e => exact .pure _
    | ok v => exact (hash_items_blind h args).bind (g := fun r d => (r.map Dict.values, d)) fun x => .pure _
  · unfold HashVar.all
    rcases h.items d args with ⟨_ | v, d1⟩
    · rfl
    · simp only
      rcases h.items d1 args with ⟨_ | v, d2⟩ <;> rfl

theorem find_readable {d : Driver} (h : Spec.Readable d.disk) (k : Str) : ∃ v, d.find k = .ok v := by
  unfold Driver.find Driver.fromDisk
  by_cases hb : d.bypass = true
  · rw [if_pos hb]
    exact h _
  · rw [if_neg hb]
    simp only
    generalize (if (dget d.pendingWrites k).isNone = true then dget d.cache k else dget d.pendingWrites k) = v
    by_cases hv : v.isNone = true
    · rw [if_pos hv]
      exact h _
    · rw [if_neg hv]
      exact ⟨v, rfl⟩

/-- A `set` that does not raise; the same `set` outside of a metered execution. -/
theorem set_off {m m1 m2 : Meter} (hm : m.started = false) {d d' : Driver} (hr : Spec.Readable d.disk) {k : Str} {v : PyVal} {txn : Bool}
    (h : d.set m1 k v txn = (.ok (), m2, d')) (r : Dict Str PyVal) :
    d'.disk = d.disk ∧ ∃ r', Driver.set m { d with pendingReads := r } k v txn = (.ok (), m, { d' with pendingReads := r' }) := by
  obtain ⟨x, hx, ⟨t, ht, _⟩, hd, _⟩ := Driver.set_ok h
  refine ⟨by rw [hd], ?_⟩
  obtain ⟨y, hy⟩ := find_readable (d := { d with pendingReads := r }) hr k
  obtain ⟨g1, g2⟩ := Driver.get_frame { d with pendingReads := r } k
  unfold Driver.set
  rw [ht]
  simp only
  rw [(Meter.off hm _ false 0 0).1]
  simp only
  by_cases hc : (dget r k).isNone = true
  · rw [if_pos hc]
    rw [hy] at g2
    rw [show Driver.get { d with pendingReads := r } k = (.ok y, (Driver.get { d with pendingReads := r } k).2) from Prod.ext g2 rfl]
    simp only
    rw [hx, g1]
    refine ⟨(Driver.get { d with pendingReads := r } k).2.pendingReads, ?_⟩
    rw [hd]
  · rw [if_neg hc]
    simp only
    rw [hx]
    refine ⟨r, ?_⟩
    rw [hd]

theorem deleteKeys_off {m : Meter} (hm : m.started = false) (ks : List Str) : ∀ {m1 m2 : Meter} {d d' : Driver}, Spec.Readable d.disk →
    deleteKeys m1 d ks = (.ok (), m2, d') → ∀ r, d'.disk = d.disk ∧
      ∃ r', deleteKeys m { d with pendingReads := r } ks = (.ok (), m, { d' with pendingReads := r' }) := by
  induction ks with
  | nil => intro m1 m2 d d' hr h r; cases h; exact ⟨rfl, r, rfl⟩
  | cons k ks ih =>
    intro m1 m2 d d' hr h r
    unfold deleteKeys at h ⊢
    rcases hd : d.delete m1 k with ⟨q, ma, da⟩
    rw [hd] at h
    cases q with
    | error e => cases h
    | ok u =>
      obtain ⟨e1, r1, h1⟩ := set_off hm hr (show d.set m1 k .none false = _ from hd) r
      obtain ⟨e2, r2, h2⟩ := ih (by rw [e1]; exact hr) h r1
      refine ⟨e2.trans e1, r2, ?_⟩
      rw [show Driver.delete m { d with pendingReads := r } k = _ from h1]
      exact h2

theorem chargeArgs_unmetered {m : Meter} (hm : m.started = false) (ps : List (Str × PyVal)) : ∀ {m1 m2 : Meter}, chargeArgs m1 ps = (.ok (), m2) →
    chargeArgs m ps = (.ok (), m) := by
  induction ps with
  | nil => intro m1 m2 h; rfl
  | cons p ps ih =>
    intro m1 m2 h
    obtain ⟨k, v⟩ := p
    unfold chargeArgs at h ⊢
    cases he : encode v with
    | error e => rw [he] at h; cases h
    | ok t =>
      rw [he] at h
      simp only at h ⊢
      rw [(Meter.off hm _ false 0 0).1]
      rcases hd : m1.deductWrite (utf8Len k + t.length) with ⟨q, ma⟩
      rw [hd] at h
      cases q with
      | error e => cases h
      | ok u => exact ih h

/-- The same process with the meter `m` and with something else recorded as read. -/
def Off (m : Meter) (w u : World) : Prop := ∃ r, u = { w with driver := { w.driver with pendingReads := r }, meter := m }

/-- The first run's result and disk; the second one does the same. -/
def OffRun {α : Type} (m : Meter) (w : World) (r s : α × World) : Prop := r.2.driver.disk = w.driver.disk ∧ s.1 = r.1 ∧ Off m r.2 s.2

variable {m : Meter}

theorem rd_off {w u : World} (h : Off m w u) {α : Type} {f : Driver → α × Driver} (hf : Blind f) (hd : ∀ d, (f d).2.disk = d.disk) :
    OffRun m w ((f w.driver).1, { w with driver := (f w.driver).2 }) ((f u.driver).1, { u with driver := (f u.driver).2 }) := by
  obtain ⟨r, rfl⟩ := h
  obtain ⟨r', h'⟩ := hf w.driver r
  refine ⟨hd _, by simp only; rw [h'], r', ?_⟩
  simp only
  rw [h']

theorem disk_of_reads {d d' : Driver} {r : Dict Str PyVal} (h : d' = { d with pendingReads := r }) : d'.disk = d.disk := by rw [h]

/-- **An API call that does not raise does the same when nothing is metered.** -/
theorem Action.off (hm : m.started = false) {H : Host} {w u w' : World} {a : Action} {v : PyVal} (hg : a.NotGuarded)
    (hr : Spec.Readable w.driver.disk) (h : a.run H w = (.ok v, w')) (hu : Off m w u) :
    w'.driver.disk = w.driver.disk ∧ ∃ u', a.run H u = (.ok v, u') ∧ Off m w' u' := by
  have hrd : ∀ {f : Driver → Except PyErr PyVal × Driver}, Blind f → (∀ d, (f d).2.disk = d.disk) → w.rd (f w.driver) = (.ok v, w') →
      w'.driver.disk = w.driver.disk ∧ ∃ u', u.rd (f u.driver) = (.ok v, u') ∧ Off m w' u' := by
    intro f hf hd h
    obtain ⟨h1, h2, h3⟩ := rd_off hu hf hd
    have e1 : (f w.driver).1 = .ok v := congrArg Prod.fst h
    have e2 : ({ w with driver := (f w.driver).2 } : World) = w' := congrArg Prod.snd h
    rw [← e2]
    exact ⟨h1, _, Prod.ext (h2.trans e1) rfl, h3⟩
  have hset : ∀ {k : Str} {x : PyVal} {txn : Bool}, w.md (w.driver.set w.meter k x txn) = (.ok v, w') →
      w'.driver.disk = w.driver.disk ∧ ∃ u', u.md (u.driver.set u.meter k x txn) = (.ok v, u') ∧ Off m w' u' := by
    intro k x txn h
    rcases hs : w.driver.set w.meter k x txn with ⟨q, m1, d1⟩
    rw [hs] at h
    cases q with
    | error e => cases h
    | ok y =>
      cases h
      obtain ⟨r, rfl⟩ := hu
      obtain ⟨e1, r1, h1⟩ := set_off hm hr hs r
      exact ⟨e1, _, by simp only; rw [h1]; rfl, r1, rfl⟩
  have same : ∀ {f : World → Except PyErr PyVal × World}, f w = (.ok v, w') →
      (∀ (d : Driver) (n : Meter), f { w with driver := d, meter := n } = ((f w).1, { (f w).2 with driver := d, meter := n })) →
      (f w).2.driver = w.driver →
      w'.driver.disk = w.driver.disk ∧ ∃ u', f u = (.ok v, u') ∧ Off m w' u' := by
    intro f h hf hd
    obtain ⟨r, rfl⟩ := hu
    rw [h] at hd
    simp only at hd
    refine ⟨by rw [hd], _, (hf _ _).trans (by rw [h]), r, ?_⟩
    simp only [hd]
  cases a with
  | line c op mem =>
    simp only [Action.run] at h ⊢
    rcases hl : w.meter.line c op mem with ⟨q, m1⟩
    rw [hl] at h
    cases q with
    | error e => cases h
    | ok x =>
      cases h
      obtain ⟨r, rfl⟩ := hu
      simp only
      rw [(Meter.off hm 0 c op mem).2]
      exact ⟨trivial, _, rfl, r, rfl⟩
  | guarded n => exact absurd hg id
  | varSet x val =>
    simp only [Action.run] at h ⊢
    unfold Variable.set at h ⊢
    split at h
    · split at h
      · cases h
      · rename_i t ht hc
        rw [if_neg hc]
        exact hset h
    · exact hset h
  | varGet x =>
    refine hrd (f := fun d => x.get d) ?_ (fun d => disk_of_reads (var_get_reads x d)) h
    refine ((get_blind x.key).bind (g := fun r d => (r.map fun v => if v.isNone then x.default else v, d)) fun _ => .pure _).of_eq fun d => ?_
    unfold Variable.get
    rcases d.get x.key with ⟨_ | _, _⟩ <;> rfl
  | hashSet hv ix val =>
    simp only [Action.run] at h ⊢
    unfold HashVar.setItem at h ⊢
    cases hvk : validateKey ix with
    | error e => rw [hvk] at h; cases h
    | ok s =>
      rw [hvk] at h
      exact hset h
  | hashGet hv ix =>
    refine hrd (f := fun d => hv.getItem d ix) ?_ (fun d => disk_of_reads (hash_get_reads hv d ix)) h
    unfold HashVar.getItem
    cases validateKey ix with
    | error e => exact .pure _
    | ok s =>
      refine ((get_blind (hv.entry s)).bind (g := fun r d => (match r with | .error e => .error e | .ok v => hashValue (if v.isNone then hv.default else v), d))
        fun _ => .pure _).of_eq fun d => ?_
      simp only
      rcases d.get (hv.entry s) with ⟨_ | _, _⟩ <;> rfl
  | hashAll hv args =>
    refine hrd (f := fun d => ((hv.all d args).1.map PyVal.list, (hv.all d args).2)) ?_ (fun d => disk_of_reads (hash_all_reads hv d args)) h
    exact (hash_all_blind hv args).bind (g := fun r d => (r.map PyVal.list, d)) fun _ => .pure _
  | hashItems hv args =>
    refine hrd (f := fun d => ((hv.items d args).1.map fun kvs => PyVal.dict (List.map (fun kv : Str × PyVal => (PyKey.str kv.1, kv.2)) kvs), (hv.items d args).2)) ?_
      (fun d => disk_of_reads (hash_items_reads hv d args)) h
    exact (hash_items_blind hv args).bind (g := fun r d => (r.map fun kvs => PyVal.dict (List.map (fun kv : Str × PyVal => (PyKey.str kv.1, kv.2)) kvs), d)) fun _ => .pure _
  | hashClear hv args =>
    simp only [Action.run] at h ⊢
    unfold HashVar.clear at h ⊢
    obtain ⟨r, rfl⟩ := hu
    obtain ⟨r1, hb⟩ := hash_items_blind hv args w.driver r
    have hdisk : (hv.items w.driver args).2.disk = w.driver.disk := disk_of_reads (hash_items_reads hv w.driver args)
    simp only at hb ⊢
    rw [hb]
    rcases hi : hv.items w.driver args with ⟨q, d⟩
    rw [hi] at h hdisk
    simp only at hdisk
    cases q with
    | error e => cases h
    | ok kvs =>
      simp only at h ⊢
      rcases hs : deleteKeys w.meter d (Dict.keys kvs) with ⟨q, m1, d1⟩
      rw [hs] at h
      cases q with
      | error e => cases h
      | ok y =>
        cases h
        obtain ⟨e1, r1, h1⟩ := deleteKeys_off hm _ (by rw [hdisk]; exact hr) hs r1
        rw [h1]
        exact ⟨e1.trans hdisk, _, rfl, r1, rfl⟩
  | foreignVarSet x v => simp only [Action.run, foreignVariableSet, World.md] at h; cases h
  | foreignHashSet hv ix v => simp only [Action.run, foreignHashSetItem, World.md] at h; cases h
  | foreignHashClear hv args => simp only [Action.run, Verif.foreignHashClear, World.md] at h; cases h
  | mutate key val x y =>
    simp only [Action.run] at h ⊢
    cases h
    obtain ⟨r, rfl⟩ := hu
    refine ⟨?_, _, rfl, (Driver.mutate { w.driver with pendingReads := r } key val x y).pendingReads, ?_⟩
    · unfold Driver.mutate
      simp only
      split <;> rfl
    · unfold Driver.mutate
      simp only
      split <;> rfl
  | newLog ev ps =>
    refine same (f := fun w => Verif.newLog w ev ps) h (fun d n => ?_) ?_
    · unfold Verif.newLog
      simp only
      split
      · rfl
      · split
        · rfl
        · split <;> rfl
    · simp only [Verif.newLog]
      repeat' split
      all_goals rfl
  | emit l data =>
    simp only [Action.run] at h ⊢
    obtain ⟨r, rfl⟩ := hu
    cases hl : w.logs[l]? with
    | none => rw [hl] at h; cases h
    | some lg =>
      rw [hl] at h
      simp only at h ⊢
      unfold emitEvent at h ⊢
      split at h
      · cases h
      · rename_i c1
        split at h
        · cases h
        · rename_i c2
          split at h
          · cases h
          · rename_i c3
            rw [if_neg c1, if_neg c2, if_neg c3]
            simp only at h ⊢
            rcases h1 : chargeArgs w.meter (selectArgs lg.params data true) with ⟨q, m1⟩
            rw [h1] at h
            cases q with
            | error e => cases h
            | ok x =>
              simp only at h
              rcases h2 : chargeArgs m1 (selectArgs lg.params data false) with ⟨q, m2⟩
              rw [h2] at h
              cases q with
              | error e => cases h
              | ok x =>
                cases h
                rw [chargeArgs_unmetered hm _ h1]
                simp only
                rw [chargeArgs_unmetered hm _ h2]
                exact ⟨rfl, _, rfl, r, rfl⟩
  | seed salt =>
    refine same (f := fun w => doSeed H w salt) h (fun d n => ?_) ?_
    · unfold doSeed; simp only; split <;> rfl
    · unfold doSeed; split <;> rfl
  | getrandbits k =>
    refine same (f := fun w => doGetrandbits H w k) h (fun d n => ?_) ?_
    · unfold doGetrandbits
      simp only
      split
      · rfl
      · split <;> rfl
    · unfold doGetrandbits
      simp only
      split
      · rfl
      · split <;> rfl
  | draw q =>
    refine same (f := fun w => doDraw H w q) h (fun d n => ?_) ?_
    · unfold doDraw; simp only; split <;> rfl
    · unfold doDraw; split <;> rfl
  | ownerOf name => exact hrd (f := fun d => d.get (makeKey name (py! "__owner__"))) (get_blind _) (fun d => disk_of_reads (get_reads d _)) h
  | rawGet key => exact hrd (f := fun d => d.get key) (get_blind _) (fun d => disk_of_reads (get_reads d _)) h
  | rawSet key val => exact hset h
  | _ =>
    simp only [Action.run] at h ⊢
    cases h
    obtain ⟨r, rfl⟩ := hu
    exact ⟨rfl, _, rfl, r, rfl⟩

/-! ### Calls and imports -/

theorem Off.refl (w : World) : Off w.meter w w := ⟨w.driver.pendingReads, rfl⟩

/-- What does nothing but read and so does the same. -/
structure Silent {α : Type} (f : World → α × World) : Prop where
  run : ∀ {m : Meter} {w u : World}, Off m w u → OffRun m w (f w) (f u)

theorem Silent.pure {α : Type} (x : α) : Silent fun w => (x, w) := ⟨fun h => ⟨rfl, rfl, h⟩⟩

theorem Silent.bind {α β : Type} {f : World → α × World} (hf : Silent f) {g : α → World → β × World} (hg : ∀ x, Silent (g x)) :
    Silent fun w => g (f w).1 (f w).2 := by
  refine ⟨fun {m w u} h => ?_⟩
  obtain ⟨a, b, c⟩ := hf.run h
  obtain ⟨a', b', c'⟩ := (hg (f w).1).run c
  simp only [b]
  exact ⟨a'.trans a, b', c'⟩

theorem Silent.of_eq {α : Type} {f g : World → α × World} (hf : Silent f) (h : ∀ w, g w = f w) : Silent g := by
  have : g = f := funext h
  rw [this]; exact hf

theorem Silent.read (k : Str) : Silent fun w => ((w.driver.get k).1, { w with driver := (w.driver.get k).2 }) :=
  ⟨fun h => rd_off h (get_blind k) fun d => disk_of_reads (get_reads d k)⟩

/-- What looks at no more than what is the same. -/
theorem Silent.look {α β : Type} {p : World → β} {f : β → World → α × World} (hp : ∀ {m w u}, Off m w u → p u = p w) (hf : ∀ x, Silent (f x)) :
    Silent fun w => f (p w) w := by
  refine ⟨fun {m w u} h => ?_⟩
  simp only [hp h]
  exact (hf _).run h

theorem lookup_quiet (H : Host) (name : Str) : Silent fun w => lookup H w name := by
  refine (Silent.look (α := Except PyErr Found) (p := World.loaded) (f := fun l w => if name ∈ l then (.ok .loaded, w)
    else if H.imported name then (.ok .host, w)
    else if '.' ∈ name then (.ok (if H.importable name then .host else .missing), w)
    else (fun (r : Except PyErr PyVal) (w : World) => ((match r with
      | .error e => .error e
      | .ok v => if v.isNone then .ok (if H.importable name then .host else .missing) else .ok .contract : Except PyErr Found), w))
      (w.driver.get (makeKey name (py! "__code__"))).1 { w with driver := (w.driver.get (makeKey name (py! "__code__"))).2 })
    (fun ⟨r, h⟩ => by rw [h]) fun l => ?_).of_eq fun w => ?_
  · by_cases h1 : name ∈ l
    · simp only [h1, if_true]; exact .pure _
    by_cases h2 : H.imported name = true
    · simp only [h1, h2, if_true, if_false]; exact .pure _
    by_cases h3 : '.' ∈ name
    · simp only [h1, h2, h3, if_true, if_false]; exact .pure _
    · simp only [if_neg h1, if_neg h2, if_neg h3]
      exact (Silent.read _).bind (g := fun r w => ((match r with
        | .error e => .error e
        | .ok v => if v.isNone then .ok (if H.importable name then .host else .missing) else .ok .contract : Except PyErr Found), w)) fun x => .pure _
  · unfold lookup
    split
    · rfl
    split
    · rfl
    split
    · rfl
    rcases w.driver.get (makeKey name (py! "__code__")) with ⟨_ | v, d⟩
    · rfl
    · simp only
      split <;> rfl

theorem fetchCompiled_quiet (name : Str) : Silent fun w => fetchCompiled w name := by
  refine ((Silent.read (makeKey name (py! "__compiled__"))).bind (β := Except PyErr Unit) (g := fun r w => (match r with
    | .error e => .error e
    | .ok .none => .error .importError
    | .ok (.bytes _) => .ok ()
    | .ok (.str _) => .ok ()
    | .ok _ => .error .typeError, w)) fun _ => .pure _).of_eq fun w => ?_
  unfold fetchCompiled
  rcases w.driver.get (makeKey name (py! "__compiled__")) with ⟨_ | v, d⟩
  · rfl
  · cases v <;> rfl

theorem dynChecks_quiet (H : Host) (name : Str) : Silent fun w => dynChecks H w name := by
  unfold dynChecks
  split
  · exact .pure _
  split
  · exact .pure _
  split
  · exact .pure _
  split
  · exact .pure _
  refine ((Silent.read (makeKey name (py! "__code__"))).bind (β := Except PyErr Unit) (g := fun r w => (match r with
    | .error e => .error e
    | .ok v => if v.isNone then .error .importError else .ok (), w)) fun _ => .pure _).of_eq fun w => ?_
  rcases w.driver.get (makeKey name (py! "__code__")) with ⟨_ | v, d⟩
  · rfl
  · simp only
    split <;> rfl

theorem restrictedCheck_quiet (H : Host) (name : Str) : Silent fun w => restrictedCheck H w name := by
  refine (Silent.look (α := Except PyErr Unit) (p := World.restricted) (f := fun b w => if b = true then (match (lookup H w name).1 with
    | .error e => .error e
    | .ok .loaded => .ok ()
    | .ok .contract => .ok ()
    | .ok _ => .error .importError, (lookup H w name).2) else (.ok (), w)) (fun ⟨r, h⟩ => by rw [h]) fun b => ?_).of_eq fun w => ?_
  · cases b with
    | true =>
      simp only [if_true]
      exact (lookup_quiet H name).bind (β := Except PyErr Unit) (g := fun r w => (match r with
        | .error e => .error e
        | .ok .loaded => .ok ()
        | .ok .contract => .ok ()
        | .ok _ => .error .importError, w)) fun _ => .pure _
    | false =>
      simp only [Bool.false_eq_true, if_false]
      exact .pure _
  · unfold restrictedCheck
    split
    · rcases lookup H w name with ⟨_ | f, _⟩
      · rfl
      · cases f <;> rfl
    · rfl

theorem importStart_quiet (H : Host) (name : Str) (dyn : Bool) : Silent fun w => importStart H w name dyn := by
  have h1 : Silent fun w => if dyn = true then dynChecks H w name else restrictedCheck H w name := by
    cases dyn with
    | true => simp only [if_true]; exact dynChecks_quiet H name
    | false => simp only [Bool.false_eq_true, if_false]; exact restrictedCheck_quiet H name
  have h2 : Silent fun w => match lookup H w name with
      | (.error e, w) => (.error e, w)
      | (.ok .contract, w) => (match fetchCompiled w name with
        | (.error e, w) => (.error e, w)
        | (.ok _, w) => (.ok .contract, w))
      | (.ok f, w) => ((.ok f : Except PyErr Found), w) := by
    refine ((lookup_quiet H name).bind (β := Except PyErr Found) (g := fun r w => match r with
      | .error e => (.error e, w)
      | .ok .contract => ((fetchCompiled w name).1.map fun _ => .contract, (fetchCompiled w name).2)
      | .ok f => (.ok f, w)) fun r => ?_).of_eq fun w => ?_
    · cases r with
      | error e => exact .pure _
      | ok f =>
        cases f with
        | contract => exact (fetchCompiled_quiet name).bind (g := fun r w => (r.map fun _ => Found.contract, w)) fun _ => .pure _
        | _ => exact .pure _
    · rcases lookup H w name with ⟨_ | f, w1⟩
      · rfl
      · cases f with
        | contract => simp only; rcases fetchCompiled w1 name with ⟨_ | _, _⟩ <;> rfl
        | _ => rfl
  refine (h1.bind (β := Except PyErr Found) (g := fun r w => match r with
    | .error e => (.error e, w)
    | .ok _ => match lookup H w name with
      | (.error e, w) => (.error e, w)
      | (.ok .contract, w) => (match fetchCompiled w name with
        | (.error e, w) => (.error e, w)
        | (.ok _, w) => (.ok .contract, w))
      | (.ok f, w) => ((.ok f : Except PyErr Found), w)) fun r => ?_).of_eq fun w => ?_
  · cases r with
    | error e => exact .pure _
    | ok _ => exact h2
  · unfold importStart
    rcases (if dyn = true then dynChecks H w name else restrictedCheck H w name) with ⟨_ | _, w1⟩ <;> rfl

theorem owner_quiet (c : Str) : Silent fun w => ((w.driver.getOwner c).1, { w with driver := (w.driver.getOwner c).2 }) :=
  ⟨fun h => rd_off h (getOwner_blind c) fun d => disk_of_reads (getOwner_reads d c)⟩

theorem addState_off (f : Frame) {w u : World} (h : Off m w u) : (w.addState f).driver.disk = w.driver.disk ∧ Off m (w.addState f) (u.addState f) := by
  obtain ⟨r, rfl⟩ := h
  unfold World.addState
  by_cases hc : w.current.this ≠ f.this ∧ w.stack.length < World.maxFrames
  · rw [if_pos hc, if_pos (by exact hc)]
    exact ⟨rfl, r, rfl⟩
  · rw [if_neg hc, if_neg (by exact hc)]
    exact ⟨rfl, r, rfl⟩

theorem enter_quiet (c : Str) : Silent (enter c) := by
  refine (Silent.look (α := Except PyErr Unit) (p := World.current) (f := fun cur w => if cur.this ≠ some c then
      (fun (r : Except PyErr PyVal) (w : World) => match r with
        | .error e => (.error e, w)
        | .ok owner =>
          let f : Frame := { owner := owner, caller := cur.this, signer := cur.signer, this := some c, entry := cur.entry, submission := cur.submission }
          (if ownerRefuses f.owner f.caller then .error .exception else .ok (), w.addState f))
        (w.driver.getOwner c).1 { w with driver := (w.driver.getOwner c).2 }
    else (.ok (), w.insState)) (fun ⟨r, h⟩ => by rw [h]; rfl) fun cur => ?_).of_eq fun w => ?_
  · by_cases h : cur.this ≠ some c
    · simp only [if_pos h]
      refine (owner_quiet c).bind (β := Except PyErr Unit) (g := fun r w => match r with
        | .error e => (.error e, w)
        | .ok owner => (if ownerRefuses owner cur.this then .error .exception else .ok (), w.addState
            { owner := owner, caller := cur.this, signer := cur.signer, this := some c, entry := cur.entry, submission := cur.submission })) fun r => ?_
      cases r with
      | error e => exact .pure _
      | ok owner =>
        exact ⟨fun h => ⟨(addState_off _ h).1, rfl, (addState_off _ h).2⟩⟩
    · simp only [if_neg h]
      refine ⟨?_⟩
      rintro m w _ ⟨r, rfl⟩
      obtain ⟨_, _, _, stack, _, _, _, _, _, _, _⟩ := w
      cases stack with
      | nil => exact ⟨rfl, rfl, r, rfl⟩
      | cons f t => exact ⟨rfl, rfl, r, rfl⟩
  · unfold enter
    split
    · rcases w.driver.getOwner c with ⟨_ | o, d⟩
      · rfl
      · simp only
        split <;> rfl
    · rfl

theorem popState_off {w u : World} (h : Off m w u) : w.popState.driver.disk = w.driver.disk ∧ Off m w.popState u.popState := by
  obtain ⟨r, rfl⟩ := h
  obtain ⟨_, _, _, stack, _, _, _, _, _, _, _⟩ := w
  cases stack with
  | nil => exact ⟨rfl, r, rfl⟩
  | cons f t =>
    unfold World.popState
    simp only
    split
    · exact ⟨rfl, r, rfl⟩
    · exact ⟨rfl, r, rfl⟩

/-- **A program that returns, and lets exceptions through, does the same when nothing is metered.** -/
theorem Prog.off (hm : m.started = false) {H : Host} : ∀ (p : Prog), p.NoCatch → p.All Action.NotGuarded → ∀ {w u w' : World} {v : PyVal},
    Spec.Readable w.driver.disk → p.run H w = (.ok v, w') → Off m w u →
    w'.driver.disk = w.driver.disk ∧ ∃ u', p.run H u = (.ok v, u') ∧ Off m w' u' := by
  intro p
  induction p with
  | ret v => intro _ _ w u w' v hr h hu; cases h; exact ⟨rfl, u, rfl, hu⟩
  | raise e => intro _ _ w u w' v hr h hu; cases h
  | act a k ih =>
    intro hn ha w u w' v hr h hu
    simp only [Prog.run] at h ⊢
    rcases h1 : a.run H w with ⟨_ | x, w1⟩
    · rw [h1, hn.1] at h
      cases h
    · rw [h1] at h
      obtain ⟨d1, u1, e1, o1⟩ := Action.off hm ha.1 hr h1 hu
      obtain ⟨d2, u2, e2, o2⟩ := ih _ (hn.2 x) (ha.2 _) (by rw [d1]; exact hr) h o1
      rw [e1]
      exact ⟨d2.trans d1, u2, e2, o2⟩
  | call c body k ih1 ih2 =>
    intro hn ha w u w' v hr h hu
    simp only [Prog.run] at h ⊢
    obtain ⟨d1, e1, o1⟩ := (enter_quiet c).run hu
    rcases h1 : enter c w with ⟨_ | x, w1⟩
    · rw [h1] at h
      simp only [hn.2.1] at h
      cases h
    · rw [h1] at h d1 e1 o1
      rw [show enter c u = (.ok x, (enter c u).2) from Prod.ext e1 rfl]
      simp only at h d1 o1 ⊢
      rcases h2 : body.run H w1 with ⟨_ | y, w2⟩
      · rw [h2] at h
        simp only [hn.2.1] at h
        cases h
      · rw [h2] at h
        obtain ⟨d2, u2, e2, o2⟩ := ih1 hn.1 ha.1 (by rw [d1]; exact hr) h2 o1
        obtain ⟨d3, o3⟩ := popState_off o2
        rw [e2]
        obtain ⟨d4, u4, e4, o4⟩ := ih2 _ (hn.2.2 y) (ha.2 _) (by rw [d3, d2, d1]; exact hr) h o3
        exact ⟨by rw [d4, d3, d2, d1], u4, e4, o4⟩
  | load n dyn body k ih1 ih2 =>
    intro hn ha w u w' v hr h hu
    simp only [Prog.run] at h ⊢
    obtain ⟨d1, e1, o1⟩ := (importStart_quiet H n dyn).run hu
    rcases h1 : importStart H w n dyn with ⟨_ | f, w1⟩
    · rw [h1] at h
      simp only [hn.2.1] at h
      cases h
    · rw [h1] at h d1 e1 o1
      rw [show importStart H u n dyn = (.ok f, (importStart H u n dyn).2) from Prod.ext e1 rfl]
      simp only at h d1 o1 ⊢
      have hk : ∀ {y}, (k (.ok y)).run H w1 = (.ok v, w') → w'.driver.disk = w.driver.disk ∧
          ∃ u', (k (.ok y)).run H (importStart H u n dyn).2 = (.ok v, u') ∧ Off m w' u' := by
        intro y h
        obtain ⟨d4, u4, e4, o4⟩ := ih2 _ (hn.2.2 y) (ha.2 _) (by rw [d1]; exact hr) h o1
        exact ⟨d4.trans d1, u4, e4, o4⟩
      cases f with
      | missing => simp only [hn.2.1] at h; cases h
      | host => exact hk h
      | loaded => exact hk h
      | contract =>
        simp only at h ⊢
        rcases h2 : body.run H w1 with ⟨_ | y, w2⟩
        · rw [h2] at h
          simp only [hn.2.1] at h
          cases h
        · rw [h2] at h
          obtain ⟨d2, u2, e2, r2, o2⟩ := ih1 hn.1 ha.1 (by rw [d1]; exact hr) h2 o1
          rw [e2]
          obtain ⟨d4, u4, e4, o4⟩ := ih2 _ (hn.2.2 .none) (ha.2 _) (w := w2.addLoaded n) (u := u2.addLoaded n)
            (by show Spec.Readable w2.driver.disk; rw [d2, d1]; exact hr) h ⟨r2, by rw [o2]; rfl⟩
          exact ⟨by rw [d4]; exact d2.trans d1, u4, e4, o4⟩

end Verif
