import Verif.Proofs.Replica2
/-!
# Property C86: nodes that process the same transactions and blocks agree
-/
namespace Verif
open Spec

theorem Twins.lives {H : Host} {a b b' : World} {ss : List NodeOp} {rs : List Report} (h : Lives H b ss rs b') :
    ∀ {a : World}, Twins a b → Steady H a ss → rs = (undisturbed H a ss).1 ∧ Twins (undisturbed H a ss).2 b' := by
  induction h with
  | stop w => intro a ht _; exact ⟨rfl, ht⟩
  | step _ ih =>
    intro a ht hs
    obtain ⟨e, ht'⟩ := ht.step hs
    obtain ⟨i1, i2⟩ := ih ht' hs.2
    exact ⟨by simp only [undisturbed]; rw [e, ← i1], i2⟩
  | evict keep _ ih => intro a ht hs; exact ih (ht.evict keep) hs
  | restart h1 h2 _ ih => intro a ht hs; exact ih (ht.restart h1 h2) hs

/-- **C86.** Whatever cache entries a node loses, whenever, and however often it is restarted between blocks, it
reports for every transaction and block exactly what a node reports that runs the same steps on the same
initial disk undisturbed -- results, stamps, writes, reads, events, exceptions -- and ends with the same
disk and the same pending writes. `Steady` is about the undisturbed run only: contract code without
listings and without in-place changes of stored objects, `execute` returning with an empty context stack, stable
values under plain keys at each block. -/
theorem C86_undisturbed {H : Host} {disk : Disk} {ss : List NodeOp} {rs : List Report} {b : World}
    (hs : Steady H { driver := .open disk } ss) (h : Lives H { driver := .open disk } ss rs b) :
    rs = (undisturbed H { driver := .open disk } ss).1 ∧
    b.driver.disk = (undisturbed H { driver := .open disk } ss).2.driver.disk ∧
    b.driver.pendingWrites = (undisturbed H { driver := .open disk } ss).2.driver.pendingWrites := by
  have ht : Twins { driver := .open disk } { driver := .open disk } :=
    ⟨⟨rfl, rfl, rfl, rfl, rfl, rfl, rfl⟩, ⟨rfl, rfl, rfl, rfl, rfl, rfl, rfl⟩, [], rfl, rfl, rfl, coh_nil _, coh_nil _⟩
  obtain ⟨e, ht⟩ := Twins.lives (a := { driver := .open disk }) h ht hs
  obtain ⟨c, hb, _⟩ := ht.driver
  have e1 := congrArg Driver.disk hb
  have e2 := congrArg Driver.pendingWrites hb
  exact ⟨e, e1, e2⟩

/-- **C86.** Any two nodes agree. -/
theorem C86_agree {H : Host} {disk : Disk} {ss : List NodeOp} {rs rs' : List Report} {a b : World}
    (hs : Steady H { driver := .open disk } ss) (ha : Lives H { driver := .open disk } ss rs a)
    (hb : Lives H { driver := .open disk } ss rs' b) :
    rs = rs' ∧ a.driver.disk = b.driver.disk ∧ a.driver.pendingWrites = b.driver.pendingWrites := by
  obtain ⟨a1, a2, a3⟩ := C86_undisturbed hs ha
  obtain ⟨b1, b2, b3⟩ := C86_undisturbed hs hb
  exact ⟨a1.trans b1.symm, a2.trans b2.symm, a3.trans b3.symm⟩

/-- **C86, which values are stable**: everything storable (C08) whose decimals are canonical, as all are but the
result of clamping to `10^29` (C02). -/
theorem C86_stable {v : PyVal} (h : Storable v) (hc : DecsCanonical v) : Stable v := Or.inr (C08_exact h hc)

/-- What a report says the contract returned, if it is one of a transaction. -/
def Report.returned : Report → Option (Except PyErr PyVal)
  | .output (.ok o) => some o.result
  | _ => none

/-- `con_a` deployed and `bob` rich, on disk. -/
def Demo.disk : Disk := Demo.w0.driver.commit.2.disk

/-- Return what an API call gives. -/
def Demo.answer (a : Action) : Prog := .act a fun r => match r with | .ok v => .ret v | .error e => .raise e

/-- A block that stores `v` under `x` and an entry of the Hash `h`, then a transaction. -/
def Demo.steps (v : PyVal) (last : Action) : List NodeOp :=
  [.tx {} (Demo.tx (Demo.step (.varSet Demo.x v) (Demo.step (.hashSet (.make Demo.conA (py! "h")) (.one (.str (py! "k"))) (.int 5)) (.ret .none)))),
   .apply 1, .tx {} (Demo.tx (Demo.answer last))]

/-- Each step in turn. -/
theorem lives_all (H : Host) : ∀ (ss : List NodeOp) (w : World),
    Lives H w ss (undisturbed H w ss).1 (undisturbed H w ss).2
  | [], w => .stop w
  | s :: ss, w => .step (lives_all H ss (s.run H w).2)

/-- A node that is restarted after the first `n` steps, if nothing is pending then. -/
theorem lives_restart (H : Host) (ss ss' : List NodeOp) (w : World)
    (h1 : (undisturbed H w ss).2.driver.pendingWrites = []) (h2 : (undisturbed H w ss).2.driver.pendingReads = []) :
    let r := undisturbed H w ss
    let q := undisturbed H { driver := .open r.2.driver.disk } ss'
    Lives H w (ss ++ ss') (r.1 ++ q.1) q.2 := by
  induction ss generalizing w with
  | nil => exact .restart h1 h2 (lives_all H ss' _)
  | cons s ss ih => exact .step (ih _ h1 h2)

theorem Demo.step_all {P : Action → Prop} {a : Action} {p : Prog} (ha : P a) (hp : p.All P) : (Demo.step a p).All P :=
  ⟨ha, fun r => by cases r <;> first | exact hp | exact trivial⟩

theorem ok_of_isOk {ε α : Type} {r : Except ε α} (h : r.isOk = true) : ∃ o, r = .ok o := by
  cases r with
  | error e => cases h
  | ok o => exact ⟨o, rfl⟩

theorem stable_of {v : PyVal} (h : (encode v).bind decode = .ok v) : Stable v := by
  cases he : encode v with
  | error e => rw [he] at h; cases h
  | ok s => rw [he] at h; exact Or.inr ⟨s, he, h⟩

/-- The hypotheses are met, and the steps do something: a block of one transaction that stores `1` and `5` is
applied, and the next transaction reads `1` back; a node restarted in between says the same. -/
example :
    let w : World := { driver := .open Demo.disk }
    let ss := Demo.steps (.int 1) (.varGet Demo.x)
    Steady Demo.host w ss ∧ (undisturbed Demo.host w ss).1.map Report.returned = [some (.ok .none), none, some (.ok (.int 1))] ∧
    ∃ rs b, Lives Demo.host w ss rs b ∧ b.driver.cache = [] := by
  refine ⟨⟨⟨rfl, ⟨trivial, fun fn hf kw => ?_⟩, ok_of_isOk (by decide +kernel), by decide +kernel⟩, ?_, ⟨rfl, ⟨trivial, fun fn hf kw => ?_⟩, ok_of_isOk (by decide +kernel),
    by decide +kernel⟩, trivial⟩, by decide +kernel, _, _, lives_restart Demo.host (Demo.steps (.int 1) (.varGet Demo.x) |>.take 2)
      (Demo.steps (.int 1) (.varGet Demo.x) |>.drop 2) _ (by decide +kernel) (by decide +kernel), by decide +kernel⟩
  · cases hf
    exact Demo.step_all trivial (Demo.step_all trivial trivial)
  · have : (NodeOp.run Demo.host { driver := .open Demo.disk }
        (.tx {} (Demo.tx (Demo.step (.varSet Demo.x (.int 1)) (Demo.step (.hashSet (.make Demo.conA (py! "h"))
          (.one (.str (py! "k"))) (.int 5)) (.ret .none)))))).2.driver.pendingWrites =
        [(Spec.stateKey Demo.conA (py! "x") [], .int 1), (Spec.stateKey Demo.conA (py! "h") [py! "k"], .int 5),
         (Spec.stateKey (py! "currency") (py! "balances") [py! "bob"], .dec ⟨false, 95, 0⟩)] := by decide +kernel
    rw [this]
    intro p hp
    simp only [List.mem_cons, List.not_mem_nil, or_false] at hp
    rcases hp with rfl | rfl | rfl
    · exact ⟨⟨_, _, _, by decide, by decide, by decide, rfl⟩, stable_of (by decide +kernel)⟩
    · exact ⟨⟨_, _, _, by decide, by decide, by decide, rfl⟩, stable_of (by decide +kernel)⟩
    · exact ⟨⟨_, _, _, by decide, by decide, by decide, rfl⟩, stable_of (by decide +kernel)⟩
  · cases hf
    exact ⟨trivial, fun r => by cases r <;> exact trivial⟩

/-- **C86 is false with listings**: `Hash.all()` shows what the node still has in its cache, so after a block that
stored one entry a running node answers `[5]` and a restarted node `[]`. -/
theorem C86_refuted_listing :
    let w : World := { driver := .open Demo.disk }
    let ss := Demo.steps (.int 1) (.hashAll (.make Demo.conA (py! "h")) [])
    ∃ rs a rs' b, Lives Demo.host w ss rs a ∧ Lives Demo.host w ss rs' b ∧
      rs.map Report.returned = [some (.ok .none), none, some (.ok (.list [.int 5]))] ∧
      rs'.map Report.returned = [some (.ok .none), none, some (.ok (.list []))] :=
  ⟨_, _, _, _, lives_all _ _ _, lives_restart Demo.host (Demo.steps (.int 1) (.hashAll (.make Demo.conA (py! "h")) []) |>.take 2)
    (Demo.steps (.int 1) (.hashAll (.make Demo.conA (py! "h")) []) |>.drop 2) _ (by decide +kernel) (by decide +kernel),
    by decide +kernel, by decide +kernel⟩

/-- **C86 is false with values that JSON changes**: a stored tuple is a tuple for the node that still has it in its
cache and a list for the others. -/
theorem C86_refuted_tuple :
    let w : World := { driver := .open Demo.disk }
    let ss := Demo.steps (.tuple [.int 1]) (.varGet Demo.x)
    ∃ rs a rs' b, Lives Demo.host w ss rs a ∧ Lives Demo.host w ss rs' b ∧
      rs.map Report.returned = [some (.ok .none), none, some (.ok (.tuple [.int 1]))] ∧
      rs'.map Report.returned = [some (.ok .none), none, some (.ok (.list [.int 1]))] :=
  ⟨_, _, _, _, lives_all _ _ _, lives_restart Demo.host (Demo.steps (.tuple [.int 1]) (.varGet Demo.x) |>.take 2)
    (Demo.steps (.tuple [.int 1]) (.varGet Demo.x) |>.drop 2) _ (by decide +kernel) (by decide +kernel),
    by decide +kernel, by decide +kernel⟩

/-- **C86 is false with in-place changes**: a transaction that appends to a stored list without storing it again
changes the list for later transactions of the node that has it in its cache, and for no other. -/
theorem C86_refuted_mutate :
    let w : World := { driver := .open Demo.disk }
    let pre := (Demo.steps (.list []) .ctxThis).take 2
    let post : List NodeOp := [.tx {} (Demo.tx (Demo.answer (.mutate Demo.x.key (.list [.int 1]) false false))),
      .tx {} (Demo.tx (Demo.answer (.varGet Demo.x)))]
    ∃ rs a rs' b, Lives Demo.host w (pre ++ post) rs a ∧ Lives Demo.host w (pre ++ post) rs' b ∧
      rs.map Report.returned = [some (.ok .none), none, some (.ok .none), some (.ok (.list [.int 1]))] ∧
      rs'.map Report.returned = [some (.ok .none), none, some (.ok .none), some (.ok (.list []))] :=
  ⟨_, _, _, _, lives_all _ _ _, lives_restart Demo.host _ _ _ (by decide +kernel) (by decide +kernel),
    by decide +kernel, by decide +kernel⟩

end Verif
