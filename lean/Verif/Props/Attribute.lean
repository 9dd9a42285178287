import Verif.Model.Proxy
import Verif.Props.Driver2
/-! # C83: storage as attributes of the client's contract object -/
namespace Verif
open Spec (Call Maps PlainKey Readable TopGroup fileOf)

/-- The key has a value other than `None` that is not (only) on disk: written and not committed, or kept in the cache. -/
def Spec.Live (d : Driver) (k : Str) : Prop := (dget d.cache k).isNone = false ∨ (dget d.pendingWrites k).isNone = false

/-- A listing, as far as keys with a dot are concerned: the live keys. -/
theorem items_live {d : Driver} (hcw : Dict.WF d.cache) (hw : Dict.WF d.pendingWrites) (hf : ∀ k, ∃ v, d.find k = .ok v)
    (hp : PlainDisk d.disk) (p : Str) :
    ∃ r rd, d.items p = (.ok r, { d with pendingReads := rd }) ∧
      (∀ k, startsWith k p = false → Dict.get? r k = none) ∧
      ∀ k, '.' ∈ k → ((∃ v, Dict.get? r k = some v) ↔ startsWith k p = true ∧ Spec.Live d k) := by
  obtain ⟨r, rd, h1, h2, h3⟩ := items_ok hcw hw hf p
  refine ⟨r, rd, h1, h2, fun k hdot => ?_⟩
  cases hk : startsWith k p with
  | false =>
    rw [h2 k hk]
    constructor
    · rintro ⟨v, hv⟩; cases hv
    · rintro ⟨h, _⟩; cases h
  | true =>
    obtain ⟨a, b, c⟩ := h3 k hk
    unfold Spec.Live
    cases e1 : (dget d.cache k).isNone with
    | false => exact ⟨fun _ => ⟨rfl, Or.inl rfl⟩, fun _ => ⟨_, a e1⟩⟩
    | true =>
      cases e2 : (dget d.pendingWrites k).isNone with
      | false => exact ⟨fun _ => ⟨rfl, Or.inr rfl⟩, fun _ => ⟨_, b e1 e2⟩⟩
      | true =>
        have : ¬ TopGroup d.disk (fileOf p) k := by
          rintro ⟨rest, at', hm⟩
          obtain ⟨k', ⟨c', n, comps, hc, hn, hx, rfl⟩, hl⟩ := hp _ (List.mem_map.2 ⟨_, hm, rfl⟩)
          rw [locOf_stateKey hc hn hx] at hl
          simp only [Prod.mk.injEq, List.cons.injEq] at hl
          rw [hl.2.1] at hdot
          exact hn.2.1 hdot
        rw [(c e1 e2).2 this]
        constructor
        · rintro ⟨v, hv⟩; cases hv
        · rintro ⟨_, h | h⟩ <;> cases h

theorem getAttr_of {d : Driver} (hcw : Dict.WF d.cache) (hw : Dict.WF d.pendingWrites) (hf : ∀ k, ∃ v, d.find k = .ok v)
    (hpd : PlainDisk d.disk) (name item : Str) :
    (∃ rd, (getAttr d name item).2 = { d with pendingReads := rd }) ∧
    (Spec.Live d (name ++ '.' :: item) → startsWith item (py! "__") = false →
      (getAttr d name item).1 = .ok (.variable (.make name item))) ∧
    (Spec.Live d (name ++ '.' :: item) → startsWith item (py! "__") = true →
      ∃ v, (d.get (name ++ '.' :: item)).1 = .ok v ∧ (getAttr d name item).1 = .ok (.value v)) ∧
    (¬ Spec.Live d (name ++ '.' :: item) → (∃ k, startsWith k (name ++ '.' :: item ++ [':']) = true ∧ Spec.Live d k) →
      (getAttr d name item).1 = .ok (.hash (.make name item))) ∧
    (¬ Spec.Live d (name ++ '.' :: item) → (¬ ∃ k, startsWith k (name ++ '.' :: item ++ [':']) = true ∧ Spec.Live d k) →
      (getAttr d name item).1 = .error .attributeError) := by
  obtain ⟨r, rd, h1, _, h2⟩ := items_live hcw hw hf hpd name
  have hk0 : makeKey name item = name ++ '.' :: item := rfl
  rw [← hk0]
  generalize hkk : makeKey name item = key
  rw [hkk] at hk0
  have hkey : '.' ∈ key := by simp [hk0]
  have hpre : startsWith key name = true := List.isPrefixOf_iff_prefix.2 ⟨_, hk0.symm⟩
  have hmem : (Dict.get? r (makeKey name item)).isSome = true ↔ Spec.Live d key := by
    rw [Option.isSome_iff_exists, hkk]
    exact (h2 key hkey).trans ⟨fun x => x.2, fun x => ⟨hpre, x⟩⟩
  have hf' : ∀ rd, ∀ k, ∃ v, Driver.find { d with pendingReads := rd } k = .ok v := fun rd k => by
    rw [find_of_reads]; exact hf k
  by_cases hl : Spec.Live d key
  · have hsome := hmem.2 hl
    cases hu : startsWith item (py! "__") with
    | false =>
      have e : getAttr d name item = (.ok (.variable (.make name item)), { d with pendingReads := rd }) := by
        unfold getAttr; rw [h1]; dsimp only; rw [if_pos hsome, hu]; rfl
      rw [e]
      exact ⟨⟨rd, rfl⟩, fun _ _ => rfl, (fun _ h => Bool.noConfusion h), fun h => absurd hl h, fun h => absurd hl h⟩
    | true =>
      obtain ⟨v, hv⟩ := hf key
      have hfr := Driver.get_frame { d with pendingReads := rd } key
      have hg : Driver.get { d with pendingReads := rd } key =
          (.ok v, { d with pendingReads := (Driver.get { d with pendingReads := rd } key).2.pendingReads }) := by
        refine Prod.ext ?_ ?_
        · rw [hfr.2, find_of_reads]; exact hv
        · exact hfr.1
      generalize (Driver.get { d with pendingReads := rd } key).2.pendingReads = rd' at hg
      have e : getAttr d name item = (.ok (.value v), { d with pendingReads := rd' }) := by
        unfold getAttr; rw [h1]; dsimp only; rw [if_pos hsome, hu]
        unfold Variable.get
        have : (Variable.make name item).key = key := hkk
        rw [this, hg]
        cases v <;> rfl
      rw [e]
      exact ⟨⟨rd', rfl⟩, (fun _ h => Bool.noConfusion h),
        fun _ _ => ⟨v, by rw [(Driver.get_frame d key).2]; exact hv, rfl⟩, fun h => absurd hl h, fun h => absurd hl h⟩
  · have hnone : ¬ (Dict.get? r (makeKey name item)).isSome = true := fun h => hl (hmem.1 h)
    have hpfx : name ++ '.' :: item ++ [':'] = key ++ [':'] := by rw [hk0]
    obtain ⟨r1, rd1, g1, _, _⟩ := items_live (d := { d with pendingReads := rd }) hcw hw (hf' rd) hpd (key ++ [':'])
    obtain ⟨r2, rd2, g2, g3, g4⟩ := items_live (d := { d with pendingReads := rd1 }) hcw hw (hf' rd1) hpd (key ++ [':'])
    have hdot : ∀ k, startsWith k (key ++ [':']) = true → '.' ∈ k := fun k hk =>
      (List.isPrefixOf_iff_prefix.1 hk).subset (by simp [hk0])
    have hlen : r2.length > 0 ↔ ∃ k, startsWith k (key ++ [':']) = true ∧ Spec.Live d k := by
      constructor
      · intro hlen
        obtain ⟨⟨k, v⟩, tl, rfl⟩ := List.exists_cons_of_length_pos hlen
        have hk : Dict.get? ((k, v) :: tl) k = some v := by simp [Dict.get?]
        have hk' : startsWith k (key ++ [':']) = true := by
          cases hh : startsWith k (key ++ [':']) with
          | true => rfl
          | false => rw [g3 k hh] at hk; cases hk
        exact ⟨k, (g4 k (hdot k hk')).1 ⟨v, hk⟩⟩
      · rintro ⟨k, hk, hlk⟩
        obtain ⟨v, hv⟩ := (g4 k (hdot k hk)).2 ⟨hk, hlk⟩
        cases r2 with
        | nil => cases hv
        | cons _ _ => simp
    have e : getAttr d name item =
        (if r2.length > 0 then (.ok (.hash (.make name item)), { d with pendingReads := rd2 })
         else (.error .attributeError, { d with pendingReads := rd2 })) := by
      unfold getAttr
      rw [h1]
      dsimp only
      rw [if_neg hnone, hpfx, g1]
      dsimp only
      rw [g2]
    rw [e]
    refine ⟨?_, fun h => absurd h hl, fun h => absurd h hl, fun _ h => ?_, fun _ h => ?_⟩
    · by_cases h : r2.length > 0
      · rw [if_pos h]; exact ⟨rd2, rfl⟩
      · rw [if_neg h]; exact ⟨rd2, rfl⟩
    · rw [if_pos (hlen.2 h)]
    · rw [if_neg (fun x => h (hlen.1 x))]

/-- C83: what `contract.item` is, in every state reached on a directory of plain keys, for items that are not attributes
of the object itself: a `Variable` for a live key, its value if the name starts with `__`, a `Hash` when only keys below
it are live, and `AttributeError` otherwise. Only the record of reads changes. -/
theorem C83_attribute {disk : Disk} (h : Readable disk) (hp : PlainDisk disk) (cs : List Call) (hc : ∀ c ∈ cs, c.OK) (name item : Str) :
    let d := Spec.after (.open disk) cs
    let key := name ++ '.' :: item
    (∃ rd, (getAttr d name item).2 = { d with pendingReads := rd }) ∧
    (Spec.Live d key → startsWith item (py! "__") = false → (getAttr d name item).1 = .ok (.variable (.make name item))) ∧
    (Spec.Live d key → startsWith item (py! "__") = true → ∃ v, (d.get key).1 = .ok v ∧ (getAttr d name item).1 = .ok (.value v)) ∧
    (¬ Spec.Live d key → (∃ k, startsWith k (key ++ [':']) = true ∧ Spec.Live d k) →
      (getAttr d name item).1 = .ok (.hash (.make name item))) ∧
    (¬ Spec.Live d key → (¬ ∃ k, startsWith k (key ++ [':']) = true ∧ Spec.Live d k) →
      (getAttr d name item).1 = .error .attributeError) :=
  have hs := (Sim.init h).after cs hc
  getAttr_of hs.cwf hs.wf hs.find_any (after_plainDisk (Sim.init h) hp cs hc) name item

theorem Spec.after_commit (d : Driver) (cs : List Call) : Spec.after d (cs ++ [.commit]) = (Spec.after d cs).commit.2 := by
  induction cs generalizing d with
  | nil => rfl
  | cons c cs ih => exact ih _

/-- Values on disk only are no attributes: after a commit no storage attribute of any contract resolves, until it is written again. -/
theorem C83_committed {disk : Disk} (h : Readable disk) (hp : PlainDisk disk) (cs : List Call) (hc : ∀ c ∈ cs, c.OK) (name item : Str) :
    (getAttr (Spec.after (.open disk) (cs ++ [.commit])) name item).1 = .error .attributeError := by
  have hc' : ∀ c ∈ cs ++ [Call.commit], c.OK := by
    intro c hm
    rcases List.mem_append.1 hm with hm | hm
    · exact hc c hm
    · rw [List.mem_singleton.1 hm]; exact trivial
  have hs := (Sim.init h).after cs hc
  have hl : ∀ k, ¬ Spec.Live (Spec.after (.open disk) (cs ++ [.commit])) k := by
    intro k
    obtain ⟨disk', h1, _⟩ := commitLoop_ok _ _ hs.pend_mem hs.wf
    rw [Spec.after_commit]
    unfold Driver.commit
    rw [h1]
    rintro (h | h) <;> cases h
  exact (C83_attribute h hp _ hc' name item).2.2.2.2 (hl _) (fun ⟨k, _, hk⟩ => hl k hk)

/-- A value written to `con.x`, to `con.__x` and to `con.h:a` resolves. -/
example : let d := Spec.after (.open []) [.set {} (py! "con.x") (.int 5) true, .set {} (py! "con.__x") (.int 6) true,
    .set {} (py! "con.h:a") (.int 7) true]
    (getAttr d (py! "con") (py! "x")).1 = .ok (.variable (.make (py! "con") (py! "x"))) ∧
    (getAttr d (py! "con") (py! "__x")).1 = .ok (.value (.int 6)) ∧
    (getAttr d (py! "con") (py! "h")).1 = .ok (.hash (.make (py! "con") (py! "h"))) ∧
    (getAttr d (py! "con") (py! "y")).1 = .error .attributeError := ⟨rfl, rfl, rfl, rfl⟩

/-- **C83, `contract.x` gives the stored `x`: false.** After a commit `con.x` still reads 5, but the attribute is gone. -/
theorem C83_refuted : let d := Spec.after (.open []) [.set {} (py! "con.x") (.int 5) true, .commit]
    (d.get (py! "con.x")).1 = .ok (.int 5) ∧ (getAttr d (py! "con") (py! "x")).1 = .error .attributeError := ⟨rfl, rfl⟩

end Verif
