import Verif.Proofs.Driver0
/-! # Lemmas on disk operations -/
namespace Verif
namespace Disk

theorem attrs_set (d : Disk) (l l' : Loc) (a : Attrs) :
    attrs (Dict.set d l a) l' = if l = l' then a else attrs d l' := by
  unfold attrs; rw [Dict.get?_set]; split <;> rfl

theorem attrs_apply_ne (d : Disk) (op : DiskOp) {l : Loc} (h : op.loc ≠ l) : attrs (apply d op) l = attrs d l := by
  cases op <;> simp only [DiskOp.loc] at h <;> simp only [apply, attrs_set, if_neg h]

theorem attrs_applyAll_ne (d : Disk) (ops : List DiskOp) {l : Loc} (h : ∀ op ∈ ops, op.loc ≠ l) :
    attrs (applyAll d ops) l = attrs d l := by
  induction ops generalizing d with
  | nil => rfl
  | cons op ops ih =>
    show attrs (applyAll (apply d op) ops) l = _
    rw [ih _ (fun o ho => h o (by simp [ho])), attrs_apply_ne _ _ (h op (by simp))]

theorem get_congr {d d' : Disk} {l : Loc} (h : attrs d l = attrs d' l) : d.get l = d'.get l := by
  unfold get; rw [h]

theorem setOps_loc {l : Loc} {t : Option Str} {b : Int} : ∀ op ∈ setOps l t b, op.loc = l := by
  intro op hop
  cases t <;> simp only [setOps, List.cons_append, List.nil_append, List.append_nil, List.mem_cons,
    List.not_mem_nil, or_false] at hop <;>
    casesm* _ ∨ _ <;> subst_vars <;> rfl

theorem setValueOps_loc {l : Loc} {v : PyVal} {b : Option Int} {ops : List DiskOp}
    (h : setValueOps l v b = .ok ops) : ∀ op ∈ ops, op.loc = l := by
  have : ∃ t, ops = setOps l t (b.getD (-1)) := by
    cases v <;> simp only [setValueOps] at h
    case none => cases h; exact ⟨none, rfl⟩
    all_goals
      rename_i x
      revert h
      first
      | (cases he : encode _ with
         | error e => intro h; cases h
         | ok t => intro h; cases h; exact ⟨some t, rfl⟩)
  obtain ⟨t, rfl⟩ := this
  exact setOps_loc

theorem deleteOps_loc {d : Disk} {l : Loc} : ∀ op ∈ deleteOps d l, op.loc = l := by
  intro op hop
  unfold deleteOps at hop
  split at hop
  · simp at hop
  · simp at hop; rcases hop with h | h <;> subst h <;> rfl

theorem attrs_setOps (d : Disk) (l : Loc) (t : Option Str) (b : Int) :
    attrs (applyAll d (setOps l t b)) l = { value := t, block := some b } := by
  cases t <;> simp [setOps, applyAll, apply, attrs_set]

theorem attrs_deleteOps (d : Disk) (l : Loc) : (attrs (applyAll d (deleteOps d l)) l).value = none := by
  unfold deleteOps
  split
  · assumption
  · simp [applyAll, apply, attrs_set]

end Disk

theorem Driver.commitKeyOps_loc {disk : Disk} {k : Str} {v : PyVal} {ops : List DiskOp}
    (h : Driver.commitKeyOps disk k v = .ok ops) : ∀ op ∈ ops, op.loc = locOf k := by
  unfold Driver.commitKeyOps at h
  split at h
  · cases h; exact Disk.deleteOps_loc
  · exact Disk.setValueOps_loc h

end Verif
