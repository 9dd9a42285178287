/-!
# Base definitions: Python strings, exceptions, dictionaries

Shared vocabulary of the model.  Nothing here is specific to `/repo`; it fixes how Python's
built-in data is represented.

Simplifications: a Python `str` is a list of Lean characters, i.e. Unicode scalar values (lone
surrogates are not modelled); a Python `dict` is an insertion-ordered association list.
-/
namespace Verif

/-- Python `str`. -/
abbrev Str := List Char

open Lean in
/-- `py! "abc"` is the literal Python string as an explicit list of characters. -/
macro "py! " s:str : term => do
  let cs := s.getString.toList.map fun c => Syntax.mkCharLit c
  `(([$(cs.toArray),*] : Str))

/-- Classes of Python exceptions the modelled code raises or lets escape. -/
inductive PyErr where
  | assertion      -- AssertionError
  | exception      -- Exception(...)
  | typeError
  | valueError
  | attributeError
  | nameError      -- NameError / UnboundLocalError
  | keyError
  | referenceError
  | importError
  | invalidOperation -- decimal.InvalidOperation
  | divisionByZero   -- decimal.DivisionByZero
  | overflow         -- decimal.Overflow / OverflowError
  | osError
  | recursion        -- RecursionError
  | unmodelled       -- not an exception of Python: the model of the contract language (Model/Lang.lean) ends here
  deriving DecidableEq, Repr

/-- Python `dict`: insertion-ordered association list; at most one entry per key is an invariant
(`Dict.WF`) preserved by `set`, `erase`, ... -/
abbrev Dict (κ α : Type _) := List (κ × α)

namespace Dict
variable {κ : Type _} {α : Type _} [DecidableEq κ]

/-- `d.get(k)` as an `Option`. -/
def get? : Dict κ α → κ → Option α
  | [], _ => none
  | (k', v) :: d, k => if k' = k then some v else get? d k

/-- `k in d`. -/
def has (d : Dict κ α) (k : κ) : Bool := (get? d k).isSome

/-- `d[k] = v`: overwrite in place (position kept), or append. -/
def set : Dict κ α → κ → α → Dict κ α
  | [], k, v => [(k, v)]
  | (k', v') :: d, k, v => if k' = k then (k', v) :: d else (k', v') :: set d k v

/-- `d.pop(k, None)` / `del d[k]` as the resulting dict. -/
def erase : Dict κ α → κ → Dict κ α
  | [], _ => []
  | (k', v') :: d, k => if k' = k then erase d k else (k', v') :: erase d k

/-- `list(d.keys())`. -/
def keys (d : Dict κ α) : List κ := d.map Prod.fst

/-- `list(d.values())`. -/
def values (d : Dict κ α) : List α := d.map Prod.snd

/-- `d.update(e)`. -/
def update (d e : Dict κ α) : Dict κ α := e.foldl (fun d kv => set d kv.1 kv.2) d

/-- `dict(pairs)`: later duplicates win, first position kept. -/
def ofPairs (ps : List (κ × α)) : Dict κ α := update [] ps

/-- Each key at most once. -/
def WF (d : Dict κ α) : Prop := (keys d).Nodup

@[simp] theorem get?_nil (k : κ) : get? ([] : Dict κ α) k = none := rfl

theorem get?_cons (k' k : κ) (v : α) (d : Dict κ α) :
    get? ((k', v) :: d) k = if k' = k then some v else get? d k := rfl

@[simp] theorem get?_set_self (d : Dict κ α) (k : κ) (v : α) : get? (set d k v) k = some v := by
  induction d with
  | nil => simp [set, get?]
  | cons p d ih =>
    obtain ⟨k', v'⟩ := p
    by_cases h : k' = k <;> simp [set, h, get?, ih]

theorem get?_set_ne (d : Dict κ α) {k k' : κ} (v : α) (h : k ≠ k') :
    get? (set d k v) k' = get? d k' := by
  induction d with
  | nil => simp [set, get?, h]
  | cons p d ih =>
    obtain ⟨k₀, v₀⟩ := p
    by_cases h0 : k₀ = k
    · subst h0; simp [set, get?, h]
    · by_cases h1 : k₀ = k'
      · subst h1; simp [set, h0, get?]
      · simp [set, h0, get?, h1, ih]

theorem get?_set (d : Dict κ α) (k k' : κ) (v : α) :
    get? (set d k v) k' = if k = k' then some v else get? d k' := by
  by_cases h : k = k'
  · subst h; simp
  · simp [h, get?_set_ne d v h]

@[simp] theorem get?_erase_self (d : Dict κ α) (k : κ) : get? (erase d k) k = none := by
  induction d with
  | nil => rfl
  | cons p d ih =>
    obtain ⟨k', v'⟩ := p
    by_cases h : k' = k <;> simp [erase, h, get?, ih]

theorem get?_erase_ne (d : Dict κ α) {k k' : κ} (h : k ≠ k') :
    get? (erase d k) k' = get? d k' := by
  induction d with
  | nil => rfl
  | cons p d ih =>
    obtain ⟨k₀, v₀⟩ := p
    by_cases h0 : k₀ = k
    · subst h0; simp [erase, get?, h, ih]
    · by_cases h1 : k₀ = k'
      · subst h1; simp [erase, h0, get?]
      · simp [erase, h0, get?, h1, ih]

theorem get?_erase (d : Dict κ α) (k k' : κ) :
    get? (erase d k) k' = if k = k' then none else get? d k' := by
  by_cases h : k = k'
  · subst h; simp
  · simp [h, get?_erase_ne d h]

theorem mem_of_get? {d : Dict κ α} {k : κ} {v : α} (h : get? d k = some v) : (k, v) ∈ d := by
  induction d with
  | nil => simp at h
  | cons p d ih =>
    obtain ⟨k', v'⟩ := p
    by_cases hk : k' = k
    · simp [get?, hk] at h; simp [hk, h]
    · simp [get?, hk] at h; exact List.mem_cons_of_mem _ (ih h)

theorem get?_isSome_iff {d : Dict κ α} {k : κ} : (get? d k).isSome ↔ k ∈ keys d := by
  induction d with
  | nil => simp [keys]
  | cons p d ih =>
    obtain ⟨k', v'⟩ := p
    by_cases hk : k' = k
    · simp [get?, hk, keys]
    · simp only [get?, hk, if_false, ih, keys, List.map_cons, List.mem_cons]
      constructor
      · exact Or.inr
      · rintro (h | h)
        · exact absurd h.symm hk
        · exact h

theorem get?_eq_none_iff {d : Dict κ α} {k : κ} : get? d k = none ↔ k ∉ keys d := by
  rw [← get?_isSome_iff]; cases get? d k <;> simp

theorem get?_of_mem {d : Dict κ α} (hw : WF d) {k : κ} {v : α} (h : (k, v) ∈ d) :
    get? d k = some v := by
  induction d with
  | nil => simp at h
  | cons p d ih =>
    obtain ⟨k', v'⟩ := p
    simp only [WF, keys, List.map_cons, List.nodup_cons] at hw
    rcases List.mem_cons.1 h with h | h
    · cases h; simp [get?]
    · have hk : k' ≠ k := by
        rintro rfl
        exact hw.1 (List.mem_map.2 ⟨_, h, rfl⟩)
      simp [get?, hk, ih hw.2 h]

theorem keys_set (d : Dict κ α) (k : κ) (v : α) :
    keys (set d k v) = if k ∈ keys d then keys d else keys d ++ [k] := by
  induction d with
  | nil => simp [set, keys]
  | cons p d ih =>
    obtain ⟨k', v'⟩ := p
    by_cases hk : k' = k
    · simp [set, hk, keys]
    · have hk2 : k ≠ k' := fun h => hk h.symm
      simp only [keys] at ih
      simp only [set, hk, if_false, keys, List.map_cons, ih, List.mem_cons, hk2, false_or]
      split <;> simp_all

theorem WF.set {d : Dict κ α} (h : WF d) (k : κ) (v : α) : WF (set d k v) := by
  unfold WF; rw [keys_set]
  split
  · exact h
  · rename_i hk
    exact List.nodup_append.2 ⟨h, by simp, by
      intro a ha b hb; simp at hb; subst hb; rintro rfl; exact hk ha⟩

omit [DecidableEq κ] in
theorem WF.nil : WF ([] : Dict κ α) := by simp [WF, keys]

theorem keys_erase_sub {d : Dict κ α} {k a : κ} (h : a ∈ keys (erase d k)) : a ∈ keys d ∧ a ≠ k := by
  induction d with
  | nil => simp [erase, keys] at h
  | cons p d ih =>
    obtain ⟨k', v'⟩ := p
    by_cases hk : k' = k
    · simp only [erase, hk, if_true] at h
      exact ⟨List.mem_cons_of_mem _ (ih h).1, (ih h).2⟩
    · simp only [erase, hk, if_false, keys, List.map_cons, List.mem_cons] at h
      rcases h with h | h
      · subst h; exact ⟨by simp [keys], hk⟩
      · exact ⟨List.mem_cons_of_mem _ (ih h).1, (ih h).2⟩

theorem WF.erase {d : Dict κ α} (h : WF d) (k : κ) : WF (erase d k) := by
  induction d with
  | nil => exact h
  | cons p d ih =>
    obtain ⟨k', v'⟩ := p
    simp only [WF, keys, List.map_cons, List.nodup_cons] at h
    by_cases hk : k' = k
    · simpa [Dict.erase, hk] using ih h.2
    · simp only [Dict.erase, hk, if_false, WF, keys, List.map_cons, List.nodup_cons]
      exact ⟨fun hm => h.1 (keys_erase_sub hm).1, ih h.2⟩

end Dict

/-- `s.startswith(p)`. -/
def startsWith (s p : Str) : Bool := p.isPrefixOf s

/-- `s.endswith(p)`. -/
def endsWith (s p : Str) : Bool := p.isSuffixOf s

end Verif
