import Mathlib.Data.List.SplitOn
import Verif.Model.Keys
/-!
# What a state key is meant to be
-/
namespace Verif

/-- The `str()` of the components of an index. -/
def Index.texts : Index → List Str
  | .one k => [k.text]
  | .tuple ks => ks.map Comp.text

namespace Spec

/-- A name that uses none of the storage separators and is not empty. -/
def Plain (s : Str) : Prop := s ≠ [] ∧ '.' ∉ s ∧ ':' ∉ s ∧ '/' ∉ s

instance (s : Str) : Decidable (Plain s) := by unfold Plain; infer_instance

/-- The key of entry `comps` of variable `name` of `contract`: `contract.name:comp:comp...`. -/
def stateKey (contract name : Str) (comps : List Str) : Str :=
  contract ++ '.' :: (name ++ comps.flatMap fun c => ':' :: c)

/-- Keys built from plain names and components. -/
def PlainKey (k : Str) : Prop :=
  ∃ c n comps, Plain c ∧ Plain n ∧ (∀ x ∈ comps, Plain x) ∧ k = stateKey c n comps

/-- How an index is spelled in a key: the texts of its components; the empty tuple is spelled like one
empty component. -/
def spelled (texts : List Str) : List Str := if texts = [] then [[]] else texts

/-- The non-empty pieces of a text between slashes. -/
def pieces (s : Str) : List Str := (s.splitOn '/').filter (· ≠ [])

/-- What a Hash accepts as an index: one object (possibly a slice) or a tuple of at most sixteen objects
that are not slices, no "." and ":" in the texts, at most 1024 characters including the separators. -/
def AcceptedIndex (ix : Index) : Prop :=
  (match ix with
   | .one _ => True
   | .tuple ks => ks.length ≤ 16 ∧ ∀ k ∈ ks, k.isSlice = false) ∧
  (∀ t ∈ ix.texts, '.' ∉ t ∧ ':' ∉ t) ∧ ((ix.texts.map List.length).sum + (ix.texts.length - 1) ≤ 1024)

end Spec
end Verif
