import Verif.Model.Executor
/-! # Decidable equality of values (used to evaluate examples in the kernel) -/
namespace Verif

mutual
/-- Structural equality test. -/
def PyVal.eqb : PyVal → PyVal → Bool
  | .none, .none => true
  | .bool a, .bool b => a == b
  | .int a, .int b => a == b
  | .flt a, .flt b => a == b
  | .str a, .str b => a == b
  | .bytes a, .bytes b => a == b
  | .dec a, .dec b => a == b
  | .time a, .time b => a == b
  | .delta a b, .delta c d => a == c && b == d
  | .list xs, .list ys => PyVal.eqbs xs ys
  | .tuple xs, .tuple ys => PyVal.eqbs xs ys
  | .dict xs, .dict ys => PyVal.eqbd xs ys
  | .obj a, .obj b => a == b
  | _, _ => false
termination_by structural v => v
/-- Equality test of lists. -/
def PyVal.eqbs : List PyVal → List PyVal → Bool
  | [], [] => true
  | x :: xs, y :: ys => PyVal.eqb x y && PyVal.eqbs xs ys
  | _, _ => false
termination_by structural v => v
/-- Equality test of dict items. -/
def PyVal.eqbd : List (PyKey × PyVal) → List (PyKey × PyVal) → Bool
  | [], [] => true
  | x :: xs, y :: ys => PyVal.eqbp x y && PyVal.eqbd xs ys
  | _, _ => false
termination_by structural v => v
/-- Equality test of one dict item. -/
def PyVal.eqbp : PyKey × PyVal → PyKey × PyVal → Bool
  | (k, v), (k', v') => k == k' && PyVal.eqb v v'
termination_by structural v => v
end

mutual
theorem PyVal.eqb_iff : ∀ v w : PyVal, PyVal.eqb v w = true ↔ v = w
  | .none, w => by cases w <;> simp [PyVal.eqb]
  | .bool a, w => by cases w <;> simp [PyVal.eqb]
  | .int a, w => by cases w <;> simp [PyVal.eqb]
  | .flt a, w => by cases w <;> simp [PyVal.eqb]
  | .str a, w => by cases w <;> simp [PyVal.eqb]
  | .bytes a, w => by cases w <;> simp [PyVal.eqb]
  | .dec a, w => by cases w <;> simp [PyVal.eqb]
  | .time a, w => by cases w <;> simp [PyVal.eqb]
  | .delta a b, w => by cases w <;> simp [PyVal.eqb]
  | .list xs, w => by cases w <;> simp [PyVal.eqb, PyVal.eqbs_iff xs]
  | .tuple xs, w => by cases w <;> simp [PyVal.eqb, PyVal.eqbs_iff xs]
  | .dict xs, w => by cases w <;> simp [PyVal.eqb, PyVal.eqbd_iff xs]
  | .obj a, w => by cases w <;> simp [PyVal.eqb]
termination_by structural v => v
theorem PyVal.eqbs_iff : ∀ v w : List PyVal, PyVal.eqbs v w = true ↔ v = w
  | [], w => by cases w <;> simp [PyVal.eqbs]
  | x :: xs, w => by cases w <;> simp [PyVal.eqbs, PyVal.eqb_iff x, PyVal.eqbs_iff xs]
termination_by structural v => v
theorem PyVal.eqbd_iff : ∀ v w : List (PyKey × PyVal), PyVal.eqbd v w = true ↔ v = w
  | [], w => by cases w <;> simp [PyVal.eqbd]
  | x :: xs, w => by cases w <;> simp [PyVal.eqbd, PyVal.eqbp_iff x, PyVal.eqbd_iff xs]
termination_by structural v => v
theorem PyVal.eqbp_iff : ∀ v w : PyKey × PyVal, PyVal.eqbp v w = true ↔ v = w
  | (k, v), (k', v') => by simp [PyVal.eqbp, PyVal.eqb_iff v]
termination_by structural v => v
end

instance : DecidableEq PyVal := fun v w => decidable_of_iff _ (PyVal.eqb_iff v w)
instance {α β : Type} [DecidableEq α] [DecidableEq β] : DecidableEq (Except α β)
  | .ok a, .ok b => decidable_of_iff (a = b) (by simp)
  | .error a, .error b => decidable_of_iff (a = b) (by simp)
  | .ok a, .error b => .isFalse (by simp)
  | .error a, .ok b => .isFalse (by simp)
instance {α β : Type} [DecidableEq α] [DecidableEq β] : DecidableEq (Dict α β) := inferInstanceAs (DecidableEq (List (α × β)))
deriving instance DecidableEq for Event
deriving instance DecidableEq for Frame

end Verif
