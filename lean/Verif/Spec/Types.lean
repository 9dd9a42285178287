import Verif.Model.Orm
/-!
# What `isinstance` means
-/
namespace Verif.Spec

/-- `type(v)`, for the values of contracts; `None` has none of the classes in question. -/
def classOf : PyVal → Option PyType
  | .none => none
  | .bool _ => some .bool
  | .int _ => some .int
  | .flt _ => some .float
  | .str _ => some .str
  | .bytes _ => some .bytes
  | .dec _ => some .decimal
  | .time _ => some .datetime
  | .delta _ _ => some .timedelta
  | .list _ => some .list
  | .tuple _ => some .tuple
  | .dict _ => some .dict
  | .obj n => some (.other n)

/-- `v` is an instance of class `t`: `t` is its class, or `v` is a `bool` and `t` is `int`, the one subclass relation
among these classes. -/
def InstanceOf (t : PyType) (v : PyVal) : Prop :=
  classOf v = some t ∨ (t = .int ∧ classOf v = some .bool)

end Verif.Spec

namespace Verif
open Spec

theorem isInstance_iff {v : PyVal} {t : PyType} : isInstance v t = true ↔ InstanceOf t v := by
  unfold InstanceOf
  cases v <;> cases t <;> simp [isInstance, classOf]

theorem isInstance_false {v : PyVal} {t : PyType} : isInstance v t = false ↔ ¬ InstanceOf t v := by
  rw [← isInstance_iff]; simp

instance (t : PyType) (v : PyVal) : Decidable (InstanceOf t v) := by unfold InstanceOf; infer_instance

end Verif
