import Verif.Model.Value
import Verif.Model.Json
import Verif.Spec.Decimal
/-!
# Which values can be stored, and when two values are the same

Independent of the encoder: what a contract author may put in a variable, and Python `==` (kept
type-preserving: no `1 == True`).
-/
namespace Verif

/-- Float texts as Python prints them: a fraction or an exponent is present. -/
def FloatTok.WF : FloatTok → Prop
  | .lit _ _ frac exp => (∀ c ∈ frac, isDigit c = true) ∧ (frac ≠ [] ∨ exp ≠ none) ∧
      (∀ p, exp = some p → (p.1 = [] ∨ p.1 = ['+'] ∨ p.1 = ['-']) ∧ p.2 ≠ [] ∧ ∀ c ∈ p.2, isDigit c = true)
  | _ => True

/-- Dict keys the encoder gives a meaning of its own. -/
def Spec.reserved : List Str :=
  [py! "__time__", py! "__delta__", py! "__bytes__", py! "__fixed__", py! "__big_int__"]

mutual
/-- Values a contract can store and expect back. -/
def Storable : PyVal → Prop
  | .none => True
  | .bool _ => True
  | .int _ => True
  | .str _ => True
  | .bytes _ => True
  | .flt t => t.WF
  | .dec d => IsCD d
  | .time t => t.Valid
  | .delta d s => -999999999 ≤ d ∧ d ≤ 999999999 ∧ 0 ≤ s ∧ s < 86400
  | .list xs => StorableList xs
  | .dict kvs => (kvs.map Prod.fst).Nodup ∧ StorableItems kvs
  | .tuple _ => False
  | .obj _ => False
/-- Every element is storable. -/
def StorableList : List PyVal → Prop
  | [] => True
  | x :: xs => Storable x ∧ StorableList xs
/-- Every key is a non-reserved string and every value is storable. -/
def StorableItems : List (PyKey × PyVal) → Prop
  | [] => True
  | (k, v) :: kvs => (∃ s, k = .str s ∧ s ∉ Spec.reserved) ∧ Storable v ∧ StorableItems kvs
end

mutual
/-- Python `==`, without conversions between types: decimals compare by number, lists and dicts
element by element (dicts in the same order), everything else must be identical. -/
def PyEq : PyVal → PyVal → Prop
  | .dec a, .dec b => a.val = b.val
  | .list xs, .list ys => PyEqList xs ys
  | .dict xs, .dict ys => PyEqItems xs ys
  | v, w => v = w
/-- Element by element. -/
def PyEqList : List PyVal → List PyVal → Prop
  | [], [] => True
  | x :: xs, y :: ys => PyEq x y ∧ PyEqList xs ys
  | _, _ => False
/-- Item by item. -/
def PyEqItems : List (PyKey × PyVal) → List (PyKey × PyVal) → Prop
  | [], [] => True
  | (k, x) :: xs, (l, y) :: ys => k = l ∧ PyEq x y ∧ PyEqItems xs ys
  | _, _ => False
end

mutual
/-- Every decimal anywhere in the value is in canonical form. -/
def DecsCanonical : PyVal → Prop
  | .dec d => Canonical d
  | .list xs => DecsCanonicalList xs
  | .dict kvs => DecsCanonicalItems kvs
  | _ => True
/-- Elements. -/
def DecsCanonicalList : List PyVal → Prop
  | [] => True
  | x :: xs => DecsCanonical x ∧ DecsCanonicalList xs
/-- Items. -/
def DecsCanonicalItems : List (PyKey × PyVal) → Prop
  | [] => True
  | (_, v) :: kvs => DecsCanonical v ∧ DecsCanonicalItems kvs
end

mutual
/-- Only JSON data: no bytes, decimal, datetime, timedelta or foreign object anywhere. -/
def PyVal.Plain : PyVal → Prop
  | .bytes _ | .dec _ | .time _ | .delta _ _ | .obj _ => False
  | .list xs => PyVal.PlainList xs
  | .tuple xs => PyVal.PlainList xs
  | .dict kvs => PyVal.PlainItems kvs
  | _ => True
/-- Elements. -/
def PyVal.PlainList : List PyVal → Prop
  | [] => True
  | x :: xs => PyVal.Plain x ∧ PyVal.PlainList xs
/-- Items. -/
def PyVal.PlainItems : List (PyKey × PyVal) → Prop
  | [] => True
  | (_, v) :: kvs => PyVal.Plain v ∧ PyVal.PlainItems kvs
end

mutual
/-- No reserved member name at any depth of the JSON tree. -/
def JVal.NoTags : JVal → Prop
  | .arr xs => JVal.NoTagsList xs
  | .obj kvs => JVal.NoTagsItems kvs
  | _ => True
/-- Elements. -/
def JVal.NoTagsList : List JVal → Prop
  | [] => True
  | x :: xs => JVal.NoTags x ∧ JVal.NoTagsList xs
/-- Members. -/
def JVal.NoTagsItems : List (Str × JVal) → Prop
  | [] => True
  | (k, v) :: kvs => k ∉ Spec.reserved ∧ JVal.NoTags v ∧ JVal.NoTagsItems kvs
end

mutual
/-- Every JSON integer in the tree lies strictly between `-2^63` and `2^63-1`. -/
def JVal.SmallInts : JVal → Prop
  | .int i => -(2 ^ 63) < i ∧ i < 2 ^ 63 - 1
  | .arr xs => JVal.SmallIntsList xs
  | .obj kvs => JVal.SmallIntsItems kvs
  | _ => True
/-- Elements. -/
def JVal.SmallIntsList : List JVal → Prop
  | [] => True
  | x :: xs => JVal.SmallInts x ∧ JVal.SmallIntsList xs
/-- Members. -/
def JVal.SmallIntsItems : List (Str × JVal) → Prop
  | [] => True
  | (_, v) :: kvs => JVal.SmallInts v ∧ JVal.SmallIntsItems kvs
end

mutual
/-- Every integer anywhere in the value lies strictly between `-2^63` and `2^63-1`. -/
def AllSmall : PyVal → Prop
  | .int i => -(2 ^ 63) < i ∧ i < 2 ^ 63 - 1
  | .list xs => AllSmallList xs
  | .dict kvs => AllSmallItems kvs
  | _ => True
/-- Elements. -/
def AllSmallList : List PyVal → Prop
  | [] => True
  | x :: xs => AllSmall x ∧ AllSmallList xs
/-- Items. -/
def AllSmallItems : List (PyKey × PyVal) → Prop
  | [] => True
  | (_, v) :: kvs => AllSmall v ∧ AllSmallItems kvs
end

mutual
/-- For a value inside a dict: all integers in lists that are directly inside a list are small. -/
def NestedSmall : PyVal → Prop
  | .dict kvs => NestedSmallItems kvs
  | .list xs => NestedSmallList xs
  | _ => True
/-- Elements of a list inside a dict. -/
def NestedSmallList : List PyVal → Prop
  | [] => True
  | .list ys :: xs => AllSmallList ys ∧ NestedSmallList xs
  | x :: xs => NestedSmall x ∧ NestedSmallList xs
/-- Values of a dict. -/
def NestedSmallItems : List (PyKey × PyVal) → Prop
  | [] => True
  | (_, v) :: kvs => NestedSmall v ∧ NestedSmallItems kvs
end

/-- For a stored value: all integers in a list stored directly, or in a list directly inside a list, are small. -/
def ListsSmall : PyVal → Prop
  | .list xs => AllSmallList xs
  | v => NestedSmall v

end Verif
