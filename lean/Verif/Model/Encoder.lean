import Verif.Model.Json
/-!
# `contracting/storage/encoder.py`

Values to JSON text and back.
-/
namespace Verif

/-- encoder.py:8-9. -/
def mongoMin : Int := -(2 ^ 63)
/-- encoder.py:9. -/
def mongoMax : Int := 2 ^ 63 - 1

/-- The reserved tag names (encoder.py:34, 38, 42, 46-54, 65, 164, TYPES). -/
def tagTime : Str := py! "__time__"
/-- encoder.py:38. -/
def tagDelta : Str := py! "__delta__"
/-- encoder.py:42. -/
def tagBytes : Str := py! "__bytes__"
/-- encoder.py:46-54. -/
def tagFixed : Str := py! "__fixed__"
/-- encoder.py:65. -/
def tagBigInt : Str := py! "__big_int__"

/-- encoder.py:60-66 `encode_int`. -/
def encodeInt (i : Int) : PyVal :=
  if mongoMin < i ∧ i < mongoMax then .int i
  else .dict [(.str tagBigInt, .str (intToStr i))]

mutual
/-- encoder.py:69-88 `encode_ints_in_dict`, on one value of the dict (`isinstance(True, int)`, and
`encode_int(True)` is `True`). -/
def encodeIntsVal : PyVal → PyVal
  | .int i => encodeInt i
  | .bool b => .bool b
  | .dict kvs => .dict (encodeIntsItems kvs)
  | .list xs => .list (encodeIntsList xs)
  | v => v
/-- encoder.py:69-88, over the items. -/
def encodeIntsItems : List (PyKey × PyVal) → List (PyKey × PyVal)
  | [] => []
  | (k, v) :: kvs => (k, encodeIntsVal v) :: encodeIntsItems kvs
/-- encoder.py:76-84, elements of a list that is a dict value: dicts and ints are processed, nested
lists are not. -/
def encodeIntsList : List PyVal → List PyVal
  | [] => []
  | .int i :: xs => encodeInt i :: encodeIntsList xs
  | .dict kvs :: xs => .dict (encodeIntsItems kvs) :: encodeIntsList xs
  | x :: xs => x :: encodeIntsList xs
end

/-- Lower-case hex of bytes (`bytes.hex()`). -/
def bytesHex (bs : List (Fin 256)) : Str :=
  bs.flatMap fun b => [hexChar (b.val / 16), hexChar (b.val % 16)]

/-- `json.dumps` key conversion (`str`, `int`, `True/False`, `None`). -/
def keyText : PyKey → Str
  | .str s => s
  | .int i => intToStr i
  | .bool true => py! "true"
  | .bool false => py! "false"
  | .none => py! "null"

mutual
/-- `json.dumps(data, cls=Encoder)` up to text: encoder.py:30-57 `Encoder.default` for the tagged
types, the JSON mapping of built-in types otherwise; other objects raise `TypeError`. -/
def toJson : PyVal → Except PyErr JVal
  | .none => .ok .null
  | .bool b => .ok (.bool b)
  | .int i => .ok (.int i)
  | .flt t => .ok (.flt t)
  | .str s => .ok (.str s)
  | .bytes bs => .ok (.obj [(tagBytes, .str (bytesHex bs))])
  | .dec d => (Dec.fixPrecision d).map fun d' => .obj [(tagFixed, .str (Dec.toStr false d'))]
  | .time t => .ok (.obj [(tagTime, .arr [.int t.year, .int t.month, .int t.day, .int t.hour,
      .int t.minute, .int t.second, .int t.micro])])
  | .delta d s => .ok (.obj [(tagDelta, .arr [.int d, .int s])])
  | .list xs => (toJsonList xs).map .arr
  | .tuple xs => (toJsonList xs).map .arr
  | .dict kvs => (toJsonItems kvs).map .obj
  | .obj _ => .error .typeError
/-- Elements. -/
def toJsonList : List PyVal → Except PyErr (List JVal)
  | [] => .ok []
  | x :: xs => do return (← toJson x) :: (← toJsonList xs)
/-- Members. -/
def toJsonItems : List (PyKey × PyVal) → Except PyErr (List (Str × JVal))
  | [] => .ok []
  | (k, v) :: kvs => do return (keyText k, ← toJson v) :: (← toJsonItems kvs)
end

/-- encoder.py:100-103: integer preprocessing at the top level. -/
def preEncode : PyVal → PyVal
  | .int i => encodeInt i
  | .dict kvs => .dict (encodeIntsItems kvs)
  | v => v

/-- encoder.py:92-105 `encode`: the JSON text. -/
def encode (v : PyVal) : Except PyErr Str := (toJson (preEncode v)).map JVal.print

/-! ### Decoding -/

/-- `bytes.fromhex(s)`: pairs of hex digits, ASCII whitespace allowed between bytes. -/
def fromHex : Str → Option (List (Fin 256))
  | [] => some []
  | [c] => if Dec.isSpace c then some [] else none
  | a :: b :: s =>
    if Dec.isSpace a then fromHex (b :: s)
    else
      match hexVal? a, hexVal? b with
      | some x, some y =>
        (fromHex s).map fun bs => (⟨(x * 16 + y) % 256, Nat.mod_lt _ (by decide)⟩ : Fin 256) :: bs
      | _, _ => none

/-- An int argument of `datetime(...)`: ints and bools, anything else is a `TypeError`. -/
def asInt : PyVal → Except PyErr Int
  | .int i => .ok i
  | .bool b => .ok (if b then 1 else 0)
  | _ => .error .typeError

/-- `int(x)` as `Timedelta.__init__` applies it (time.py:115-122); conversion of floats and
decimals in a forged `__delta__` is not modelled (error). -/
def pyIntOf : PyVal → Except PyErr Int
  | .int i => .ok i
  | .bool b => .ok (if b then 1 else 0)
  | .str s => match pyInt s with | some i => .ok i | none => .error .valueError
  | _ => .error .typeError

/-- `Datetime(*d['__time__'])` (encoder.py:109-110): three to seven ints. -/
def timeOf : PyVal → Except PyErr PyVal
  | .list xs => do
    let is ← xs.mapM asInt
    match is with
    | [y, mo, d] => (DateTime.make y mo d 0 0 0 0).map .time
    | [y, mo, d, h] => (DateTime.make y mo d h 0 0 0).map .time
    | [y, mo, d, h, mi] => (DateTime.make y mo d h mi 0 0).map .time
    | [y, mo, d, h, mi, s] => (DateTime.make y mo d h mi s 0).map .time
    | [y, mo, d, h, mi, s, us] => (DateTime.make y mo d h mi s us).map .time
    | _ => .error .typeError
  | _ => .error .typeError

/-- `Timedelta(days=x[0], seconds=x[1])` (encoder.py:111-112). -/
def deltaOf : PyVal → Except PyErr PyVal
  | .list (a :: b :: _) => do
    let t ← TimeDelta.make 0 (← pyIntOf a) 0 0 (← pyIntOf b)
    return .delta t.days t.seconds
  | .str (a :: b :: _) => do
    let t ← TimeDelta.make 0 (← pyIntOf (.str [a])) 0 0 (← pyIntOf (.str [b]))
    return .delta t.days t.seconds
  | _ => .error .typeError

/-- `bytes.fromhex(x)` (encoder.py:113-114). -/
def bytesOf : PyVal → Except PyErr PyVal
  | .str s => match fromHex s with | some bs => .ok (.bytes bs) | none => .error .valueError
  | _ => .error .typeError

/-- `ContractingDecimal(x)` (encoder.py:115-116, bridge/decimal.py:60-71); other types raise
(`Decimal(list)` is not modelled). -/
def fixedOf : PyVal → Except PyErr PyVal
  | .str s => (cdOfStr s).map .dec
  | .int i => (cdOfInt i).map .dec
  | .flt t => (cdOfStr t.text).map .dec
  | .bool _ => .error .invalidOperation
  | _ => .error .typeError

/-- `int(x)` (encoder.py:117-118). -/
def bigIntOf (v : PyVal) : Except PyErr PyVal := (pyIntOf v).map .int

/-- encoder.py:108-119 `as_object`, on the dict already built by the JSON parser. -/
def asObject (d : Dict Str PyVal) : Except PyErr PyVal :=
  match Dict.get? d tagTime with
  | some v => timeOf v
  | none =>
    match Dict.get? d tagDelta with
    | some v => deltaOf v
    | none =>
      match Dict.get? d tagBytes with
      | some v => bytesOf v
      | none =>
        match Dict.get? d tagFixed with
        | some v => fixedOf v
        | none =>
          match Dict.get? d tagBigInt with
          | some v => bigIntOf v
          | none => .ok (.dict (d.map fun kv => (PyKey.str kv.1, kv.2)))

mutual
/-- `json.loads(..., object_hook=as_object)`: the hook runs on inner objects first; duplicate keys
collapse (`dict(pairs)`). -/
def fromJson : JVal → Except PyErr PyVal
  | .null => .ok .none
  | .bool b => .ok (.bool b)
  | .int i => .ok (.int i)
  | .flt t => .ok (.flt t)
  | .str s => .ok (.str s)
  | .arr xs => (fromJsonList xs).map .list
  | .obj kvs => (fromJsonItems kvs).bind fun d => asObject (Dict.ofPairs d)
/-- Elements. -/
def fromJsonList : List JVal → Except PyErr (List PyVal)
  | [] => .ok []
  | x :: xs => do return (← fromJson x) :: (← fromJsonList xs)
/-- Members. -/
def fromJsonItems : List (Str × JVal) → Except PyErr (List (Str × PyVal))
  | [] => .ok []
  | (k, v) :: kvs => do return (k, ← fromJson v) :: (← fromJsonItems kvs)
end

/-- encoder.py:124-134 `decode` of a text (`None` for `None` input and on JSONDecodeError). -/
def decode (s : Str) : Except PyErr PyVal :=
  match parseJson s with
  | none => .ok .none
  | some j => fromJson j

end Verif
