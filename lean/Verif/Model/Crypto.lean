import Verif.Model.Base
/-!
# `stdlib/bridge/hashing.py`, `stdlib/bridge/crypto.py`
-/
namespace Verif

/-- The value of a hexadecimal digit (CPython's `_PyLong_DigitValue`, below 16). -/
def hexDigit (c : Char) : Option Nat :=
  if '0' ≤ c ∧ c ≤ '9' then some (c.toNat - 48)
  else if 'a' ≤ c ∧ c ≤ 'f' then some (c.toNat - 87)
  else if 'A' ≤ c ∧ c ≤ 'F' then some (c.toNat - 55)
  else none

/-- `Py_ISSPACE`: space, tab, newline, vertical tab, form feed, carriage return. -/
def asciiSpace (c : Char) : Bool := c.toNat = 32 || (9 ≤ c.toNat && c.toNat ≤ 13)

/-- `bytes.fromhex(s)`; `none` stands for `ValueError`. Whitespace is skipped before each pair of digits. -/
def hexToBytes : Str → Option (List UInt8)
  | [] => some []
  | c :: s =>
    if asciiSpace c then hexToBytes s
    else
      match s with
      | [] => none
      | d :: s =>
        match hexDigit c, hexDigit d with
        | some a, some b => (hexToBytes s).map (UInt8.ofNat (16 * a + b) :: ·)
        | _, _ => none

/-- `s.encode()`: UTF-8. (Python strings with lone surrogates are not modelled.) -/
def utf8 (s : Str) : List UInt8 := s.flatMap String.utf8EncodeChar

/-- hashing.py:11-14, 25-28: the bytes given to the hash function. -/
def hashInput (s : Str) : List UInt8 := (hexToBytes s).getD (utf8 s)

/-- hashing.py:10-21 `sha3` and 24-35 `sha256`, for the hash function `digest` (bytes to hexadecimal text). -/
def hashOf (digest : List UInt8 → Str) (s : Str) : Str := digest (hashInput s)

/-- The digits of `int(s, 16)`: digits with single underscores between them. Gives the rest, or `none` if the
underscores are misplaced. `prev` is the previous character. -/
def scanHex (prev : Char) : Str → Option Str
  | [] => if prev = '_' then none else some []
  | c :: s =>
    if c = '_' then (if prev = '_' then none else scanHex '_' s)
    else if (hexDigit c).isSome then scanHex c s
    else if prev = '_' then none
    else some (c :: s)

/-- The optional sign of `int(s, 16)`. -/
def skipSign : Str → Str
  | '+' :: s => s
  | '-' :: s => s
  | s => s

/-- The optional prefix `0x` of `int(s, 16)`, with one underscore. -/
def skipPrefix : Str → Str
  | '0' :: 'x' :: '_' :: s => s
  | '0' :: 'x' :: s => s
  | '0' :: 'X' :: '_' :: s => s
  | '0' :: 'X' :: s => s
  | s => s

/-- `int(s, 16)` succeeds. `uni` is Python's conversion of non-ASCII decimal digits and whitespace. -/
def intHex (uni : Char → Char) (s : Str) : Bool :=
  let s := s.map (fun c => if c.toNat < 127 then c else uni c)
  let s := skipPrefix (skipSign (s.dropWhile asciiSpace))
  s.head? ≠ some '_' &&
  match scanHex ' ' s with
  | none => false
  | some rest => decide (rest.length < s.length) && (rest.dropWhile asciiSpace).isEmpty

/-- crypto.py:18-27 `key_is_valid`. -/
def keyIsValid (uni : Char → Char) (key : Str) : Bool := decide (key.length = 64) && intHex uni key

/-- PyNaCl as `crypto.verify` uses it. `loaded`: some module has imported `nacl.signing` (`import nacl` alone, crypto.py:2,
does not make it available). `ed25519 key msg sig`: libsodium's check of a 64-byte signature under a 32-byte key. -/
structure Nacl where
  loaded : Bool
  ed25519 : List UInt8 → List UInt8 → List UInt8 → Bool

/-- crypto.py:5-15 `verify`. `VerifyKey(vk)` raises unless the key has 32 bytes; `vk.verify` raises unless the
signature has 64 bytes and is correct, which the bare `except` turns into `False`. (That the `except` also swallows
the tracer's exception is modelled by the `guarded` action of `Model/Runtime.lean`.) -/
def verifySig (N : Nacl) (vk msg signature : Str) : Except PyErr Bool :=
  match hexToBytes vk with
  | none => .error .valueError
  | some k =>
    match hexToBytes signature with
    | none => .error .valueError
    | some sig =>
      if N.loaded = false then .error .attributeError
      else if k.length = 32 then .ok (decide (sig.length = 64) && N.ed25519 k (utf8 msg) sig)
      else .error .valueError

end Verif
