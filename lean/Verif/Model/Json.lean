import Verif.Model.Value
/-!
# Python's `json` text format

`json.dumps(..., separators=(',', ':'))` with the default `ensure_ascii=True`, and `json.loads`
(scanner.py / decoder.py).  Only ASCII digits are number characters; a lone surrogate escape
(`\ud800` without its partner) is not representable here and is treated as a decode error.
Recursion limits are not modelled.
-/
namespace Verif

/-- JSON trees; numbers keep the int / float distinction of Python's decoder. -/
inductive JVal where
  | null
  | bool (b : Bool)
  | int (i : Int)
  | flt (t : FloatTok)
  | str (s : Str)
  | arr (xs : List JVal)
  | obj (kvs : List (Str × JVal))
  deriving Repr

/-! ### Printing -/

/-- Lower-case hexadecimal digit. -/
def hexChar : Nat → Char
  | 0 => '0' | 1 => '1' | 2 => '2' | 3 => '3' | 4 => '4' | 5 => '5' | 6 => '6' | 7 => '7'
  | 8 => '8' | 9 => '9' | 10 => 'a' | 11 => 'b' | 12 => 'c' | 13 => 'd' | 14 => 'e' | _ => 'f'

/-- `'\\u{0:04x}'.format(n)` for n < 65536. -/
def uEsc (n : Nat) : Str :=
  ['\\', 'u', hexChar (n / 4096 % 16), hexChar (n / 256 % 16), hexChar (n / 16 % 16), hexChar (n % 16)]

/-- `json.encoder.py_encode_basestring_ascii`, one character. -/
def escChar (c : Char) : Str :=
  if c = '"' then ['\\', '"']
  else if c = '\\' then ['\\', '\\']
  else if c = '\n' then ['\\', 'n']
  else if c = '\r' then ['\\', 'r']
  else if c = '\t' then ['\\', 't']
  else if c = '\x0c' then ['\\', 'f']
  else if c = '\x08' then ['\\', 'b']
  else if 0x20 ≤ c.toNat ∧ c.toNat ≤ 0x7e then [c]
  else if c.toNat < 0x10000 then uEsc c.toNat
  else
    let v := c.toNat - 0x10000
    uEsc (0xd800 + v / 1024) ++ uEsc (0xdc00 + v % 1024)

/-- A JSON string literal without the opening quote. -/
def escTail (s : Str) : Str := s.flatMap escChar ++ ['"']

/-- A JSON string literal. -/
def jstr (s : Str) : Str := '"' :: escTail s

/-- `float.__repr__` as JSON writes it (`NaN`, `Infinity` allowed by default). -/
def FloatTok.text : FloatTok → Str
  | .lit neg ip frac exp =>
    (if neg then ['-'] else []) ++ natToStr ip
      ++ (if frac = [] then [] else '.' :: frac)
      ++ (match exp with | Option.none => [] | some p => 'e' :: (p.1 ++ p.2))
  | .nan => py! "NaN"
  | .inf false => py! "Infinity"
  | .inf true => py! "-Infinity"

mutual
/-- `json.dumps` of a tree. -/
def JVal.print : JVal → Str
  | .null => py! "null"
  | .bool true => py! "true"
  | .bool false => py! "false"
  | .int i => intToStr i
  | .flt t => t.text
  | .str s => jstr s
  | .arr xs => '[' :: JVal.printList xs
  | .obj kvs => '{' :: JVal.printItems kvs
/-- Elements and closing bracket. -/
def JVal.printList : List JVal → Str
  | [] => [']']
  | x :: xs => JVal.print x ++ JVal.printListTail xs
/-- Further elements. -/
def JVal.printListTail : List JVal → Str
  | [] => [']']
  | x :: xs => ',' :: (JVal.print x ++ JVal.printListTail xs)
/-- Members and closing brace. -/
def JVal.printItems : List (Str × JVal) → Str
  | [] => ['}']
  | (k, v) :: kvs => jstr k ++ ':' :: (JVal.print v ++ JVal.printItemsTail kvs)
/-- Further members. -/
def JVal.printItemsTail : List (Str × JVal) → Str
  | [] => ['}']
  | (k, v) :: kvs => ',' :: (jstr k ++ ':' :: (JVal.print v ++ JVal.printItemsTail kvs))
end

/-! ### Parsing -/

/-- JSON whitespace (`[ \t\n\r]*`). -/
def isWs (c : Char) : Bool := c == ' ' || c == '\t' || c == '\n' || c == '\r'

/-- Skip whitespace. -/
def skipWs (s : Str) : Str := s.dropWhile isWs

/-- Value of a hexadecimal digit of either case. -/
def hexVal? : Char → Option Nat
  | '0' => some 0 | '1' => some 1 | '2' => some 2 | '3' => some 3 | '4' => some 4
  | '5' => some 5 | '6' => some 6 | '7' => some 7 | '8' => some 8 | '9' => some 9
  | 'a' => some 10 | 'b' => some 11 | 'c' => some 12 | 'd' => some 13 | 'e' => some 14 | 'f' => some 15
  | 'A' => some 10 | 'B' => some 11 | 'C' => some 12 | 'D' => some 13 | 'E' => some 14 | 'F' => some 15
  | _ => none

/-- `_decode_uXXXX`. -/
def hex4 : Str → Option (Nat × Str)
  | a :: b :: c :: d :: s => do
    let a ← hexVal? a; let b ← hexVal? b; let c ← hexVal? c; let d ← hexVal? d
    return (a * 4096 + b * 256 + c * 16 + d, s)
  | _ => none

/-- One `\uXXXX` escape, with surrogate pair handling. -/
def parseU (s : Str) : Option (Char × Str) :=
  match hex4 s with
  | none => none
  | some (u, s) =>
    if 0xd800 ≤ u ∧ u ≤ 0xdbff then
      match s with
      | b :: u' :: s =>
        if b = '\\' ∧ u' = 'u' then
          match hex4 s with
          | some (u2, s) =>
            if 0xdc00 ≤ u2 ∧ u2 ≤ 0xdfff then
              some (Char.ofNat (0x10000 + (u - 0xd800) * 1024 + (u2 - 0xdc00)), s)
            else none
          | none => none
        else none
      | _ => none
    else if 0xdc00 ≤ u ∧ u ≤ 0xdfff then none
    else some (Char.ofNat u, s)

/-- `BACKSLASH` table of decoder.py. -/
def backslash : Char → Option Char
  | '"' => some '"' | '\\' => some '\\' | '/' => some '/' | 'b' => some '\x08' | 'f' => some '\x0c'
  | 'n' => some '\n' | 'r' => some '\r' | 't' => some '\t' | _ => none

/-- `py_scanstring` (strict) after the opening quote; each step consumes input, fuel bounds it. -/
def parseStrTail : Nat → Str → Option (Str × Str)
  | 0, _ => none
  | _ + 1, [] => none
  | f + 1, c :: s =>
    if c = '"' then some ([], s)
    else if c = '\\' then
      match s with
      | [] => none
      | e :: s =>
        if e = 'u' then
          match parseU s with
          | none => none
          | some (c, s) => (parseStrTail f s).map fun (t, r) => (c :: t, r)
        else
          match backslash e with
          | none => none
          | some c => (parseStrTail f s).map fun (t, r) => (c :: t, r)
    else if c.toNat < 0x20 then none
    else (parseStrTail f s).map fun (t, r) => (c :: t, r)

/-- Optional fraction `(\.\d+)?`. -/
def parseFrac : Str → Str × Str
  | [] => ([], [])
  | c :: r => if c = '.' ∧ (Dec.spanDigits r).1 ≠ [] then Dec.spanDigits r else ([], c :: r)

/-- Optional sign `[-+]?`. -/
def parseSign : Str → Str × Str
  | [] => ([], [])
  | c :: r => if c = '-' ∨ c = '+' then ([c], r) else ([], c :: r)

/-- Optional exponent `([eE][-+]?\d+)?`. -/
def parseExpo : Str → Option (Str × Str) × Str
  | [] => (none, [])
  | c :: r =>
    if (c = 'e' ∨ c = 'E') ∧ (Dec.spanDigits (parseSign r).2).1 ≠ [] then
      (some ((parseSign r).1, (Dec.spanDigits (parseSign r).2).1), (Dec.spanDigits (parseSign r).2).2)
    else (none, c :: r)

/-- Integer part `(0|[1-9]\d*)`; empty when there is none. -/
def parseIntPart : Str → Str × Str
  | [] => ([], [])
  | c :: r => if c = '0' then (['0'], r) else Dec.spanDigits (c :: r)

/-- `NUMBER_RE.match` on the unsigned part. -/
def parseNumU (neg : Bool) (s : Str) : Option (JVal × Str) :=
  let ip := (parseIntPart s).1
  if ip = [] then none
  else
    let fr := parseFrac (parseIntPart s).2
    let ex := parseExpo fr.2
    if fr.1 = [] ∧ ex.1 = none then
      some (.int (if neg then -(strToNat ip : Int) else strToNat ip), ex.2)
    else some (.flt (.lit neg (strToNat ip) fr.1 ex.1), ex.2)

/-- Match a literal word. -/
def word (w s : Str) : Option Str := if startsWith s w then some (s.drop w.length) else none

/-- Numbers and `NaN`, `Infinity`, `-Infinity` (scanner.py `_scan_once`). -/
def parseAtom (s : Str) : Option (JVal × Str) :=
  match s with
  | [] => none
  | c :: r =>
    if c = 'n' then (word (py! "null") s).map fun r => (.null, r)
    else if c = 't' then (word (py! "true") s).map fun r => (.bool true, r)
    else if c = 'f' then (word (py! "false") s).map fun r => (.bool false, r)
    else if c = 'N' then (word (py! "NaN") s).map fun r => (.flt .nan, r)
    else if c = 'I' then (word (py! "Infinity") s).map fun r => (.flt (.inf false), r)
    else if c = '-' then
      match parseNumU true r with
      | some x => some x
      | none => (word (py! "Infinity") r).map fun r => (.flt (.inf true), r)
    else parseNumU false s

mutual
/-- `scan_once`: a value at the start of the string (no leading whitespace). -/
def parseVal : Nat → Str → Option (JVal × Str)
  | 0, _ => none
  | _ + 1, [] => none
  | f + 1, c :: r =>
    if c = '"' then (parseStrTail (r.length + 1) r).map fun (t, r) => (.str t, r)
    else if c = '[' then
      match skipWs r with
      | [] => none
      | d :: r => if d = ']' then some (.arr [], r) else (parseElems f (d :: r)).map fun (xs, r) => (.arr xs, r)
    else if c = '{' then
      match skipWs r with
      | [] => none
      | d :: r => if d = '}' then some (.obj [], r) else (parseMembers f (d :: r)).map fun (kvs, r) => (.obj kvs, r)
    else parseAtom (c :: r)
/-- `JSONArray` after `[` and whitespace, non-empty. -/
def parseElems : Nat → Str → Option (List JVal × Str)
  | 0, _ => none
  | f + 1, s =>
    match parseVal f s with
    | none => none
    | some (x, r) =>
      match skipWs r with
      | [] => none
      | c :: r =>
        if c = ']' then some ([x], r)
        else if c = ',' then (parseElems f (skipWs r)).map fun (xs, r) => (x :: xs, r)
        else none
/-- `JSONObject` after `{` and whitespace, non-empty. -/
def parseMembers : Nat → Str → Option (List (Str × JVal) × Str)
  | 0, _ => none
  | _ + 1, [] => none
  | f + 1, q :: s =>
    if q = '"' then
      match parseStrTail (s.length + 1) s with
      | none => none
      | some (k, r) =>
        match skipWs r with
        | [] => none
        | c :: r =>
          if c = ':' then
            match parseVal f (skipWs r) with
            | none => none
            | some (v, r) =>
              match skipWs r with
              | [] => none
              | c :: r =>
                if c = '}' then some ([(k, v)], r)
                else if c = ',' then (parseMembers f (skipWs r)).map fun (kvs, r) => ((k, v) :: kvs, r)
                else none
          else none
    else none
end

/-- `json.loads(s)` before the object hook: leading and trailing whitespace allowed, nothing else
after the value; `none` is `JSONDecodeError`. -/
def parseJson (s : Str) : Option JVal :=
  match parseVal (s.length + 1) (skipWs s) with
  | some (j, r) => if skipWs r = [] then some j else none
  | none => none

end Verif
