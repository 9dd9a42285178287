import Verif.Model.Digits
/-!
# State keys and where they live on disk

`driver.py` (`make_key`, `__parse_key`, `__filename_to_path`), `orm.py` (`Hash._validate_key`) and the
way HDF5 resolves a group name.
-/
namespace Verif

/-- `sep.join(xs)` for a one-character separator. -/
def joinWith (c : Char) : List Str → Str
  | [] => []
  | [x] => x
  | x :: y :: xs => x ++ c :: joinWith c (y :: xs)

/-- `s.split(c)`. -/
def splitOnC (c : Char) : Str → List Str
  | [] => [[]]
  | a :: s =>
    if a = c then [] :: splitOnC c s
    else
      match splitOnC c s with
      | [] => [[a]]
      | x :: xs => (a :: x) :: xs

/-- `s.split(c, 1)`: text before the first `c`, and the text after it when there is one. -/
def splitFirst (c : Char) : Str → Str × Option Str
  | [] => ([], none)
  | a :: s => if a = c then ([], some s) else
      let (x, y) := splitFirst c s
      (a :: x, y)

/-- `s.replace(a, b)` for one-character strings. -/
def replaceC (a b : Char) (s : Str) : Str := s.map fun c => if c = a then b else c

/-- driver.py:208-212 `make_key` without arguments: `contract.variable`. -/
def makeKey (contract name : Str) : Str := contract ++ '.' :: name

/-- driver.py:208-212 `make_key` with arguments (already converted by `str`). -/
def makeKeyArgs (contract name : Str) (args : List Str) : Str :=
  match args with
  | [] => makeKey contract name
  | _ => joinWith ':' (makeKey contract name :: args)

/-- One component of a Hash index: a slice object or anything else, given by its `str()`. -/
inductive Comp where
  | slice (text : Str)
  | int (i : Int)
  | str (s : Str)
  | other (text : Str)
  deriving DecidableEq, Repr

/-- `str(k)`. -/
def Comp.text : Comp → Str
  | .slice t => t
  | .int i => intToStr i
  | .str s => s
  | .other t => t

/-- `isinstance(k, slice)`. -/
def Comp.isSlice : Comp → Bool
  | .slice _ => true
  | _ => false

/-- The object between the brackets of `h[...]`. -/
inductive Index where
  | one (k : Comp)
  | tuple (ks : List Comp)
  deriving DecidableEq, Repr

/-- orm.py:71-79: the loop over the components of a tuple. -/
def validateComps : List Comp → Except PyErr Str
  | [] => .ok []
  | k :: ks =>
    if k.isSlice then .error .assertion
    else if ':' ∈ k.text then .error .assertion
    else if '.' ∈ k.text then .error .assertion
    else (validateComps ks).map fun r => k.text ++ ':' :: r

/-- orm.py:63-91 `Hash._validate_key`; `constants.MAX_HASH_DIMENSIONS = 16`, `MAX_KEY_SIZE = 1024`. -/
def validateKey (ix : Index) : Except PyErr Str :=
  let key : Except PyErr Str :=
    match ix with
    | .tuple ks =>
      if ks.length ≤ 16 then (validateComps ks).map fun s => s.take (s.length - 1)
      else .error .assertion
    | .one k =>
      if ':' ∈ k.text then .error .assertion
      else if '.' ∈ k.text then .error .assertion
      else .ok k.text
  match key with
  | .error e => .error e
  | .ok s => if s.length ≤ 1024 then .ok s else .error .assertion

/-- driver.py:48-61 `__parse_key`: file name and HDF5 group name of a key. -/
def parseKey (key : Str) : Str × Str :=
  let parts := splitFirst '.' key
  let filename := (splitFirst ':' parts.1).1
  match parts.2 with
  | some rest => (filename, replaceC ':' '/' rest)
  | none => (filename, replaceC ':' '/' parts.1)

/-- How HDF5 resolves a group name: components separated by `/`, empty components and `.` ignored
(HDF5 library behaviour behind `f[group_name]` and `require_group`). -/
def groupPath (group : Str) : List Str := (splitOnC '/' group).filter fun x => x ≠ [] ∧ x ≠ ['.']

/-- A place on disk: file (the directory is determined by the name, driver.py:64-68) and group. -/
abbrev Loc := Str × List Str

/-- The place of a key. -/
def locOf (key : Str) : Loc := ((parseKey key).1, groupPath (parseKey key).2)

end Verif
