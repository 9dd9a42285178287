import Verif.Model.Convert
import Verif.Props.Encoder
import Verif.Props.Crypto
import Verif.Props.Time
import Verif.Proofs.ValueEq
/-!
# C88: convert_dict; more about C08, C11 and C46
-/
namespace Verif
open Spec

/-! ### C11: bytes, escapes, texts that are not JSON -/

theorem hexVal?_iff (c : Char) (n : ℕ) : hexVal? c = some n ↔ IsHex c ∧ hexVal c = n := by
  constructor
  · intro h
    unfold hexVal? at h
    split at h <;> cases h <;> exact ⟨by decide, by decide⟩
  · rintro ⟨h, rfl⟩
    simp only [IsHex, List.mem_cons, List.not_mem_nil, or_false] at h
    rcases h with h | h | h | h | h | h | h | h | h | h | h | h | h | h | h | h | h | h | h | h | h | h <;>
      subst h <;> decide

theorem isSpace_ascii (c : Char) : Dec.isSpace c = asciiSpace c := by
  have key : ∀ n : ℕ, (c = Char.ofNat n ↔ c.toNat = n) ∨ 127 < n := by
    intro n
    by_cases hn : n ≤ 127
    · left
      constructor
      · rintro rfl
        have hv : n.isValidChar := Or.inl (by omega)
        rw [Char.ofNat, dif_pos hv]; rfl
      · intro h; rw [← h, Char.ofNat_toNat]
    · right; omega
  have k : ∀ n, n ≤ 127 → (c = Char.ofNat n ↔ c.toNat = n) := fun n hn => (key n).resolve_right (by omega)
  rw [Bool.eq_iff_iff]
  simp only [Dec.isSpace, asciiSpace, Bool.or_eq_true, beq_iff_eq, Bool.and_eq_true, decide_eq_true_eq]
  have h1 := k 32 (by omega)
  have h2 := k 9 (by omega)
  have h3 := k 10 (by omega)
  have h4 := k 13 (by omega)
  have h5 := k 11 (by omega)
  have h6 := k 12 (by omega)
  have e1 : Char.ofNat 32 = ' ' := rfl
  have e2 : Char.ofNat 9 = '\t' := rfl
  have e3 : Char.ofNat 10 = '\n' := rfl
  have e4 : Char.ofNat 13 = '\r' := rfl
  have e5 : Char.ofNat 11 = '\x0b' := rfl
  have e6 : Char.ofNat 12 = '\x0c' := rfl
  rw [e1] at h1; rw [e2] at h2; rw [e3] at h3; rw [e4] at h4; rw [e5] at h5; rw [e6] at h6
  rw [h1, h2, h3, h4, h5, h6]
  omega

theorem hexDigit_eq (c : Char) : hexDigit c = hexVal? c := by
  cases h : hexVal? c with
  | none =>
    cases h' : hexDigit c with
    | none => rfl
    | some n =>
      have := (hexDigit_iff c).1 (by rw [h']; rfl)
      rw [(hexVal?_iff c _).2 ⟨this, rfl⟩] at h; cases h
  | some n =>
    have hx := ((hexVal?_iff c n).1 h).1
    simp only [IsHex, List.mem_cons, List.not_mem_nil, or_false] at hx
    rcases hx with hx | hx | hx | hx | hx | hx | hx | hx | hx | hx | hx | hx | hx | hx | hx | hx | hx | hx | hx | hx | hx | hx <;>
      (subst hx; rw [← h]; decide)

/-- The byte as an unsigned 8-bit number. -/
def asByte (b : Fin 256) : UInt8 := UInt8.ofNat b.val

theorem asByte_inj {a b : Fin 256} (h : asByte a = asByte b) : a = b := by
  have := congrArg UInt8.toNat h
  simp only [asByte, UInt8.toNat_ofNat'] at this
  apply Fin.ext
  have := a.isLt
  have := b.isLt
  omega

theorem fromHex_eq (s : Str) : (fromHex s).map (·.map asByte) = hexToBytes s := by
  induction hn : s.length using Nat.strong_induction_on generalizing s with
  | _ n ih =>
    subst hn
    match s with
    | [] => rw [fromHex, hexToBytes]; rfl
    | [c] =>
      rw [fromHex, hexToBytes.eq_def, isSpace_ascii]
      dsimp only
      split
      · rw [hexToBytes]; rfl
      · rfl
    | a :: b :: s =>
      rw [fromHex, hexToBytes.eq_def, isSpace_ascii]
      dsimp only
      split
      · exact ih (b :: s).length (by simp) (b :: s) rfl
      · rw [hexDigit_eq, hexDigit_eq]
        have := ih s.length (by simp) s rfl
        cases ha : hexVal? a <;> cases hb : hexVal? b <;> try rfl
        rename_i x y
        dsimp only
        rw [← this]
        cases fromHex s with
        | none => rfl
        | some bs =>
          simp only [Option.map_some, List.map_cons, Option.some.injEq, List.cons.injEq, and_true]
          unfold asByte
          apply UInt8.toNat_inj.1
          simp only [UInt8.toNat_ofNat']
          omega

/-- **C11, bytes.** A stored `{"__bytes__": text}` reads as the bytes the text stands for -- pairs of
hexadecimal digits of either case, blanks between them ignored -- and as nothing else. -/
theorem C11_bytes (t : Str) (bs : List (Fin 256)) :
    decode (JVal.print (.obj [(py! "__bytes__", .str t)])) = .ok (.bytes bs) ↔ HexText t (bs.map asByte) := by
  rw [decode, parseJson_print (show JVal.WF (.obj [(py! "__bytes__", .str t)]) from ⟨trivial, trivial⟩)]
  dsimp only
  have e : fromJson (.obj [(py! "__bytes__", .str t)]) = bytesOf (.str t) := by
    rw [fromJson_tag (w := .str t) rfl]
    simp [asObject, Dict.get?, tagTime, tagDelta, tagBytes]
  rw [e, ← hexToBytes_iff, ← fromHex_eq, bytesOf]
  cases fromHex t with
  | none => simp
  | some cs =>
    simp only [Except.ok.injEq, PyVal.bytes.injEq, Option.map_some, Option.some.injEq]
    exact ⟨fun h => by rw [h], fun h => List.map_injective_iff.2 (fun _ _ => asByte_inj) h⟩

example : decode (py! "{\"__bytes__\":\"DE aD\"}") = .ok (.bytes [0xde, 0xad]) := by rfl

/-- **C11, escapes.** A `\uXXXX` escape with digits of either case reads as the character with that code (surrogates,
which only occur in pairs, aside). -/
theorem C11_escape {a b c d : Char} (ha : IsHex a) (hb : IsHex b) (hc : IsHex c) (hd : IsHex d) (n : ℕ)
    (hn : n = hexVal a * 4096 + hexVal b * 256 + hexVal c * 16 + hexVal d) (hs : n < 0xd800 ∨ 0xdfff < n) :
    decode ('"' :: '\\' :: 'u' :: a :: b :: c :: d :: ['"']) = .ok (.str [Char.ofNat n]) := by
  have h4 : hex4 [a, b, c, d, '"'] = some (n, ['"']) := by
    rw [hex4, (hexVal?_iff a _).2 ⟨ha, rfl⟩, (hexVal?_iff b _).2 ⟨hb, rfl⟩, (hexVal?_iff c _).2 ⟨hc, rfl⟩,
      (hexVal?_iff d _).2 ⟨hd, rfl⟩, hn]
    rfl
  have hu : parseU [a, b, c, d, '"'] = some (Char.ofNat n, ['"']) := by
    unfold parseU
    rw [h4]
    have a1 : ¬ (0xd800 ≤ n ∧ n ≤ 0xdbff) := by omega
    have a2 : ¬ (0xdc00 ≤ n ∧ n ≤ 0xdfff) := by omega
    simp only [if_neg a1, if_neg a2]
  have ht : ∀ f, parseStrTail (f + 2) ['\\', 'u', a, b, c, d, '"'] = some ([Char.ofNat n], []) := by
    intro f
    rw [parseStrTail_u, hu]
    simp [parseStrTail]
  have hp : parseJson ['"', '\\', 'u', a, b, c, d, '"'] = some (.str [Char.ofNat n]) := by
    unfold parseJson
    rw [skipWs_cons (by decide), parseVal, if_pos rfl]
    have : (['\\', 'u', a, b, c, d, '"'] : Str).length + 1 = 6 + 2 := rfl
    rw [this, ht]
    simp [skipWs]
  rw [decode, hp]
  rfl

example : decode (py! "\"\\u00E9\"") = .ok (.str (py! "é")) ∧ decode (py! "\"\\u00e9\"") = .ok (.str (py! "é")) :=
  ⟨by decide +kernel, by decide +kernel⟩

/-- **C11, other texts.** A text that is not JSON reads as `None`, without an exception. -/
theorem C11_not_json {s : Str} (h : parseJson s = none) : decode s = .ok .none := by rw [decode, h]

example : parseJson (py! "{\"a\":1} x") = none ∧ parseJson (py! "[1,") = none ∧ parseJson [] = none :=
  ⟨by rfl, by rfl, by rfl⟩

/-! ### C46: the product of two timedeltas -/

/-- **C46, product of two timedeltas.** It is formed part by part: days times days, plus seconds times
seconds. -/
theorem C46_td_product (a b : TimeDelta) :
    HasTotal (TimeDelta.mulTd a b) (a.days * b.days * 86400 + a.seconds * b.seconds) :=
  make_hasTotal _ _ _ rfl

/-! ### C08: dicts with keys that are not strings -/

namespace Spec

/-- The name under which a dict key is stored. -/
def keyName : PyKey → Str
  | .str s => s
  | .int (.ofNat n) => natToStr n
  | .int (.negSucc n) => '-' :: natToStr (n + 1)
  | .bool b => if b then py! "true" else py! "false"
  | .none => py! "null"

mutual
/-- The value with every dict key, at every depth, replaced by its name. -/
def namedKeys : PyVal → PyVal
  | .dict kvs => .dict (namedKeysItems kvs)
  | .list xs => .list (namedKeysList xs)
  | .tuple xs => .tuple (namedKeysList xs)
  | v => v
/-- Elements. -/
def namedKeysList : List PyVal → List PyVal
  | [] => []
  | x :: xs => namedKeys x :: namedKeysList xs
/-- Items. -/
def namedKeysItems : List (PyKey × PyVal) → List (PyKey × PyVal)
  | [] => []
  | (k, v) :: kvs => (.str (keyName k), namedKeys v) :: namedKeysItems kvs
end

end Spec

theorem keyText_eq (k : PyKey) : keyText k = keyName k := by
  cases k with
  | int i => cases i <;> rfl
  | bool b => cases b <;> rfl
  | _ => rfl

theorem encodeInt_named (i : ℤ) : namedKeys (encodeInt i) = encodeInt i := by
  unfold encodeInt
  split <;> simp [namedKeys, namedKeysItems, keyName]

mutual
theorem toJson_named (v : PyVal) : toJson (namedKeys v) = toJson v := by
  match v with
  | .list xs => rw [namedKeys, toJson, toJson, toJsonList_named xs]
  | .tuple xs => rw [namedKeys, toJson, toJson, toJsonList_named xs]
  | .dict kvs => rw [namedKeys, toJson, toJson, toJsonItems_named kvs]
  | .none | .bool _ | .int _ | .str _ | .flt _ | .bytes _ | .dec _ | .time _ | .delta _ _ | .obj _ => rw [namedKeys] <;> simp
termination_by structural v
theorem toJsonList_named (xs : List PyVal) : toJsonList (namedKeysList xs) = toJsonList xs := by
  match xs with
  | [] => rfl
  | x :: xs => rw [namedKeysList, toJsonList, toJsonList, toJson_named x, toJsonList_named xs]
termination_by structural xs
theorem toJsonItems_named (kvs : List (PyKey × PyVal)) : toJsonItems (namedKeysItems kvs) = toJsonItems kvs := by
  match kvs with
  | [] => rfl
  | (k, v) :: kvs =>
    rw [namedKeysItems, toJsonItems, toJsonItems, toJson_named v, toJsonItems_named kvs, keyText_eq k]
    rfl
termination_by structural kvs
end

mutual
theorem ints_named (v : PyVal) : encodeIntsVal (namedKeys v) = namedKeys (encodeIntsVal v) := by
  match v with
  | .int i => simp only [namedKeys, encodeIntsVal, encodeInt_named]
  | .dict kvs => simp only [namedKeys, encodeIntsVal, intsItems_named kvs]
  | .list xs => simp only [namedKeys, encodeIntsVal, intsList_named xs]
  | .tuple xs => simp only [namedKeys, encodeIntsVal]
  | .none | .bool _ | .str _ | .flt _ | .bytes _ | .dec _ | .time _ | .delta _ _ | .obj _ =>
    simp only [namedKeys, encodeIntsVal]
termination_by structural v
theorem intsList_named (xs : List PyVal) : encodeIntsList (namedKeysList xs) = namedKeysList (encodeIntsList xs) := by
  match xs with
  | [] => rfl
  | x :: xs =>
    have ih := intsList_named xs
    have ihx := ints_named x
    match x, ihx with
    | .int i, _ => simp only [namedKeysList, namedKeys, encodeIntsList, encodeInt_named, ih]
    | .dict kvs, ihx =>
      simp only [namedKeys, encodeIntsVal] at ihx
      simp only [namedKeysList, namedKeys, encodeIntsList, ih, ihx]
    | .list _, _ | .tuple _, _ | .none, _ | .bool _, _ | .str _, _ | .flt _, _ | .bytes _, _ | .dec _, _ | .time _, _
    | .delta _ _, _ | .obj _, _ => simp only [namedKeysList, namedKeys, encodeIntsList, ih]
termination_by structural xs
theorem intsItems_named (kvs : List (PyKey × PyVal)) :
    encodeIntsItems (namedKeysItems kvs) = namedKeysItems (encodeIntsItems kvs) := by
  match kvs with
  | [] => rfl
  | (k, v) :: kvs => simp only [namedKeysItems, encodeIntsItems, ints_named v, intsItems_named kvs]
termination_by structural kvs
end

/-- **C08, keys.** Dict keys that are ints, booleans or `None` are stored under their names, at every
depth: the stored text is the one of the value with named keys, so that value is what is read back
(C08_roundtrip, C11_dict). -/
theorem C08_keys (v : PyVal) : encode v = encode (namedKeys v) := by
  unfold encode
  have : toJson (preEncode (namedKeys v)) = toJson (preEncode v) := by
    cases v with
    | int i => simp only [namedKeys, preEncode]
    | dict kvs =>
      have h := ints_named (.dict kvs)
      simp only [namedKeys, encodeIntsVal] at h
      simp only [namedKeys, preEncode]
      rw [h]
      have := toJson_named (.dict (encodeIntsItems kvs))
      rw [namedKeys] at this
      exact this
    | list xs => exact toJson_named (.list xs)
    | tuple xs => exact toJson_named (.tuple xs)
    | _ => simp only [preEncode, namedKeys]
  rw [this]

/-- An int key comes back as a string; two keys with the same name become one entry, with the last
value. -/
example : encode (.dict [(.int (-1), .none), (.bool true, .int 5)]) = .ok (py! "{\"-1\":null,\"true\":5}") ∧
    decode (py! "{\"1\":2,\"1\":3}") = .ok (.dict [(.str (py! "1"), .int 3)]) :=
  ⟨by decide +kernel, by decide +kernel⟩

/-! ### C88: `convert_dict` -/

namespace Spec

mutual
/-- For a value inside a dict: a list that is directly inside a list holds no typed value (bytes,
decimal, date, timedelta) at any depth. -/
def NestedPlain : PyVal → Prop
  | .dict kvs => NestedPlainItems kvs
  | .list xs => NestedPlainList xs
  | _ => True
/-- Elements of a list inside a dict. -/
def NestedPlainList : List PyVal → Prop
  | [] => True
  | .list ys :: xs => PyVal.PlainList ys ∧ NestedPlainList xs
  | x :: xs => NestedPlain x ∧ NestedPlainList xs
/-- Values of a dict. -/
def NestedPlainItems : List (PyKey × PyVal) → Prop
  | [] => True
  | (_, v) :: kvs => NestedPlain v ∧ NestedPlainItems kvs
end

/-- For a stored value: a list stored directly, or directly inside a list, holds no typed value. -/
def ListsPlain : PyVal → Prop
  | .list xs => PyVal.PlainList xs
  | v => NestedPlain v

end Spec

/-- A reserved name has its conversion, the one the object hook uses. -/
theorem convert_tag {t : Str} (ht : t ∈ Spec.reserved) {c : JVal} (hc : fromJson c = .ok (plainJson c)) :
    convertDict (plainJson (.obj [(t, c)])) = fromJson (.obj [(t, c)]) ∧
    convertMember (plainJson (.obj [(t, c)])) = fromJson (.obj [(t, c)]) := by
  rw [fromJson_tag hc]
  have e : plainJson (.obj [(t, c)]) = .dict [(.str t, plainJson c)] := rfl
  rw [e, convertDict, convertMember, convertItems]
  simp only [Spec.reserved, List.mem_cons, List.not_mem_nil, or_false] at ht
  rcases ht with rfl | rfl | rfl | rfl | rfl <;>
    simp [convertTag, asObject, Dict.get?, tagTime, tagDelta, tagBytes, tagFixed, tagBigInt]

theorem convertTag_plain {s : Str} (h : s ∉ Spec.reserved) : convertTag (.str s) = none := by
  simp only [Spec.reserved, List.mem_cons, List.not_mem_nil, or_false, not_or] at h
  unfold convertTag tagFixed tagDelta tagBytes tagTime tagBigInt
  simp only [PyKey.str.injEq]
  rw [if_neg h.2.2.2.1, if_neg h.2.1, if_neg h.2.2.1, if_neg h.1, if_neg h.2.2.2.2]

/-- The value is neither a list nor a dict. -/
def Leaf : PyVal → Prop
  | .list _ | .dict _ => False
  | _ => True

theorem leaf_json {v : PyVal} (hs : Storable v) (hl : Leaf v) {j : JVal} (h : toJson v = .ok j ∨ toJson (encodeIntsVal v) = .ok j) :
    convertDict (plainJson j) = fromJson j ∧ convertMember (plainJson j) = fromJson j ∧
      (fromJson j = .ok (plainJson j) ∨ ∃ t c, j = .obj [(t, c)] ∧ t ∈ Spec.reserved) := by
  have lit : ∀ {j : JVal}, (j = .null ∨ (∃ b, j = .bool b) ∨ (∃ i, j = .int i) ∨ (∃ t, j = .flt t) ∨ ∃ s, j = .str s) →
      convertDict (plainJson j) = fromJson j ∧ convertMember (plainJson j) = fromJson j ∧ fromJson j = .ok (plainJson j) := by
    rintro j (rfl | ⟨_, rfl⟩ | ⟨_, rfl⟩ | ⟨_, rfl⟩ | ⟨_, rfl⟩) <;> simp [plainJson, convertDict, convertMember, fromJson]
  have tag : ∀ {t : Str} {c : JVal}, t ∈ Spec.reserved → fromJson c = .ok (plainJson c) → j = .obj [(t, c)] →
      convertDict (plainJson j) = fromJson j ∧ convertMember (plainJson j) = fromJson j ∧
      (fromJson j = .ok (plainJson j) ∨ ∃ t c, j = .obj [(t, c)] ∧ t ∈ Spec.reserved) := by
    rintro t c ht hc rfl
    exact ⟨(convert_tag ht hc).1, (convert_tag ht hc).2, Or.inr ⟨t, c, rfl, ht⟩⟩
  have lit' : ∀ {k : JVal}, (k = .null ∨ (∃ b, k = .bool b) ∨ (∃ i, k = .int i) ∨ (∃ t, k = .flt t) ∨ ∃ s, k = .str s) → j = k →
      convertDict (plainJson j) = fromJson j ∧ convertMember (plainJson j) = fromJson j ∧
      (fromJson j = .ok (plainJson j) ∨ ∃ t c, j = .obj [(t, c)] ∧ t ∈ Spec.reserved) := by
    rintro k hk rfl
    exact ⟨(lit hk).1, (lit hk).2.1, Or.inl (lit hk).2.2⟩
  cases v with
  | none => exact lit' (Or.inl rfl) (by rcases h with h | h <;> cases h <;> rfl)
  | bool b => exact lit' (Or.inr (Or.inl ⟨b, rfl⟩)) (by rcases h with h | h <;> cases h <;> rfl)
  | str s => exact lit' (Or.inr (Or.inr (Or.inr (Or.inr ⟨s, rfl⟩)))) (by rcases h with h | h <;> cases h <;> rfl)
  | flt t => exact lit' (Or.inr (Or.inr (Or.inr (Or.inl ⟨t, rfl⟩)))) (by rcases h with h | h <;> cases h <;> rfl)
  | int i =>
    rcases h with h | h
    · exact lit' (Or.inr (Or.inr (Or.inl ⟨i, rfl⟩))) (by cases h; rfl)
    · rw [encodeIntsVal, encodeInt] at h
      split at h
      · exact lit' (Or.inr (Or.inr (Or.inl ⟨i, rfl⟩))) (by cases h; rfl)
      · exact tag (t := tagBigInt) (c := .str (intToStr i)) (by decide) rfl (by cases h; rfl)
  | bytes bs => exact tag (t := tagBytes) (c := .str (bytesHex bs)) (by decide) rfl (by rcases h with h | h <;> cases h <;> rfl)
  | time t =>
    exact tag (t := tagTime)
      (c := .arr [.int t.year, .int t.month, .int t.day, .int t.hour, .int t.minute, .int t.second, .int t.micro])
      (by decide) rfl (by rcases h with h | h <;> cases h <;> rfl)
  | delta d s => exact tag (t := tagDelta) (c := .arr [.int d, .int s]) (by decide) rfl (by rcases h with h | h <;> cases h <;> rfl)
  | dec d =>
    have h' : toJson (.dec d) = .ok j := by rcases h with h | h <;> exact h
    rw [toJson] at h'
    obtain ⟨d', _, rfl⟩ := map_ok h'
    exact tag (t := tagFixed) (c := .str (Dec.toStr false d')) (by decide) rfl rfl
  | list xs => exact absurd hl id
  | dict kvs => exact absurd hl id
  | tuple xs => exact absurd hs (by simp [Storable])
  | obj n => exact absurd hs (by simp [Storable])

/-- The keys of the encoded dict. -/
theorem items_keys {kvs : List (PyKey × PyVal)} (hs : StorableItems kvs) {js : List (Str × JVal)}
    (h : toJsonItems kvs = .ok js ∨ toJsonItems (encodeIntsItems kvs) = .ok js) :
    kvs.map Prod.fst = js.map (fun p => PyKey.str p.1) ∧ ∀ p ∈ js, p.1 ∉ Spec.reserved := by
  obtain ⟨⟨js1, h1, g1⟩, ⟨js2, h2, g2⟩⟩ := good_items kvs hs
  rcases h with h | h
  · rw [h1] at h; cases h; exact ⟨g1.2.1, g1.2.2.1⟩
  · rw [h2] at h; cases h; exact ⟨g2.2.1, g2.2.2.1⟩

theorem fromItems_keys {js : List (Str × JVal)} {us : List (Str × PyVal)} (h : fromJsonItems js = .ok us) :
    us.map Prod.fst = js.map Prod.fst := by
  induction js generalizing us with
  | nil => cases h; rfl
  | cons p js ih =>
    obtain ⟨k, v⟩ := p
    rw [fromJsonItems] at h
    obtain ⟨a, as, h1, h2, rfl⟩ := consItem_ok h
    simp [ih h2]

theorem plainItems_keys (js : List (Str × JVal)) : (plainJsonItems js).map Prod.fst = js.map Prod.fst := by
  induction js with
  | nil => rfl
  | cons p js ih => obtain ⟨k, v⟩ := p; simp [plainJsonItems, ih]

theorem obj_read {kvs : List (PyKey × PyVal)} (hn : (kvs.map Prod.fst).Nodup) {js : List (Str × JVal)}
    (hk : kvs.map Prod.fst = js.map (fun p => PyKey.str p.1) ∧ ∀ p ∈ js, p.1 ∉ Spec.reserved) {u : PyVal}
    (hu : fromJson (.obj js) = .ok u) :
    plainJson (.obj js) = .dict ((plainJsonItems js).map fun p => (PyKey.str p.1, p.2)) ∧
    ∃ us, fromJsonItems js = .ok us ∧ u = .dict (us.map fun p => (PyKey.str p.1, p.2)) := by
  have hnd : (js.map Prod.fst).Nodup := by
    rw [hk.1] at hn
    have : (js.map fun p => PyKey.str p.1) = (js.map Prod.fst).map PyKey.str := by simp
    rw [this] at hn
    exact hn.of_map _
  constructor
  · rw [plainJson, ofPairs_nodup _ (by rw [plainItems_keys]; exact hnd)]
  · rw [fromJson] at hu
    cases h : fromJsonItems js with
    | error e => rw [h] at hu; cases hu
    | ok us =>
      rw [h] at hu
      simp only [Except.bind] at hu
      have hkk := fromItems_keys h
      rw [ofPairs_nodup _ (by rw [hkk]; exact hnd), asObject_plain] at hu
      · cases hu; exact ⟨us, rfl, rfl⟩
      · intro p hp
        have : p.1 ∈ us.map Prod.fst := List.mem_map.2 ⟨p, hp, rfl⟩
        rw [hkk] at this
        obtain ⟨q, hq, he⟩ := List.mem_map.1 this
        rw [← he]; exact hk.2 q hq

theorem keyed_inj {a b : List (Str × PyVal)} :
    a.map (fun p => (PyKey.str p.1, p.2)) = b.map (fun p => (PyKey.str p.1, p.2)) ↔ a = b := by
  constructor
  · intro h
    refine List.map_injective_iff.2 ?_ h
    rintro ⟨x, y⟩ ⟨x', y'⟩ h'
    simp only [Prod.mk.injEq, PyKey.str.injEq] at h'
    rw [h'.1, h'.2]
  · rintro rfl; rfl

theorem plain_leaf {v : PyVal} (hs : Storable v) (hl : Leaf v) {j : JVal} (h : toJson v = .ok j) {u : PyVal}
    (hu : fromJson j = .ok u) : plainJson j = u ↔ v.Plain := by
  have lit : fromJson j = .ok (plainJson j) → v.Plain → (plainJson j = u ↔ v.Plain) := by
    intro h1 h2
    rw [h1] at hu
    cases hu
    exact ⟨fun _ => h2, fun _ => rfl⟩
  have typed : (∃ kvs, plainJson j = .dict kvs) → ¬ v.Plain → (plainJson j = u ↔ v.Plain) := by
    rintro ⟨kvs, hk⟩ h2
    refine ⟨fun h3 => ?_, fun h3 => absurd h3 h2⟩
    obtain ⟨⟨j', h4, _, u', h5, h6⟩, _⟩ := good_val v hs
    rw [h] at h4
    cases h4
    rw [hu] at h5
    cases h5
    rw [← h3, hk] at h6
    cases v <;> first | exact absurd hl id | (simp only [PySame] at h6; cases h6) | simp [PySame] at h6
  cases v with
  | none => cases h; exact lit rfl (by simp [PyVal.Plain])
  | bool b => cases h; exact lit rfl (by simp [PyVal.Plain])
  | str s => cases h; exact lit rfl (by simp [PyVal.Plain])
  | flt t => cases h; exact lit rfl (by simp [PyVal.Plain])
  | int i => cases h; exact lit rfl (by simp [PyVal.Plain])
  | bytes bs => cases h; exact typed ⟨_, rfl⟩ (by simp [PyVal.Plain])
  | time t => cases h; exact typed ⟨_, rfl⟩ (by simp [PyVal.Plain])
  | delta d s => cases h; exact typed ⟨_, rfl⟩ (by simp [PyVal.Plain])
  | dec d =>
    rw [toJson] at h
    obtain ⟨d', _, rfl⟩ := map_ok h
    exact typed ⟨_, rfl⟩ (by simp [PyVal.Plain])
  | list xs => exact absurd hl id
  | dict kvs => exact absurd hl id
  | tuple xs => exact absurd hs (by simp [Storable])
  | obj n => exact absurd hs (by simp [Storable])

mutual
/-- Without conversion: the loaded data are the value exactly when nothing in it is typed. -/
theorem rawc_val (v : PyVal) (hs : Storable v) (j : JVal) (h : toJson v = .ok j) (u : PyVal) (hu : fromJson j = .ok u) :
    plainJson j = u ↔ v.Plain := by
  match v with
  | .list xs =>
    rw [toJson] at h
    obtain ⟨js, h1, rfl⟩ := map_ok h
    rw [fromJson] at hu
    obtain ⟨us, h2, rfl⟩ := map_ok hu
    rw [plainJson, PyVal.list.injEq]
    exact rawc_list xs hs js h1 us h2
  | .dict kvs =>
    rw [toJson] at h
    obtain ⟨js, h1, rfl⟩ := map_ok h
    simp only [Storable] at hs
    obtain ⟨e1, us, h2, rfl⟩ := obj_read hs.1 (items_keys hs.2 (Or.inl h1)) hu
    rw [e1, PyVal.dict.injEq, keyed_inj]
    exact rawc_items kvs hs.2 js h1 us h2
  | .none | .bool _ | .int _ | .str _ | .flt _ | .bytes _ | .dec _ | .time _ | .delta _ _ | .tuple _ | .obj _ =>
    exact plain_leaf hs trivial h hu
termination_by structural v
theorem rawc_list (xs : List PyVal) (hs : StorableList xs) (js : List JVal) (h : toJsonList xs = .ok js)
    (us : List PyVal) (hu : fromJsonList js = .ok us) : plainJsonList js = us ↔ PyVal.PlainList xs := by
  match xs with
  | [] => cases h; cases hu; exact ⟨fun _ => trivial, fun _ => rfl⟩
  | x :: xs =>
    simp only [StorableList] at hs
    rw [toJsonList] at h
    obtain ⟨a, as, h1, h2, rfl⟩ := cons_ok h
    rw [fromJsonList] at hu
    obtain ⟨b, bs, h3, h4, rfl⟩ := cons_ok hu
    rw [plainJsonList, List.cons.injEq]
    exact and_congr (rawc_val x hs.1 a h1 b h3) (rawc_list xs hs.2 as h2 bs h4)
termination_by structural xs
theorem rawc_items (kvs : List (PyKey × PyVal)) (hs : StorableItems kvs) (js : List (Str × JVal)) (h : toJsonItems kvs = .ok js)
    (us : List (Str × PyVal)) (hu : fromJsonItems js = .ok us) : plainJsonItems js = us ↔ PyVal.PlainItems kvs := by
  match kvs with
  | [] => cases h; cases hu; exact ⟨fun _ => trivial, fun _ => rfl⟩
  | (k, v) :: kvs =>
    simp only [StorableItems] at hs
    rw [toJsonItems] at h
    obtain ⟨a, as, h1, h2, rfl⟩ := consItem_ok h
    rw [fromJsonItems] at hu
    obtain ⟨b, bs, h3, h4, rfl⟩ := consItem_ok hu
    rw [plainJsonItems, List.cons.injEq, Prod.mk.injEq]
    simp only [true_and]
    exact and_congr (rawc_val v hs.2.1 a h1 b h3) (rawc_items kvs hs.2.2 as h2 bs h4)
termination_by structural kvs
end

theorem member_dict {v : PyVal} {kvs : List (PyKey × PyVal)} (h : v = .dict kvs) : convertDict v = convertMember v := by
  subst h; rw [convertDict, convertMember]

mutual
/-- With conversion, for the value of a member. -/
theorem conv_val (v : PyVal) (hs : Storable v) (j : JVal) (h : toJson (encodeIntsVal v) = .ok j) (u : PyVal)
    (hu : fromJson j = .ok u) : ∃ w, convertMember (plainJson j) = .ok w ∧ (w = u ↔ NestedPlain v) := by
  match v with
  | .list xs =>
    rw [encodeIntsVal, toJson] at h
    obtain ⟨js, h1, rfl⟩ := map_ok h
    rw [fromJson] at hu
    obtain ⟨us, h2, rfl⟩ := map_ok hu
    obtain ⟨ws, h3, h4⟩ := conv_list xs hs js h1 us h2
    refine ⟨.list ws, by rw [plainJson, convertMember, h3]; rfl, ?_⟩
    rw [PyVal.list.injEq]
    exact h4
  | .dict kvs =>
    rw [encodeIntsVal, toJson] at h
    obtain ⟨js, h1, rfl⟩ := map_ok h
    simp only [Storable] at hs
    have hk := items_keys hs.2 (Or.inr h1)
    obtain ⟨e1, us, h2, rfl⟩ := obj_read hs.1 hk hu
    obtain ⟨ws, h3, h4⟩ := conv_items kvs hs.2 js h1 hk.2 us h2
    refine ⟨.dict ws, by rw [e1, convertMember]; simpa using h3 [], ?_⟩
    rw [PyVal.dict.injEq]
    exact h4
  | .none | .bool _ | .int _ | .str _ | .flt _ | .bytes _ | .dec _ | .time _ | .delta _ _ | .tuple _ | .obj _ =>
    have := leaf_json hs trivial (Or.inr h)
    exact ⟨u, by rw [this.2.1, hu], ⟨fun _ => by simp only [NestedPlain], fun _ => rfl⟩⟩
termination_by structural v
theorem conv_list (xs : List PyVal) (hs : StorableList xs) (js : List JVal) (h : toJsonList (encodeIntsList xs) = .ok js)
    (us : List PyVal) (hu : fromJsonList js = .ok us) :
    ∃ ws, convertElems (plainJsonList js) = .ok ws ∧ (ws = us ↔ NestedPlainList xs) := by
  match xs with
  | [] => cases h; cases hu; exact ⟨[], rfl, ⟨fun _ => trivial, fun _ => rfl⟩⟩
  | x :: xs =>
    simp only [StorableList] at hs
    have ih := conv_list xs hs.2
    have ihx := conv_val x hs.1
    have join : ∀ (a : JVal) (as : List JVal) (b : PyVal) (bs : List PyVal) (w : PyVal) (P : Prop),
        toJsonList (encodeIntsList xs) = .ok as → fromJsonList as = .ok bs →
        convertDict (plainJson a) = .ok w → (w = b ↔ P) → (NestedPlainList (x :: xs) ↔ P ∧ NestedPlainList xs) →
        ∃ ws, convertElems (plainJsonList (a :: as)) = .ok ws ∧ (ws = b :: bs ↔ NestedPlainList (x :: xs)) := by
      intro a as b bs w P h2 h4 h5 h6 h7
      obtain ⟨ws, h8, h9⟩ := ih as h2 bs h4
      refine ⟨w :: ws, by rw [plainJsonList, convertElems, h5, h8]; rfl, ?_⟩
      rw [List.cons.injEq, h6, h9, h7]
    match x, ihx, hs, join with
    | .list ys, _, hs, join =>
      simp only [encodeIntsList, toJsonList] at h
      obtain ⟨a, as, h1, h2, rfl⟩ := cons_ok h
      rw [fromJsonList] at hu
      obtain ⟨b, bs, h3, h4, rfl⟩ := cons_ok hu
      have hr := rawc_val (.list ys) hs.1 a h1 b h3
      have ha : ∃ js', a = .arr js' := by
        rw [toJson] at h1; obtain ⟨js', _, rfl⟩ := map_ok h1; exact ⟨js', rfl⟩
      obtain ⟨js', rfl⟩ := ha
      exact join _ _ _ _ _ _ h2 h4 (by rw [plainJson, convertDict]; intro kvs hh; cases hh) hr (by simp only [NestedPlainList, PyVal.Plain])
    | .dict kvs, ihx, hs, join =>
      simp only [encodeIntsList, toJsonList] at h
      obtain ⟨a, as, h1, h2, rfl⟩ := cons_ok h
      rw [fromJsonList] at hu
      obtain ⟨b, bs, h3, h4, rfl⟩ := cons_ok hu
      obtain ⟨w, h5, h6⟩ := ihx a (by rw [encodeIntsVal]; exact h1) b h3
      have ha : ∃ ks, plainJson a = .dict ks := by
        rw [toJson] at h1; obtain ⟨js', _, rfl⟩ := map_ok h1; exact ⟨_, rfl⟩
      obtain ⟨ks, hks⟩ := ha
      exact join _ _ _ _ _ _ h2 h4 (by rw [member_dict hks, h5]) h6 (by simp only [NestedPlainList])
    | .int i, ihx, hs, join =>
      simp only [encodeIntsList, toJsonList] at h
      obtain ⟨a, as, h1, h2, rfl⟩ := cons_ok h
      rw [fromJsonList] at hu
      obtain ⟨b, bs, h3, h4, rfl⟩ := cons_ok hu
      have hl := leaf_json hs.1 trivial (Or.inr (by rw [encodeIntsVal]; exact h1))
      exact join _ _ _ _ _ True h2 h4 (by rw [hl.1, h3]) ⟨fun _ => trivial, fun _ => rfl⟩ (by simp only [NestedPlainList, NestedPlain])
    | .none, _, hs, join | .bool _, _, hs, join | .str _, _, hs, join | .flt _, _, hs, join | .bytes _, _, hs, join
    | .dec _, _, hs, join | .time _, _, hs, join | .delta _ _, _, hs, join | .tuple _, _, hs, join | .obj _, _, hs, join =>
      simp only [encodeIntsList, toJsonList] at h
      obtain ⟨a, as, h1, h2, rfl⟩ := cons_ok h
      rw [fromJsonList] at hu
      obtain ⟨b, bs, h3, h4, rfl⟩ := cons_ok hu
      have hl := leaf_json hs.1 trivial (Or.inl h1)
      exact join _ _ _ _ _ True h2 h4 (by rw [hl.1, h3]) ⟨fun _ => trivial, fun _ => rfl⟩ (by simp only [NestedPlainList, NestedPlain])
termination_by structural xs
theorem conv_items (kvs : List (PyKey × PyVal)) (hs : StorableItems kvs) (js : List (Str × JVal))
    (h : toJsonItems (encodeIntsItems kvs) = .ok js) (hr : ∀ p ∈ js, p.1 ∉ Spec.reserved)
    (us : List (Str × PyVal)) (hu : fromJsonItems js = .ok us) :
    ∃ ws, (∀ acc, convertItems acc ((plainJsonItems js).map fun p => (PyKey.str p.1, p.2)) = .ok (.dict (acc.reverse ++ ws))) ∧
      (ws = us.map (fun p => (PyKey.str p.1, p.2)) ↔ NestedPlainItems kvs) := by
  match kvs with
  | [] =>
    cases h; cases hu
    exact ⟨[], fun acc => by simp [plainJsonItems, convertItems], ⟨fun _ => trivial, fun _ => rfl⟩⟩
  | (k, v) :: kvs =>
    simp only [StorableItems] at hs
    rw [encodeIntsItems, toJsonItems] at h
    obtain ⟨a, as, h1, h2, rfl⟩ := consItem_ok h
    rw [fromJsonItems] at hu
    obtain ⟨b, bs, h3, h4, rfl⟩ := consItem_ok hu
    obtain ⟨w, h5, h6⟩ := conv_val v hs.2.1 a h1 b h3
    obtain ⟨ws, h7, h8⟩ := conv_items kvs hs.2.2 as h2 (fun p hp => hr p (List.mem_cons_of_mem _ hp)) bs h4
    refine ⟨(.str (keyText k), w) :: ws, fun acc => ?_, ?_⟩
    · rw [plainJsonItems, List.map_cons, convertItems, convertTag_plain (hr _ List.mem_cons_self)]
      dsimp only
      rw [h5]
      dsimp only
      rw [h7]
      simp
    · rw [List.map_cons, List.cons.injEq, Prod.mk.injEq, h8]
      simp only [true_and, h6, NestedPlainItems]
termination_by structural kvs
end

/-- **C88.** `convert_dict` applied to the stored text of a value, loaded as plain JSON, never raises, and gives what
`decode` gives exactly when no typed value is in a list stored directly or in a list directly inside a list. -/
theorem C88_convert {v : PyVal} (h : Storable v) : ∃ s j w u, encode v = .ok s ∧ parseJson s = some j ∧
    convertDict (plainJson j) = .ok w ∧ decode s = .ok u ∧ PyEq v u ∧ (w = u ↔ ListsPlain v) := by
  obtain ⟨j, h1, h2, u, h3, h4⟩ := good_encode h
  have hp := parseJson_print h2
  have hd : decode j.print = .ok u := by rw [decode, hp]; exact h3
  have base : ∀ w, convertDict (plainJson j) = .ok w → (w = u ↔ ListsPlain v) →
      ∃ s j w u, encode v = .ok s ∧ parseJson s = some j ∧
        convertDict (plainJson j) = .ok w ∧ decode s = .ok u ∧ PyEq v u ∧ (w = u ↔ ListsPlain v) :=
    fun w a b => ⟨j.print, j, w, u, by rw [encode, h1]; rfl, hp, a, hd, (PySame.spec v u h4).1, b⟩
  cases v with
  | list xs =>
    have h1 : toJson (.list xs) = .ok j := h1
    have hr := rawc_val (.list xs) h j h1 u h3
    have ha : ∃ js', j = .arr js' := by
      rw [toJson] at h1; obtain ⟨js', _, rfl⟩ := map_ok h1; exact ⟨js', rfl⟩
    obtain ⟨js', rfl⟩ := ha
    exact base _ (by rw [plainJson, convertDict]; intro kvs hh; cases hh) (by simpa only [ListsPlain, PyVal.Plain, plainJson] using hr)
  | dict kvs =>
    rw [preEncode] at h1
    obtain ⟨w, h5, h6⟩ := conv_val (.dict kvs) h j (by rw [encodeIntsVal]; exact h1) u h3
    have ha : ∃ ks, plainJson j = .dict ks := by
      rw [toJson] at h1; obtain ⟨js', _, rfl⟩ := map_ok h1; exact ⟨_, rfl⟩
    obtain ⟨ks, hks⟩ := ha
    exact base w (by rw [member_dict hks, h5]) (by simpa only [ListsPlain] using h6)
  | int i =>
    have hl := leaf_json h trivial (Or.inr (by rw [encodeIntsVal]; exact h1))
    exact base u (by rw [hl.1, h3]) ⟨fun _ => by simp only [ListsPlain, NestedPlain], fun _ => rfl⟩
  | _ =>
    have hl := leaf_json h trivial (Or.inl h1)
    exact base u (by rw [hl.1, h3]) ⟨fun _ => by simp only [ListsPlain, NestedPlain], fun _ => rfl⟩

/-- Hypotheses met: decimals in a dict in a list in a dict are converted. -/
example : ListsPlain (.dict [(.str (py! "k"), .list [.dec ⟨false, 15, -1⟩, .dict [(.str (py! "j"), .bytes [7])], .list [.int 1]])]) := by
  simp [ListsPlain, NestedPlain, NestedPlainItems, NestedPlainList, PyVal.PlainList, PyVal.Plain]

/-- Beyond C88 as stated: typed values in lists of lists, or in a list stored directly, stay in their
encoded form. -/
theorem C88_refuted :
    (let v := PyVal.dict [(.str (py! "k"), .list [.list [.bytes [7]]])]
     encode v = .ok (py! "{\"k\":[[{\"__bytes__\":\"07\"}]]}") ∧
     ∃ j, parseJson (py! "{\"k\":[[{\"__bytes__\":\"07\"}]]}") = some j ∧
      convertDict (plainJson j) = .ok (.dict [(.str (py! "k"), .list [.list [.dict [(.str (py! "__bytes__"), .str (py! "07"))]]])])) ∧
    (let v := PyVal.list [.bytes [7]]
     encode v = .ok (py! "[{\"__bytes__\":\"07\"}]") ∧
     ∃ j, parseJson (py! "[{\"__bytes__\":\"07\"}]") = some j ∧
      convertDict (plainJson j) = .ok (.list [.dict [(.str (py! "__bytes__"), .str (py! "07"))]])) := by
  refine ⟨⟨by decide +kernel, _, rfl, by rfl⟩, ⟨by decide +kernel, _, rfl, by rfl⟩⟩

end Verif
