import Verif.Proofs.Encoder
/-!
# C07–C11: what the storage encoder promises

`encode`/`decode` are `Verif.encode`/`Verif.decode` (encoder.py:92-137) down to the JSON text.
-/
namespace Verif
open Dec

/-! ### C08: stored values read back unchanged -/

/-- **C08.** Every storable value is encoded without an exception and decodes to an equal value. -/
theorem C08_roundtrip {v : PyVal} (h : Storable v) :
    ∃ s w, encode v = .ok s ∧ decode s = .ok w ∧ PyEq v w := by
  obtain ⟨j, h1, h2, w, h3, h4⟩ := good_encode h
  refine ⟨j.print, w, by rw [encode, h1]; rfl, ?_, (PySame.spec v w h4).1⟩
  rw [decode, parseJson_print h2]
  exact h3

/-- **C08, exact.** If its decimals are in canonical form -- which all are but the result of clamping to `10^29`
(C02) -- the very same value comes back, signs of zeros included. -/
theorem C08_exact {v : PyVal} (h : Storable v) (hc : DecsCanonical v) : ∃ s, encode v = .ok s ∧ decode s = .ok v := by
  obtain ⟨j, h1, h2, w, h3, h4⟩ := good_encode h
  refine ⟨j.print, by rw [encode, h1]; rfl, ?_⟩
  rw [decode, parseJson_print h2, (PySame.spec v w h4).2 hc]
  exact h3

/-- Hypotheses met: a nested value with a 70-bit integer, bytes, a decimal, a date and a timedelta,
whose text is what the program writes. -/
def sampleVal : PyVal :=
  .dict [(.str (py! "n"), .int (2 ^ 70)),
    (.str (py! "xs"), .list [.bytes [0, 255], .dec ⟨false, 15, -1⟩, .none, .str (py! "é\n")]),
    (.str (py! "t"), .time ⟨2024, 2, 29, 12, 0, 0, 0⟩), (.str (py! "d"), .delta 1 5)]

example : Storable sampleVal := by
  have hd : IsCD ⟨false, 15, -1⟩ := ⟨⟨false, 15, -1⟩, by decide +kernel⟩
  simp [sampleVal, Storable, StorableItems, StorableList, Spec.reserved, hd]
  decide

example : encode sampleVal = .ok (py! "{\"n\":{\"__big_int__\":\"1180591620717411303424\"},\"xs\":[{\"__bytes__\":\"00ff\"},{\"__fixed__\":\"1.5\"},null,\"\\u00e9\\n\"],\"t\":{\"__time__\":[2024,2,29,12,0,0,0]},\"d\":{\"__delta__\":[1,5]}}") := by
  decide +kernel

/-! ### C09: distinct values have distinct encodings -/

/-- **C09.** Values with the same stored text are equal. -/
theorem C09_injective {v w : PyVal} (hv : Storable v) (hw : Storable w) {s : Str}
    (h1 : encode v = .ok s) (h2 : encode w = .ok s) : PyEq v w := by
  obtain ⟨s1, a, e1, d1, p1⟩ := C08_roundtrip hv
  obtain ⟨s2, b, e2, d2, p2⟩ := C08_roundtrip hw
  rw [h1] at e1; cases e1
  rw [h2] at e2; cases e2
  rw [d1] at d2; cases d2
  exact PyEq.join v w a p1 p2

example : encode (.int (2 ^ 63 - 1)) = .ok (py! "{\"__big_int__\":\"9223372036854775807\"}") := by decide +kernel
example : encode (.int (2 ^ 63 - 2)) = .ok (py! "9223372036854775806") := by decide +kernel

/-! ### C07: equal decimals are stored as the same bytes -/

/-- **C07, fails as stated.** `decimal(1) - decimal(1)` and `decimal(0)` compare equal and are stored
as different bytes (`-0` against `0`: the context rounds toward minus infinity). -/
theorem C07_refuted : ∃ a b : Dec, IsCD a ∧ IsCD b ∧
    cdSub ⟨false, 1, 0⟩ ⟨false, 1, 0⟩ = .ok a ∧ cdOfInt 0 = .ok b ∧
    Dec.eqv a b = true ∧ encode (.dec a) ≠ encode (.dec b) := by
  refine ⟨⟨true, 0, 0⟩, ⟨false, 0, 0⟩, ⟨⟨true, 0, 0⟩, by decide +kernel⟩, ⟨⟨false, 0, 0⟩, by decide +kernel⟩, ?_, ?_, ?_, ?_⟩ <;>
    decide +kernel

/-- **C07.** Two contract decimals are stored as the same bytes exactly when they are equal and are not zeros of
opposite signs. -/
theorem C07_same_bytes {a b : Dec} (ha : IsCD a) (hb : IsCD b) :
    encode (.dec a) = encode (.dec b) ↔ a.val = b.val ∧ (a.val ≠ 0 ∨ a.neg = b.neg) := by
  obtain ⟨a', ea, va, na, ca, _⟩ := fixPrecision_cd ha
  obtain ⟨b', eb, vb, nb, cb, _⟩ := fixPrecision_cd hb
  constructor
  · intro h
    have h1 : encode (.dec a) = .ok (JVal.print (.obj [(tagFixed, .str (toStr false a'))])) := by
      simp only [encode, preEncode, toJson, ea, Except.map]
    have h2 : encode (.dec b) = .ok (JVal.print (.obj [(tagFixed, .str (toStr false b'))])) := by
      simp only [encode, preEncode, toJson, eb, Except.map]
    have h3 := h1.symm.trans (h.trans h2)
    injection h3 with h3
    have h4 := congrArg parseJson h3
    have hwf : ∀ x, JVal.WF (.obj [(tagFixed, .str x)]) := fun _ => ⟨trivial, trivial⟩
    rw [parseJson_print (hwf _), parseJson_print (hwf _)] at h4
    have h5 : toStr false a' = toStr false b' := by
      injection h4 with h4; injection h4 with h4; injection h4 with h4 _; injection h4 with _ h4; injection h4
    have h6 := cdOfStr_toStr_canonical false ⟨a, ea⟩ ca
    rw [h5, cdOfStr_toStr_canonical false ⟨b, eb⟩ cb] at h6
    injection h6 with h6
    subst h6
    exact ⟨va.symm.trans vb, .inr (na.symm.trans nb)⟩
  · rintro ⟨h, hz⟩
    have hab : a' = b' := canonical_unique ca cb (by rw [va, vb, h]) (fun h0 => by
      rcases hz with hz | hz
      · exact absurd (by rw [← va]; exact h0) hz
      · rw [na, nb, hz])
    simp only [encode, preEncode, toJson, ea, eb, hab]

/-- Hypotheses met: the cap `10^29` is held in two different forms, and stored as the same bytes. -/
example : encode (.dec maxDecimal) = encode (.dec ⟨false, 1, 29⟩) :=
  (C07_same_bytes ⟨⟨false, 1, 40⟩, by decide +kernel⟩ ⟨⟨false, 1, 29⟩, by decide +kernel⟩).2
    ⟨by rw [maxDecimal_val]; simp [Dec.val], .inr rfl⟩

/-! ### C10: integers outside 64 bits are tagged -/

/-- **C10, fails as stated.** A list stored directly keeps big integers bare, and so does a list
nested in a list inside a dict. -/
theorem C10_refuted :
    encode (.list [.int (2 ^ 63)]) = .ok (py! "[9223372036854775808]") ∧
    encode (.dict [(.str (py! "k"), .list [.list [.int (2 ^ 63)]])]) = .ok (py! "{\"k\":[[9223372036854775808]]}") := by
  constructor <;> decide +kernel

/-- **C10.** For every storable value: all integers in the stored text are strictly inside the 64-bit bounds exactly when
all integers in lists stored directly, and in lists directly inside lists, are; all others are tagged. -/
theorem C10_tagged {v : PyVal} (hs : Storable v) : ∃ s j, encode v = .ok s ∧ parseJson s = some j ∧ (j.SmallInts ↔ ListsSmall v) := by
  obtain ⟨j, h1, h2, _⟩ := good_encode hs
  refine ⟨_, j, by rw [encode, h1]; rfl, parseJson_print h2, ?_⟩
  cases v with
  | int i => exact ⟨fun _ => by simp only [ListsSmall, NestedSmall], fun _ => small_encodeInt i h1⟩
  | dict kvs => exact small_val (.dict kvs) hs j h1
  | list xs => exact raw_val (.list xs) hs j h1
  | _ => exact ⟨fun _ => by simp only [ListsSmall, NestedSmall], fun _ => small_leaf hs (by simp) (by simp) (by simp) h1⟩

/-- Hypotheses met by a dict with a list of a big int and a dict with a big int. -/
example : ListsSmall (.dict [(.str (py! "k"), .list [.int (2 ^ 80), .dict [(.str (py! "j"), .int (-(2 ^ 63)))]])]) := by
  simp [ListsSmall, NestedSmall, NestedSmallItems, NestedSmallList]
example : encode (.dict [(.str (py! "k"), .list [.int (2 ^ 64), .dict [(.str (py! "j"), .int (-(2 ^ 63)))]])])
    = .ok (py! "{\"k\":[{\"__big_int__\":\"18446744073709551616\"},{\"j\":{\"__big_int__\":\"-9223372036854775808\"}}]}") := by
  decide +kernel

/-! ### C11: decoding never turns plain data into typed objects -/

/-- **C11, fails as stated.** A dict built by a contract with a reserved key comes back as a decimal,
and another one makes every later read of the variable raise. -/
theorem C11_refuted :
    (∃ s, encode (.dict [(.str (py! "__fixed__"), .str (py! "5"))]) = .ok s ∧ decode s = .ok (.dec ⟨false, 5, 0⟩)) ∧
    (∃ s, encode (.dict [(.str (py! "__time__"), .int 1)]) = .ok s ∧ decode s = .error .typeError) := by
  refine ⟨⟨_, rfl, ?_⟩, ⟨_, rfl, ?_⟩⟩
  · rfl
  · rfl

/-- **C11, text.** JSON text in which no reserved name occurs as a member name decodes, without an
exception, to plain data only. -/
theorem C11_plain {s : Str} {j : JVal} (hp : parseJson s = some j) (h : j.NoTags) :
    ∃ v, decode s = .ok v ∧ v.Plain := by
  obtain ⟨v, h1, h2⟩ := plain_val j h
  exact ⟨v, by rw [decode, hp]; exact h1, h2⟩

/-- **C11, dicts.** A dict with string keys and storable values is stored without an exception. If none of its keys is reserved it
comes back as a dict with the same keys in the same order and equal values; if one is, it never comes back as a dict. -/
theorem C11_dict {kvs : List (Str × PyVal)} (hn : (kvs.map Prod.fst).Nodup) (h : ∀ p ∈ kvs, Storable p.2) :
    ∃ s, encode (.dict (kvs.map fun p => (.str p.1, p.2))) = .ok s ∧
      ((∀ p ∈ kvs, p.1 ∉ Spec.reserved) → ∃ ws, decode s = .ok (.dict ws) ∧ PyEqItems (kvs.map fun p => (.str p.1, p.2)) ws) ∧
      ((∃ p ∈ kvs, p.1 ∈ Spec.reserved) → ∀ ws, decode s ≠ .ok (.dict ws)) := by
  obtain ⟨js, us, h1, h2, h3, h4⟩ := keyed_items kvs h
  refine ⟨JVal.print (.obj js), by rw [encode, preEncode, toJson, h1]; rfl, fun hr => ?_, fun ⟨p, hp, hr⟩ ws => ?_⟩
  · have hst : Storable (.dict (kvs.map fun p => (PyKey.str p.1, p.2))) := by
      refine ⟨?_, storableItems_map kvs hr h⟩
      rw [List.map_map]
      have : (Prod.fst ∘ fun p : Str × PyVal => (PyKey.str p.1, p.2)) = PyKey.str ∘ Prod.fst := rfl
      rw [this, ← List.map_map]
      exact hn.map (fun a b h => by injection h)
    obtain ⟨s, w, e1, e2, e3⟩ := C08_roundtrip hst
    rw [encode, preEncode, toJson, h1] at e1
    cases e1
    cases w <;> simp only [PyEq] at e3 <;> try (cases e3)
    exact ⟨_, e2, e3⟩
  · rw [decode, parseJson_print (show JVal.WF (.obj js) from h2)]
    simp only [fromJson, h3]
    change asObject (Dict.ofPairs us) ≠ _
    rw [ofPairs_nodup us (h4 ▸ hn)]
    have hmem : p.1 ∈ us.map Prod.fst := by rw [h4]; exact List.mem_map.2 ⟨p, hp, rfl⟩
    obtain ⟨v, hv⟩ := get?_of_key hmem
    exact asObject_tagged hr hv ws

/-- Hypotheses met: near-miss names are plain. -/
example : ∃ j, parseJson (py! "{\"__fixed_\":\"5\",\"a\":[1]}") = some j ∧ j.NoTags :=
  ⟨.obj [(py! "__fixed_", .str (py! "5")), (py! "a", .arr [.int 1])], by rfl,
    by simp [JVal.NoTags, JVal.NoTagsItems, JVal.NoTagsList, Spec.reserved]⟩

end Verif
