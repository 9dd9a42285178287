import Verif.Proofs.Json
import Verif.Proofs.DecimalCanon
/-! # The encoder's round trip -/
namespace Verif
open Dec

theorem ofPairs_aux {κ α : Type} [DecidableEq κ] (ps d : List (κ × α))
    (h : (d.map Prod.fst ++ ps.map Prod.fst).Nodup) : Dict.update d ps = d ++ ps := by
  unfold Dict.update
  induction ps generalizing d with
  | nil => simp
  | cons p ps ih =>
    obtain ⟨k, v⟩ := p
    have hset : Dict.set d k v = d ++ [(k, v)] := by
      have hk : k ∉ d.map Prod.fst := by
        intro hk
        rw [List.nodup_append] at h
        exact h.2.2 k hk k (by simp) rfl
      clear h ih
      induction d with
      | nil => rfl
      | cons q d ih2 =>
        obtain ⟨k', v'⟩ := q
        simp only [List.map_cons, List.mem_cons, not_or] at hk
        have : k' ≠ k := fun h => hk.1 h.symm
        simp [Dict.set, this, ih2 hk.2]
    rw [List.foldl_cons, hset, ih]
    · simp
    · simpa using h

theorem ofPairs_nodup {κ α : Type} [DecidableEq κ] (ps : List (κ × α))
    (h : (ps.map Prod.fst).Nodup) : Dict.ofPairs ps = ps := by
  unfold Dict.ofPairs; rw [ofPairs_aux _ _ (by simpa using h)]; simp

theorem pyInt_intToStr (i : ℤ) : pyInt (intToStr i) = some i := by
  have hs : strip (intToStr i) = intToStr i := strip_num (fun c h => by
    rcases intToStr_chars i c h with h | h
    · exact digit_numChar h
    · subst h; decide)
  unfold pyInt
  rw [hs]
  have hall (n : ℕ) : (natToStr n).all isDigit = true := by
    rw [List.all_eq_true]; exact natToStr_all_digits n
  cases i with
  | ofNat n =>
    show (match natToStr n with
      | '-' :: t => _ | '+' :: t => _ | t => _) = _
    obtain ⟨c, t, hct⟩ := List.exists_cons_of_ne_nil (natToStr_ne_nil n)
    have hc : isDigit c = true := natToStr_all_digits n c (by rw [hct]; simp)
    have h1 : c ≠ '-' := isDigit_ne hc (by decide)
    have h2 : c ≠ '+' := isDigit_ne hc (by decide)
    have ha := hall n
    have hv := strToNat_natToStr n
    rw [hct] at ha hv ⊢
    split
    · rename_i heq; cases heq; exact absurd rfl h1
    · rename_i heq; cases heq; exact absurd rfl h2
    · simp [ha, hv]
  | negSucc n =>
    simp only [intToStr, natToStr_ne_nil, hall, strToNat_natToStr, ne_eq, not_false_eq_true, and_self, if_true,
      Int.negSucc_eq]
    simp

theorem fromHex_bytesHex (bs : List (Fin 256)) : fromHex (bytesHex bs) = some bs := by
  unfold bytesHex
  induction bs with
  | nil => rfl
  | cons b bs ih =>
    have h1 : b.val / 16 < 16 := by omega
    have h2 : b.val % 16 < 16 := by omega
    have hsp : ∀ n, n < 16 → isSpace (hexChar n) = false := by decide
    simp only [List.flatMap_cons, List.cons_append, List.nil_append]
    rw [fromHex, hsp _ h1, hexVal_hexChar h1, hexVal_hexChar h2, ih]
    simp only [Bool.false_eq_true, if_false, Option.map_some, Option.some.injEq, List.cons.injEq, and_true]
    apply Fin.ext
    show (b.val / 16 * 16 + b.val % 16) % 256 = b.val
    have := b.isLt
    omega

mutual
/-- What decoding gives back: the same value, with decimals brought to canonical form. -/
def PySame : PyVal → PyVal → Prop
  | .dec a, .dec b => a.val = b.val ∧ (Canonical a → a = b)
  | .list xs, .list ys => PySameList xs ys
  | .dict xs, .dict ys => PySameItems xs ys
  | v, w => v = w
/-- Element by element. -/
def PySameList : List PyVal → List PyVal → Prop
  | [], [] => True
  | x :: xs, y :: ys => PySame x y ∧ PySameList xs ys
  | _, _ => False
/-- Item by item. -/
def PySameItems : List (PyKey × PyVal) → List (PyKey × PyVal) → Prop
  | [], [] => True
  | (k, x) :: xs, (l, y) :: ys => k = l ∧ PySame x y ∧ PySameItems xs ys
  | _, _ => False
end

mutual
theorem PySame.spec (v w : PyVal) (h : PySame v w) : PyEq v w ∧ (DecsCanonical v → v = w) := by
  match v with
  | .dec a =>
    cases w <;> simp only [PySame, PyEq, DecsCanonical] at h ⊢ <;> first | cases h; done | skip
    exact ⟨h.1, fun hc => by rw [h.2 hc]⟩
  | .list xs =>
    match w with
    | .list ys =>
      simp only [PySame, PyEq, DecsCanonical] at h ⊢
      obtain ⟨h1, h2⟩ := PySameList.spec xs ys h
      exact ⟨h1, fun hc => by rw [h2 hc]⟩
    | .none | .bool _ | .str _ | .int _ | .flt _ | .bytes _ | .dec _ | .time _ | .delta _ _ | .tuple _ | .obj _
    | .dict _ => simp [PySame] at h
  | .dict xs =>
    match w with
    | .dict ys =>
      simp only [PySame, PyEq, DecsCanonical] at h ⊢
      obtain ⟨h1, h2⟩ := PySameItems.spec xs ys h
      exact ⟨h1, fun hc => by rw [h2 hc]⟩
    | .none | .bool _ | .str _ | .int _ | .flt _ | .bytes _ | .dec _ | .time _ | .delta _ _ | .tuple _ | .obj _
    | .list _ => simp [PySame] at h
  | .none | .bool _ | .str _ | .int _ | .flt _ | .bytes _ | .time _ | .delta _ _ | .tuple _ | .obj _ =>
    cases w <;> simp only [PySame, PyEq] at h ⊢ <;> exact ⟨h, fun _ => h⟩
termination_by structural v
theorem PySameList.spec (xs ys : List PyVal) (h : PySameList xs ys) : PyEqList xs ys ∧ (DecsCanonicalList xs → xs = ys) := by
  match xs, ys with
  | [], [] => exact ⟨trivial, fun _ => rfl⟩
  | x :: xs, y :: ys =>
    simp only [PySameList, PyEqList, DecsCanonicalList] at h ⊢
    obtain ⟨h1, h2⟩ := PySame.spec x y h.1
    obtain ⟨h3, h4⟩ := PySameList.spec xs ys h.2
    exact ⟨⟨h1, h3⟩, fun hc => by rw [h2 hc.1, h4 hc.2]⟩
  | [], y :: ys => simp [PySameList] at h
  | x :: xs, [] => simp [PySameList] at h
termination_by structural xs
theorem PySameItems.spec (xs ys : List (PyKey × PyVal)) (h : PySameItems xs ys) :
    PyEqItems xs ys ∧ (DecsCanonicalItems xs → xs = ys) := by
  match xs, ys with
  | [], [] => exact ⟨trivial, fun _ => rfl⟩
  | (k, x) :: xs, (l, y) :: ys =>
    simp only [PySameItems, PyEqItems, DecsCanonicalItems] at h ⊢
    obtain ⟨h1, h2⟩ := PySame.spec x y h.2.1
    obtain ⟨h3, h4⟩ := PySameItems.spec xs ys h.2.2
    exact ⟨⟨h.1, h1, h3⟩, fun hc => by rw [h.1, h2 hc.1, h4 hc.2]⟩
  | [], y :: ys => simp [PySameItems] at h
  | x :: xs, [] => simp [PySameItems] at h
termination_by structural xs
end

/-- `j` is a good encoding of `v`: it prints and parses, and decodes to a value equal to `v`. -/
def Good (v : PyVal) (j : JVal) : Prop := j.WF ∧ ∃ w, fromJson j = .ok w ∧ PySame v w

/-- Elementwise. -/
def GoodList (xs : List PyVal) (js : List JVal) : Prop :=
  JVal.WFList js ∧ ∃ ws, fromJsonList js = .ok ws ∧ PySameList xs ws

/-- Itemwise. -/
def GoodItems (kvs : List (PyKey × PyVal)) (js : List (Str × JVal)) : Prop :=
  JVal.WFItems js ∧ kvs.map Prod.fst = js.map (fun p => PyKey.str p.1) ∧
  (∀ p ∈ js, p.1 ∉ Spec.reserved) ∧
  ∃ ws, fromJsonItems js = .ok ws ∧ ws.map Prod.fst = js.map Prod.fst ∧
    PySameItems kvs (ws.map fun p => (PyKey.str p.1, p.2))

theorem asObject_plain {d : List (Str × PyVal)} (h : ∀ p ∈ d, p.1 ∉ Spec.reserved) :
    asObject d = .ok (.dict (d.map fun kv => (PyKey.str kv.1, kv.2))) := by
  have hn (t : Str) (ht : t ∈ Spec.reserved) : Dict.get? d t = none := by
    rw [Dict.get?_eq_none_iff]
    intro hm
    obtain ⟨p, hp, rfl⟩ := List.mem_map.1 hm
    exact h p hp ht
  unfold asObject
  rw [hn tagTime (by simp [Spec.reserved, tagTime]), hn tagDelta (by simp [Spec.reserved, tagDelta]),
    hn tagBytes (by simp [Spec.reserved, tagBytes]), hn tagFixed (by simp [Spec.reserved, tagFixed]),
    hn tagBigInt (by simp [Spec.reserved, tagBigInt])]

theorem Good.ofItems {kvs : List (PyKey × PyVal)} {js : List (Str × JVal)} (hk : (kvs.map Prod.fst).Nodup)
    (h : GoodItems kvs js) : Good (.dict kvs) (.obj js) := by
  obtain ⟨h1, h2, h3, ws, h4, h5, h6⟩ := h
  refine ⟨h1, .dict (ws.map fun p => (PyKey.str p.1, p.2)), ?_, by simpa only [PySame] using h6⟩
  have hnd : (ws.map Prod.fst).Nodup := by
    rw [h5]
    rw [h2] at hk
    have : (js.map fun p => PyKey.str p.1) = (js.map Prod.fst).map PyKey.str := by simp
    rw [this] at hk
    exact List.Nodup.of_map _ hk
  rw [fromJson, h4]
  simp only [Except.bind]
  rw [ofPairs_nodup _ hnd]
  apply asObject_plain
  intro p hp
  have : p.1 ∈ ws.map Prod.fst := List.mem_map.2 ⟨p, hp, rfl⟩
  rw [h5] at this
  obtain ⟨q, hq, hqe⟩ := List.mem_map.1 this
  rw [← hqe]; exact h3 q hq

theorem Good.ofList {xs : List PyVal} {js : List JVal} (h : GoodList xs js) : Good (.list xs) (.arr js) := by
  obtain ⟨h1, ws, h2, h3⟩ := h
  refine ⟨h1, .list ws, ?_, h3⟩
  rw [fromJson, h2]; rfl

theorem GoodList.nil : GoodList [] [] := ⟨trivial, [], rfl, trivial⟩
theorem GoodList.cons {x : PyVal} {xs : List PyVal} {j : JVal} {js : List JVal} (h : Good x j) (hs : GoodList xs js) :
    GoodList (x :: xs) (j :: js) := by
  obtain ⟨h1, w, h2, h3⟩ := h
  obtain ⟨g1, ws, g2, g3⟩ := hs
  exact ⟨⟨h1, g1⟩, w :: ws, by rw [fromJsonList, h2, g2]; rfl, h3, g3⟩

theorem GoodItems.nil : GoodItems [] [] := ⟨trivial, rfl, by simp, [], rfl, rfl, trivial⟩
theorem GoodItems.cons {s : Str} {x : PyVal} {xs : List (PyKey × PyVal)} {j : JVal} {js : List (Str × JVal)}
    (hr : s ∉ Spec.reserved) (h : Good x j) (hs : GoodItems xs js) :
    GoodItems ((.str s, x) :: xs) ((s, j) :: js) := by
  obtain ⟨h1, w, h2, h3⟩ := h
  obtain ⟨g1, g2, g3, ws, g4, g5, g6⟩ := hs
  refine ⟨⟨h1, g1⟩, by simp [g2], ?_, (s, w) :: ws, by rw [fromJsonItems, h2, g4]; rfl, by simp [g5], rfl, h3, g6⟩
  intro p hp
  rcases List.mem_cons.1 hp with rfl | hp
  · exact hr
  · exact g3 p hp

/-- A single-member object with a reserved tag. -/
theorem fromJson_tag {t : Str} {j : JVal} {w : PyVal} (h : fromJson j = .ok w) :
    fromJson (.obj [(t, j)]) = asObject [(t, w)] := by
  simp [fromJson, fromJsonItems, h, bind, Except.bind, pure, Except.pure, Dict.ofPairs, Dict.update, Dict.set]

theorem good_bigInt (i : ℤ) : Good (.int i) (.obj [(tagBigInt, .str (intToStr i))]) := by
  refine ⟨⟨trivial, trivial⟩, .int i, ?_, rfl⟩
  rw [fromJson_tag rfl]
  simp [asObject, Dict.get?, tagTime, tagDelta, tagBytes, tagFixed, tagBigInt, bigIntOf, pyIntOf, pyInt_intToStr, Except.map]

theorem good_encodeInt (i : ℤ) : ∃ j, toJson (encodeInt i) = .ok j ∧ Good (.int i) j := by
  unfold encodeInt
  split
  · exact ⟨_, rfl, trivial, .int i, rfl, rfl⟩
  · exact ⟨_, rfl, good_bigInt i⟩

theorem good_bytes (bs : List (Fin 256)) : Good (.bytes bs) (.obj [(tagBytes, .str (bytesHex bs))]) := by
  refine ⟨⟨trivial, trivial⟩, .bytes bs, ?_, rfl⟩
  rw [fromJson_tag rfl]
  simp [asObject, Dict.get?, tagTime, tagDelta, tagBytes, bytesOf, fromHex_bytesHex]

theorem good_dec {d : Dec} (h : IsCD d) : ∃ j, toJson (.dec d) = .ok j ∧ Good (.dec d) j := by
  obtain ⟨d', h1, h2, h5, h6, h7⟩ := fixPrecision_cd h
  obtain ⟨d'', h3, h4⟩ := cdOfStr_toStr false (⟨d, h1⟩ : IsCD d')
  refine ⟨.obj [(tagFixed, .str (toStr false d'))], by rw [toJson, h1]; rfl, ⟨trivial, trivial⟩, .dec d'', ?_, ?_⟩
  · rw [fromJson_tag rfl]
    simp [asObject, Dict.get?, tagTime, tagDelta, tagBytes, tagFixed, fixedOf, h3, Except.map]
  · simp only [PySame]
    refine ⟨by rw [h4, h2], fun hc => ?_⟩
    have := cdOfStr_toStr_canonical false (⟨d, h1⟩ : IsCD d') h6
    rw [h3] at this
    cases this
    exact (h7 hc).symm

theorem good_time {t : DateTime} (h : t.Valid) : ∃ j, toJson (.time t) = .ok j ∧ Good (.time t) j := by
  refine ⟨_, rfl, by simp [JVal.WF, JVal.WFItems, JVal.WFList], .time t, ?_, rfl⟩
  rw [fromJson_tag (w := .list [.int t.year, .int t.month, .int t.day, .int t.hour,
      .int t.minute, .int t.second, .int t.micro]) (by rfl)]
  have hm : DateTime.make t.year t.month t.day t.hour t.minute t.second t.micro = .ok t := by
    unfold DateTime.make
    simp [h]
  simp [asObject, Dict.get?, tagTime, timeOf, asInt, bind, Except.bind, pure, Except.pure, hm, Except.map]

theorem good_delta {d s : ℤ} (h : -999999999 ≤ d ∧ d ≤ 999999999 ∧ 0 ≤ s ∧ s < 86400) :
    ∃ j, toJson (.delta d s) = .ok j ∧ Good (.delta d s) j := by
  refine ⟨_, rfl, by simp [JVal.WF, JVal.WFItems, JVal.WFList], .delta d s, ?_, rfl⟩
  rw [fromJson_tag (w := .list [.int d, .int s]) (by rfl)]
  have hd : s.fdiv 86400 = 0 := by rw [Int.fdiv_eq_ediv_of_nonneg _ (by norm_num)]; omega
  have hm : s.fmod 86400 = s := by rw [Int.fmod_eq_emod_of_nonneg _ (by norm_num)]; omega
  have : TimeDelta.make 0 d 0 0 s = .ok ⟨d, s, TimeDelta.rawSeconds 0 d 0 0 s⟩ := by
    unfold TimeDelta.make
    simp [hd, hm]; omega
  simp [asObject, Dict.get?, tagTime, tagDelta, deltaOf, pyIntOf, bind, Except.bind, pure, Except.pure, this]

mutual
/-- Round trip of a value, with and without the integer pass. -/
theorem good_val (v : PyVal) (h : Storable v) :
    (∃ j, toJson v = .ok j ∧ Good v j) ∧ (∃ j, toJson (encodeIntsVal v) = .ok j ∧ Good v j) := by
  match v with
  | .none => exact ⟨⟨_, rfl, trivial, .none, rfl, rfl⟩, ⟨_, rfl, trivial, .none, rfl, rfl⟩⟩
  | .bool b => exact ⟨⟨_, rfl, trivial, .bool b, rfl, rfl⟩, ⟨_, rfl, trivial, .bool b, rfl, rfl⟩⟩
  | .int i => exact ⟨⟨_, rfl, trivial, .int i, rfl, rfl⟩, good_encodeInt i⟩
  | .str s => exact ⟨⟨_, rfl, trivial, .str s, rfl, rfl⟩, ⟨_, rfl, trivial, .str s, rfl, rfl⟩⟩
  | .bytes bs => exact ⟨⟨_, rfl, good_bytes bs⟩, ⟨_, rfl, good_bytes bs⟩⟩
  | .flt t => exact ⟨⟨_, rfl, h, .flt t, rfl, rfl⟩, ⟨_, rfl, h, .flt t, rfl, rfl⟩⟩
  | .dec d => exact ⟨good_dec h, good_dec h⟩
  | .time t => exact ⟨good_time h, good_time h⟩
  | .delta d s => exact ⟨good_delta h, good_delta h⟩
  | .list xs =>
    obtain ⟨⟨js, h1, h2⟩, ⟨js', h3, h4⟩⟩ := good_list xs h
    exact ⟨⟨.arr js, by rw [toJson, h1]; rfl, .ofList h2⟩,
      ⟨.arr js', by rw [encodeIntsVal, toJson, h3]; rfl, .ofList h4⟩⟩
  | .dict kvs =>
    simp only [Storable] at h
    obtain ⟨⟨js, h1, h2⟩, ⟨js', h3, h4⟩⟩ := good_items kvs h.2
    exact ⟨⟨.obj js, by rw [toJson, h1]; rfl, .ofItems h.1 h2⟩,
      ⟨.obj js', by rw [encodeIntsVal, toJson, h3]; rfl, .ofItems h.1 h4⟩⟩
  | .tuple xs => exact absurd h (by simp [Storable])
  | .obj n => exact absurd h (by simp [Storable])
termination_by structural v
theorem good_list (xs : List PyVal) (h : StorableList xs) :
    (∃ js, toJsonList xs = .ok js ∧ GoodList xs js) ∧
    (∃ js, toJsonList (encodeIntsList xs) = .ok js ∧ GoodList xs js) := by
  match xs with
  | [] => exact ⟨⟨[], rfl, .nil⟩, ⟨[], rfl, .nil⟩⟩
  | x :: xs =>
    simp only [StorableList] at h
    obtain ⟨⟨j, a1, a2⟩, ⟨j', a3, a4⟩⟩ := good_val x h.1
    obtain ⟨⟨js, b1, b2⟩, ⟨js', b3, b4⟩⟩ := good_list xs h.2
    refine ⟨⟨j :: js, by rw [toJsonList, a1, b1]; rfl, .cons a2 b2⟩, ?_⟩
    match x, a1, a2, a3, a4 with
    | .int i, a1, a2, a3, a4 =>
      exact ⟨j' :: js', by rw [encodeIntsList, toJsonList]; rw [encodeIntsVal] at a3; rw [a3, b3]; rfl, .cons a4 b4⟩
    | .dict kvs, a1, a2, a3, a4 =>
      exact ⟨j' :: js', by rw [encodeIntsList, toJsonList]; rw [encodeIntsVal] at a3; rw [a3, b3]; rfl, .cons a4 b4⟩
    | .none, a1, a2, a3, a4 | .bool _, a1, a2, a3, a4 | .str _, a1, a2, a3, a4 | .flt _, a1, a2, a3, a4
    | .bytes _, a1, a2, a3, a4 | .dec _, a1, a2, a3, a4 | .time _, a1, a2, a3, a4 | .delta _ _, a1, a2, a3, a4
    | .list _, a1, a2, a3, a4 | .tuple _, a1, a2, a3, a4 | .obj _, a1, a2, a3, a4 =>
      exact ⟨j :: js', by simp only [encodeIntsList, toJsonList]; rw [a1, b3]; rfl, .cons a2 b4⟩
termination_by structural xs
theorem good_items (kvs : List (PyKey × PyVal)) (h : StorableItems kvs) :
    (∃ js, toJsonItems kvs = .ok js ∧ GoodItems kvs js) ∧
    (∃ js, toJsonItems (encodeIntsItems kvs) = .ok js ∧ GoodItems kvs js) := by
  match kvs with
  | [] => exact ⟨⟨[], rfl, .nil⟩, ⟨[], rfl, .nil⟩⟩
  | (k, v) :: kvs =>
    simp only [StorableItems] at h
    obtain ⟨⟨s, hk, hr⟩, h2, h3⟩ := h
    obtain ⟨⟨j, a1, a2⟩, ⟨j', a3, a4⟩⟩ := good_val v h2
    obtain ⟨⟨js, b1, b2⟩, ⟨js', b3, b4⟩⟩ := good_items kvs h3
    subst hk
    exact ⟨⟨(s, j) :: js, by rw [toJsonItems, a1, b1]; rfl, .cons hr a2 b2⟩,
      ⟨(s, j') :: js', by rw [encodeIntsItems, toJsonItems, a3, b3]; rfl, .cons hr a4 b4⟩⟩
termination_by structural kvs
end

theorem good_encode {v : PyVal} (h : Storable v) : ∃ j, toJson (preEncode v) = .ok j ∧ Good v j := by
  obtain ⟨h1, h2⟩ := good_val v h
  cases v with
  | int i => simpa only [preEncode, encodeIntsVal] using h2
  | dict kvs => simpa only [preEncode, encodeIntsVal] using h2
  | _ => simpa only [preEncode] using h1

mutual
theorem PyEq.refl (v : PyVal) : PyEq v v := by
  match v with
  | .list xs => simp only [PyEq]; exact PyEqList.refl xs
  | .dict xs => simp only [PyEq]; exact PyEqItems.refl xs
  | .none | .bool _ | .str _ | .int _ | .flt _ | .bytes _ | .dec _ | .time _ | .delta _ _ | .tuple _ | .obj _ => simp [PyEq]
termination_by structural v
theorem PyEqList.refl (xs : List PyVal) : PyEqList xs xs := by
  match xs with
  | [] => trivial
  | x :: xs => simp only [PyEqList]; exact ⟨PyEq.refl x, PyEqList.refl xs⟩
termination_by structural xs
theorem PyEqItems.refl (xs : List (PyKey × PyVal)) : PyEqItems xs xs := by
  match xs with
  | [] => trivial
  | (k, x) :: xs => simp only [PyEqItems]; exact ⟨trivial, PyEq.refl x, PyEqItems.refl xs⟩
termination_by structural xs
end

mutual
/-- Two values equal to the same value are equal. -/
theorem PyEq.join (v w u : PyVal) (h1 : PyEq v u) (h2 : PyEq w u) : PyEq v w := by
  match v, w, u with
  | .dec a, w, u =>
    cases u <;> simp only [PyEq] at h1 <;> try (cases h1)
    all_goals (cases w <;> simp only [PyEq] at h2 ⊢)
    all_goals first | rw [h1, h2] | (cases h2; done)
  | .list xs, w, u =>
    match u with
    | .list zs =>
      match w with
      | .list ys => simp only [PyEq] at *; exact PyEqList.join xs ys zs h1 h2
      | .none | .bool _ | .str _ | .int _ | .flt _ | .bytes _ | .dec _ | .time _ | .delta _ _ | .tuple _ | .obj _
      | .dict _ => simp [PyEq] at h2
    | .none | .bool _ | .str _ | .int _ | .flt _ | .bytes _ | .dec _ | .time _ | .delta _ _ | .tuple _ | .obj _
      | .dict _ => simp [PyEq] at h1
  | .dict xs, w, u =>
    match u with
    | .dict zs =>
      match w with
      | .dict ys => simp only [PyEq] at *; exact PyEqItems.join xs ys zs h1 h2
      | .none | .bool _ | .str _ | .int _ | .flt _ | .bytes _ | .dec _ | .time _ | .delta _ _ | .tuple _ | .obj _
      | .list _ => simp [PyEq] at h2
    | .none | .bool _ | .str _ | .int _ | .flt _ | .bytes _ | .dec _ | .time _ | .delta _ _ | .tuple _ | .obj _
      | .list _ => simp [PyEq] at h1
  | .none, w, u | .bool _, w, u | .str _, w, u | .int _, w, u | .flt _, w, u | .bytes _, w, u
  | .time _, w, u | .delta _ _, w, u | .tuple _, w, u | .obj _, w, u =>
    cases u <;> simp only [PyEq] at h1 <;> first | (cases h1; cases w <;> simp only [PyEq] at h2 ⊢ <;> first | exact h2.symm | (cases h2)) | cases h1
termination_by structural v
theorem PyEqList.join (xs ys zs : List PyVal) (h1 : PyEqList xs zs) (h2 : PyEqList ys zs) : PyEqList xs ys := by
  match xs, ys, zs with
  | [], [], [] => trivial
  | x :: xs, y :: ys, z :: zs =>
    simp only [PyEqList] at *
    exact ⟨PyEq.join x y z h1.1 h2.1, PyEqList.join xs ys zs h1.2 h2.2⟩
  | [], y :: ys, [] => simp [PyEqList] at h2
  | x :: xs, [], z :: zs => simp [PyEqList] at h2
  | x :: xs, y, [] => simp [PyEqList] at h1
  | [], y, z :: zs => simp [PyEqList] at h1
termination_by structural xs
theorem PyEqItems.join (xs ys zs : List (PyKey × PyVal)) (h1 : PyEqItems xs zs) (h2 : PyEqItems ys zs) : PyEqItems xs ys := by
  match xs, ys, zs with
  | [], [], [] => trivial
  | (k, x) :: xs, (k', y) :: ys, (k'', z) :: zs =>
    simp only [PyEqItems] at *
    exact ⟨h1.1.trans h2.1.symm, PyEq.join x y z h1.2.1 h2.2.1, PyEqItems.join xs ys zs h1.2.2 h2.2.2⟩
  | [], y :: ys, [] => simp [PyEqItems] at h2
  | x :: xs, [], z :: zs => simp [PyEqItems] at h2
  | x :: xs, y, [] => simp [PyEqItems] at h1
  | [], y, z :: zs => simp [PyEqItems] at h1
termination_by structural xs
end

mutual
/-- Data without reserved names decodes to plain data. -/
theorem plain_val (j : JVal) (h : j.NoTags) : ∃ v, fromJson j = .ok v ∧ v.Plain := by
  match j with
  | .null => exact ⟨.none, rfl, trivial⟩
  | .bool b => exact ⟨.bool b, rfl, trivial⟩
  | .int b => exact ⟨.int b, rfl, trivial⟩
  | .flt b => exact ⟨.flt b, rfl, trivial⟩
  | .str b => exact ⟨.str b, rfl, trivial⟩
  | .arr xs =>
    obtain ⟨vs, h1, h2⟩ := plain_list xs h
    exact ⟨.list vs, by rw [fromJson, h1]; rfl, h2⟩
  | .obj kvs =>
    obtain ⟨vs, h1, h2⟩ := plain_items kvs h
    have key : ∀ (ps d : List (Str × PyVal)), (∀ p ∈ ps, p.1 ∉ Spec.reserved ∧ p.2.Plain) →
        (∀ p ∈ d, p.1 ∉ Spec.reserved ∧ p.2.Plain) →
        ∀ p ∈ Dict.update d ps, p.1 ∉ Spec.reserved ∧ p.2.Plain := by
      intro ps
      unfold Dict.update
      induction ps with
      | nil => intro d _ hd; simpa using hd
      | cons q ps ih =>
        intro d hp hd
        rw [List.foldl_cons]
        apply ih _ (fun p hm => hp p (by simp [hm]))
        have hq := hp q (by simp)
        clear hp ih
        induction d with
        | nil => intro p hm; simp [Dict.set] at hm; subst hm; exact hq
        | cons r d ih2 =>
          intro p hm
          obtain ⟨k', v'⟩ := r
          simp only [Dict.set] at hm
          split at hm
          · rename_i heq
            rcases List.mem_cons.1 hm with rfl | hm
            · exact ⟨by simpa [heq] using hq.1, hq.2⟩
            · exact hd p (by simp [hm])
          · rcases List.mem_cons.1 hm with rfl | hm
            · exact hd _ (by simp)
            · exact ih2 (fun p hp => hd p (by simp [hp])) p hm
    have hall := key vs [] h2 (by simp)
    refine ⟨.dict ((Dict.ofPairs vs).map fun kv => (PyKey.str kv.1, kv.2)), ?_, ?_⟩
    · rw [fromJson, h1]
      exact asObject_plain (fun p hp => (hall p hp).1)
    · simp only [PyVal.Plain]
      have : ∀ ps : List (Str × PyVal), (∀ p ∈ ps, p.1 ∉ Spec.reserved ∧ p.2.Plain) →
          PyVal.PlainItems (ps.map fun kv => (PyKey.str kv.1, kv.2)) := by
        intro ps hp
        induction ps with
        | nil => trivial
        | cons p ps ih =>
          simp only [List.map_cons, PyVal.PlainItems]
          exact ⟨(hp p (by simp)).2, ih (fun q hq => hp q (by simp [hq]))⟩
      exact this _ hall
termination_by structural j
theorem plain_list (xs : List JVal) (h : JVal.NoTagsList xs) :
    ∃ vs, fromJsonList xs = .ok vs ∧ PyVal.PlainList vs := by
  match xs with
  | [] => exact ⟨[], rfl, trivial⟩
  | x :: xs =>
    simp only [JVal.NoTagsList] at h
    obtain ⟨v, h1, h2⟩ := plain_val x h.1
    obtain ⟨vs, h3, h4⟩ := plain_list xs h.2
    exact ⟨v :: vs, by rw [fromJsonList, h1, h3]; rfl, h2, h4⟩
termination_by structural xs
theorem plain_items (xs : List (Str × JVal)) (h : JVal.NoTagsItems xs) :
    ∃ vs, fromJsonItems xs = .ok vs ∧ ∀ p ∈ vs, p.1 ∉ Spec.reserved ∧ p.2.Plain := by
  match xs with
  | [] => exact ⟨[], rfl, by simp⟩
  | (k, x) :: xs =>
    simp only [JVal.NoTagsItems] at h
    obtain ⟨v, h1, h2⟩ := plain_val x h.2.1
    obtain ⟨vs, h3, h4⟩ := plain_items xs h.2.2
    refine ⟨(k, v) :: vs, by rw [fromJsonItems, h1, h3]; rfl, ?_⟩
    intro p hp
    rcases List.mem_cons.1 hp with rfl | hp
    · exact ⟨h.1, h2⟩
    · exact h4 p hp
termination_by structural xs
end

/-! ### Integers -/

theorem small_encodeInt (i : ℤ) {j : JVal} (h : toJson (encodeInt i) = .ok j) : j.SmallInts := by
  unfold encodeInt at h
  split at h
  · rename_i hi; cases h; exact hi
  · cases h; simp [JVal.SmallInts, JVal.SmallIntsItems]

theorem map_ok {α β : Type} {f : α → β} {x : Except PyErr α} {b : β} (h : x.map f = .ok b) :
    ∃ a, x = .ok a ∧ f a = b := by
  cases x with
  | error e => cases h
  | ok a => cases h; exact ⟨a, rfl, rfl⟩

theorem cons_ok {α : Type} {x : Except PyErr α} {y : Except PyErr (List α)} {b : List α}
    (h : (do return (← x) :: (← y)) = Except.ok b) : ∃ a as, x = .ok a ∧ y = .ok as ∧ b = a :: as := by
  cases x with
  | error e => cases h
  | ok a =>
    cases y with
    | error e => cases h
    | ok as => cases h; exact ⟨a, as, rfl, rfl, rfl⟩

theorem consItem_ok {α β : Type} {k : α} {x : Except PyErr β} {y : Except PyErr (List (α × β))} {b : List (α × β)}
    (h : (do return (k, ← x) :: (← y)) = Except.ok b) : ∃ a as, x = .ok a ∧ y = .ok as ∧ b = (k, a) :: as := by
  cases x with
  | error e => cases h
  | ok a =>
    cases y with
    | error e => cases h
    | ok as => cases h; exact ⟨a, as, rfl, rfl, rfl⟩

theorem daysInMonth_le (y m : ℕ) : daysInMonth y m ≤ 31 := by
  unfold daysInMonth; split <;> first | omega | (split <;> omega)

/-- Scalars other than ints never produce a big integer. -/
theorem small_leaf {v : PyVal} (hs : Storable v) (hl : ∀ i, v ≠ .int i) (h1 : ∀ xs, v ≠ .list xs)
    (h2 : ∀ kvs, v ≠ .dict kvs) {j : JVal} (h : toJson v = .ok j) : j.SmallInts := by
  cases v with
  | int i => exact absurd rfl (hl i)
  | list xs => exact absurd rfl (h1 xs)
  | dict xs => exact absurd rfl (h2 xs)
  | none => cases h; trivial
  | bool b => cases h; trivial
  | str b => cases h; trivial
  | flt b => cases h; trivial
  | bytes b => cases h; simp [JVal.SmallInts, JVal.SmallIntsItems]
  | dec d => obtain ⟨d', _, rfl⟩ := map_ok h; simp [JVal.SmallInts, JVal.SmallIntsItems]
  | time t =>
    cases h
    simp only [Storable, DateTime.Valid] at hs
    have := daysInMonth_le t.year t.month
    simp only [JVal.SmallInts, JVal.SmallIntsItems, JVal.SmallIntsList, and_true]
    omega
  | delta d s =>
    cases h
    simp only [Storable] at hs
    simp only [JVal.SmallInts, JVal.SmallIntsItems, JVal.SmallIntsList, and_true]
    omega
  | tuple xs => exact absurd hs (by simp [Storable])
  | obj n => exact absurd hs (by simp [Storable])

mutual
theorem raw_val (v : PyVal) (hs : Storable v) (j : JVal) (h : toJson v = .ok j) : j.SmallInts ↔ AllSmall v := by
  match v with
  | .int i => cases h; exact Iff.rfl
  | .list xs =>
    rw [toJson] at h
    obtain ⟨js, h1, rfl⟩ := map_ok h
    exact raw_list xs hs js h1
  | .dict kvs =>
    rw [toJson] at h
    obtain ⟨js, h1, rfl⟩ := map_ok h
    simp only [Storable] at hs
    exact raw_items kvs hs.2 js h1
  | .none | .bool _ | .str _ | .flt _ | .bytes _ | .dec _ | .time _ | .delta _ _ | .tuple _ | .obj _ =>
    exact ⟨fun _ => by simp only [AllSmall], fun _ => small_leaf hs (by simp) (by simp) (by simp) h⟩
termination_by structural v
theorem raw_list (xs : List PyVal) (hs : StorableList xs) (js : List JVal) (h : toJsonList xs = .ok js) :
    JVal.SmallIntsList js ↔ AllSmallList xs := by
  match xs with
  | [] => cases h; exact Iff.rfl
  | x :: xs =>
    simp only [StorableList] at hs
    rw [toJsonList] at h
    obtain ⟨a, as, h1, h2, rfl⟩ := cons_ok h
    exact and_congr (raw_val x hs.1 a h1) (raw_list xs hs.2 as h2)
termination_by structural xs
theorem raw_items (kvs : List (PyKey × PyVal)) (hs : StorableItems kvs) (js : List (Str × JVal)) (h : toJsonItems kvs = .ok js) :
    JVal.SmallIntsItems js ↔ AllSmallItems kvs := by
  match kvs with
  | [] => cases h; exact Iff.rfl
  | (k, v) :: kvs =>
    simp only [StorableItems] at hs
    rw [toJsonItems] at h
    obtain ⟨a, as, h1, h2, rfl⟩ := consItem_ok h
    exact and_congr (raw_val v hs.2.1 a h1) (raw_items kvs hs.2.2 as h2)
termination_by structural kvs
end

mutual
theorem small_val (v : PyVal) (hs : Storable v) (j : JVal) (h : toJson (encodeIntsVal v) = .ok j) :
    j.SmallInts ↔ NestedSmall v := by
  match v with
  | .int i => exact ⟨fun _ => by simp only [NestedSmall], fun _ => small_encodeInt i h⟩
  | .list xs =>
    rw [encodeIntsVal, toJson] at h
    obtain ⟨js, h1, rfl⟩ := map_ok h
    exact small_list xs hs js h1
  | .dict kvs =>
    rw [encodeIntsVal, toJson] at h
    obtain ⟨js, h1, rfl⟩ := map_ok h
    simp only [Storable] at hs
    exact small_items kvs hs.2 js h1
  | .none | .bool _ | .str _ | .flt _ | .bytes _ | .dec _ | .time _ | .delta _ _ | .tuple _ | .obj _ =>
    exact ⟨fun _ => by simp only [NestedSmall], fun _ => small_leaf hs (by simp) (by simp) (by simp) h⟩
termination_by structural v
theorem small_list (xs : List PyVal) (hs : StorableList xs) (js : List JVal)
    (h : toJsonList (encodeIntsList xs) = .ok js) : JVal.SmallIntsList js ↔ NestedSmallList xs := by
  match xs with
  | [] => cases h; exact Iff.rfl
  | x :: xs =>
    simp only [StorableList] at hs
    have ih := small_list xs hs.2
    have ihx := small_val x hs.1
    match x, ihx, hs with
    | .list ys, _, hs =>
      simp only [encodeIntsList, toJsonList] at h
      obtain ⟨a, as, h1, h2, rfl⟩ := cons_ok h
      have := raw_val (.list ys) hs.1 a h1
      exact and_congr this (ih as h2)
    | .int i, ihx, _ | .dict kvs, ihx, _ =>
      simp only [encodeIntsList, toJsonList] at h
      obtain ⟨a, as, h1, h2, rfl⟩ := cons_ok h
      exact and_congr (ihx a (by rw [encodeIntsVal]; exact h1)) (ih as h2)
    | .none, _, hs | .bool _, _, hs | .str _, _, hs | .flt _, _, hs | .bytes _, _, hs | .dec _, _, hs
    | .time _, _, hs | .delta _ _, _, hs | .tuple _, _, hs | .obj _, _, hs =>
      simp only [encodeIntsList, toJsonList] at h
      obtain ⟨a, as, h1, h2, rfl⟩ := cons_ok h
      exact and_congr ⟨fun _ => by simp only [NestedSmall], fun _ => small_leaf hs.1 (by simp) (by simp) (by simp) h1⟩ (ih as h2)
termination_by structural xs
theorem small_items (kvs : List (PyKey × PyVal)) (hs : StorableItems kvs)
    (js : List (Str × JVal)) (h : toJsonItems (encodeIntsItems kvs) = .ok js) : JVal.SmallIntsItems js ↔ NestedSmallItems kvs := by
  match kvs with
  | [] => cases h; exact Iff.rfl
  | (k, v) :: kvs =>
    simp only [StorableItems] at hs
    rw [encodeIntsItems, toJsonItems] at h
    obtain ⟨a, as, h1, h2, rfl⟩ := consItem_ok h
    exact and_congr (small_val v hs.2.1 a h1) (small_items kvs hs.2.2 as h2)
termination_by structural kvs
end

/-- A dict with string keys and storable values, whatever the keys. -/
theorem keyed_items (kvs : List (Str × PyVal)) (h : ∀ p ∈ kvs, Storable p.2) :
    ∃ js us, toJsonItems (encodeIntsItems (kvs.map fun p => (PyKey.str p.1, p.2))) = .ok js ∧ JVal.WFItems js ∧
      fromJsonItems js = .ok us ∧ us.map Prod.fst = kvs.map Prod.fst := by
  induction kvs with
  | nil => exact ⟨[], [], rfl, trivial, rfl, rfl⟩
  | cons p kvs ih =>
    obtain ⟨_, j, a1, a2, w, a3, _⟩ := good_val p.2 (h p List.mem_cons_self)
    obtain ⟨js, us, b1, b2, b3, b4⟩ := ih (fun q hq => h q (List.mem_cons_of_mem _ hq))
    refine ⟨(p.1, j) :: js, (p.1, w) :: us, ?_, ⟨a2, b2⟩, by rw [fromJsonItems, a3, b3]; rfl, by simp [b4]⟩
    rw [List.map_cons, encodeIntsItems, toJsonItems, a1, b1]; rfl

theorem storableItems_map (kvs : List (Str × PyVal)) (hr : ∀ p ∈ kvs, p.1 ∉ Spec.reserved) (h : ∀ p ∈ kvs, Storable p.2) :
    StorableItems (kvs.map fun p => (PyKey.str p.1, p.2)) := by
  induction kvs with
  | nil => trivial
  | cons p kvs ih =>
    exact ⟨⟨p.1, rfl, hr p List.mem_cons_self⟩, h p List.mem_cons_self,
      ih (fun q hq => hr q (List.mem_cons_of_mem _ hq)) (fun q hq => h q (List.mem_cons_of_mem _ hq))⟩

theorem get?_of_key {κ α : Type} [DecidableEq κ] : ∀ {d : List (κ × α)} {k : κ}, k ∈ d.map Prod.fst → ∃ v, Dict.get? d k = some v := by
  intro d
  induction d with
  | nil => intro k h; cases h
  | cons p d ih =>
    intro k h
    by_cases hk : p.1 = k
    · exact ⟨p.2, by simp [Dict.get?, hk]⟩
    · rcases List.mem_cons.1 h with rfl | h
      · exact absurd rfl hk
      · obtain ⟨v, hv⟩ := ih h
        exact ⟨v, by simpa [Dict.get?, hk] using hv⟩

/-- A dict with a reserved key never decodes to a dict. -/
theorem asObject_tagged {d : Dict Str PyVal} {t : Str} (ht : t ∈ Spec.reserved) {v : PyVal} (h : Dict.get? d t = some v)
    (kvs : List (PyKey × PyVal)) : asObject d ≠ .ok (.dict kvs) := by
  have h1 : ∀ v, timeOf v ≠ .ok (.dict kvs) := by
    intro v
    unfold timeOf
    cases v <;> try (intro h; cases h; done)
    rename_i xs
    intro h
    cases hm : xs.mapM asInt with
    | error e => simp only [hm] at h; cases h
    | ok is =>
      simp only [hm] at h
      change (match is with
        | [y, mo, d] => (DateTime.make y mo d 0 0 0 0).map PyVal.time
        | [y, mo, d, h] => (DateTime.make y mo d h 0 0 0).map .time
        | [y, mo, d, h, mi] => (DateTime.make y mo d h mi 0 0).map .time
        | [y, mo, d, h, mi, s] => (DateTime.make y mo d h mi s 0).map .time
        | [y, mo, d, h, mi, s, us] => (DateTime.make y mo d h mi s us).map .time
        | _ => .error .typeError) = _ at h
      split at h <;> first | (cases h; done) | (obtain ⟨_, _, hx⟩ := map_ok h; cases hx)
  have h2 : ∀ v, deltaOf v ≠ .ok (.dict kvs) := by
    intro v hv
    unfold deltaOf at hv
    split at hv
    · rename_i a b _
      cases ha : pyIntOf a with
      | error e => simp only [ha] at hv; cases hv
      | ok x =>
        cases hb : pyIntOf b with
        | error e => simp only [ha, hb] at hv; cases hv
        | ok y =>
          simp only [ha, hb] at hv
          change (TimeDelta.make 0 x 0 0 y).bind _ = _ at hv
          cases ht : TimeDelta.make 0 x 0 0 y with
          | error e => simp only [ht] at hv; cases hv
          | ok t => simp only [ht] at hv; cases hv
    · rename_i a b _
      cases ha : pyIntOf (.str [a]) with
      | error e => simp only [ha] at hv; cases hv
      | ok x =>
        cases hb : pyIntOf (.str [b]) with
        | error e => simp only [ha, hb] at hv; cases hv
        | ok y =>
          simp only [ha, hb] at hv
          change (TimeDelta.make 0 x 0 0 y).bind _ = _ at hv
          cases ht : TimeDelta.make 0 x 0 0 y with
          | error e => simp only [ht] at hv; cases hv
          | ok t => simp only [ht] at hv; cases hv
    · cases hv
  have h3 : ∀ v, bytesOf v ≠ .ok (.dict kvs) := by
    intro v hv
    unfold bytesOf at hv
    split at hv
    · split at hv <;> cases hv
    · cases hv
  have h4 : ∀ v, fixedOf v ≠ .ok (.dict kvs) := by
    intro v hv
    unfold fixedOf at hv
    split at hv <;> first | (cases hv; done) | (obtain ⟨_, _, hx⟩ := map_ok hv; cases hx)
  have h5 : ∀ v, bigIntOf v ≠ .ok (.dict kvs) := by
    intro v hv
    obtain ⟨_, _, hx⟩ := map_ok hv
    cases hx
  unfold asObject
  cases n1 : Dict.get? d tagTime with
  | some x => exact h1 x
  | none =>
  cases n2 : Dict.get? d tagDelta with
  | some x => exact h2 x
  | none =>
  cases n3 : Dict.get? d tagBytes with
  | some x => exact h3 x
  | none =>
  cases n4 : Dict.get? d tagFixed with
  | some x => exact h4 x
  | none =>
  cases n5 : Dict.get? d tagBigInt with
  | some x => exact h5 x
  | none =>
    simp only [Spec.reserved, List.mem_cons, List.not_mem_nil, or_false] at ht
    rcases ht with rfl | rfl | rfl | rfl | rfl
    · cases n1.symm.trans h
    · cases n2.symm.trans h
    · cases n3.symm.trans h
    · cases n4.symm.trans h
    · cases n5.symm.trans h

end Verif
