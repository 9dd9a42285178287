import Verif.Model.Crypto
/-!
# C56, C57: keys and hashes
-/
namespace Verif

namespace Spec

/-- `0`-`9`, `a`-`f`, `A`-`F`. -/
abbrev IsHex (c : Char) : Prop := c ∈ py! "0123456789abcdefABCDEF"

/-- The two lowercase digits of a byte. -/
def hexByte (b : UInt8) : Str :=
  [(py! "0123456789abcdef").getD (b.toNat / 16) ' ', (py! "0123456789abcdef").getD (b.toNat % 16) ' ']

/-- `bytes.hex()`. -/
def toHex (bs : List UInt8) : Str := bs.flatMap hexByte

/-- Hexadecimal digits, single underscores allowed between them. -/
inductive HexDigits : Str → Prop
  | one {c} : IsHex c → HexDigits [c]
  | more {c s} : IsHex c → HexDigits s → HexDigits (c :: s)
  | sep {c s} : IsHex c → HexDigits s → HexDigits (c :: '_' :: s)

/-- An integer literal of `int(s, 16)`: blanks, sign, prefix, digits, blanks. -/
def HexInteger (s : Str) : Prop :=
  ∃ blanks sign pre digits blanks', s = blanks ++ sign ++ pre ++ digits ++ blanks' ∧
    (∀ c ∈ blanks, asciiSpace c = true) ∧ sign ∈ [py! "", py! "+", py! "-"] ∧
    pre ∈ [py! "", py! "0x", py! "0X", py! "0x_", py! "0X_"] ∧ HexDigits digits ∧ ∀ c ∈ blanks', asciiSpace c = true

/-- The value of a hexadecimal digit. -/
def hexVal (c : Char) : Nat := (py! "0123456789abcdef").idxOf c.toLower

/-- A text that stands for bytes: pairs of hexadecimal digits in either case, blanks allowed around the pairs. -/
inductive HexText : Str → List UInt8 → Prop
  | nil : HexText [] []
  | blank {c s bs} : asciiSpace c = true → HexText s bs → HexText (c :: s) bs
  | pair {c d s bs} : IsHex c → IsHex d → HexText s bs → HexText (c :: d :: s) (UInt8.ofNat (16 * hexVal c + hexVal d) :: bs)

end Spec
open Spec

/-! ## C56 -/

theorem hexDigit_iff (c : Char) : (hexDigit c).isSome = true ↔ IsHex c := by
  constructor
  · intro h
    unfold hexDigit at h
    have : (48 ≤ c.toNat ∧ c.toNat ≤ 57) ∨ (97 ≤ c.toNat ∧ c.toNat ≤ 102) ∨ (65 ≤ c.toNat ∧ c.toNat ≤ 70) := by
      split at h
      · rename_i hc; exact .inl hc
      · split at h
        · rename_i hc; exact .inr (.inl hc)
        · split at h
          · rename_i hc; exact .inr (.inr hc)
          · cases h
    have e : c = Char.ofNat c.toNat := (Char.ofNat_toNat c).symm
    rw [e]
    generalize c.toNat = n at this
    have hn : n ∈ [48,49,50,51,52,53,54,55,56,57,97,98,99,100,101,102,65,66,67,68,69,70] := by
      simp only [List.mem_cons, List.not_mem_nil, or_false]; omega
    clear this e h
    revert n
    decide
  · intro h
    revert c
    decide

theorem scanHex_hex (s : Str) : ∀ prev, prev ≠ '_' → (∀ c ∈ s, IsHex c) → scanHex prev s = some [] := by
  induction s with
  | nil => intro prev hp _; simp [scanHex, hp]
  | cons c s ih =>
    intro prev _ h
    have hc := h c List.mem_cons_self
    have hu : c ≠ '_' := by rintro rfl; revert hc; decide
    rw [scanHex, if_neg hu, if_pos ((hexDigit_iff c).2 hc)]
    exact ih c hu (fun d hd => h d (List.mem_cons_of_mem _ hd))

theorem isHex_facts {c : Char} (h : IsHex c) :
    c.toNat < 127 ∧ asciiSpace c = false ∧ c ≠ '+' ∧ c ≠ '-' ∧ c ≠ 'x' ∧ c ≠ 'X' ∧ c ≠ '_' := by
  revert c
  decide

/-- The text of `int(s, 16)` after its optional sign and prefix: the digits. -/
theorem scanHex_digits (s : Str) : ∀ {c : Char} {rest : Str}, IsHex c → scanHex c s = some rest →
    ∃ b, c :: s = b ++ rest ∧ HexDigits b := by
  induction hn : s.length using Nat.strongRecOn generalizing s with
  | _ n ih =>
    intro c rest hc h
    have hcu : c ≠ '_' := (isHex_facts hc).2.2.2.2.2.2
    cases s with
    | nil =>
      rw [scanHex, if_neg hcu] at h
      cases h
      exact ⟨[c], rfl, .one hc⟩
    | cons d s =>
      rw [scanHex] at h
      by_cases hd : d = '_'
      · subst hd
        rw [if_pos rfl, if_neg hcu] at h
        cases s with
        | nil => simp [scanHex] at h
        | cons e s =>
          rw [scanHex] at h
          by_cases he : e = '_'
          · simp [he] at h
          · rw [if_neg he] at h
            by_cases hx : (hexDigit e).isSome = true
            · rw [if_pos hx] at h
              obtain ⟨b, e1, e2⟩ := ih s.length (by rw [← hn]; simp; omega) s rfl ((hexDigit_iff e).1 hx) h
              exact ⟨c :: '_' :: b, by rw [e1]; rfl, .sep hc e2⟩
            · rw [if_neg hx, if_pos rfl] at h
              cases h
      · rw [if_neg hd] at h
        by_cases hx : (hexDigit d).isSome = true
        · rw [if_pos hx] at h
          obtain ⟨b, e1, e2⟩ := ih s.length (by rw [← hn]; simp) s rfl ((hexDigit_iff d).1 hx) h
          exact ⟨c :: b, by rw [e1]; rfl, .more hc e2⟩
        · rw [if_neg hx, if_neg hcu] at h
          cases h
          exact ⟨[c], rfl, .one hc⟩

theorem Spec.HexDigits.head {b : Str} (h : HexDigits b) : ∃ c s, b = c :: s ∧ IsHex c := by
  cases h with
  | one h => exact ⟨_, _, rfl, h⟩
  | more h _ => exact ⟨_, _, rfl, h⟩
  | sep h _ => exact ⟨_, _, rfl, h⟩

theorem scanHex_body {b rest : Str} (h : HexDigits b) (hr : ∀ c ∈ rest, asciiSpace c = true) (prev : Char) :
    scanHex prev (b ++ rest) = some rest := by
  have key : ∀ c, IsHex c → scanHex c rest = some rest := by
    intro c hc
    have hcu : c ≠ '_' := (isHex_facts hc).2.2.2.2.2.2
    cases rest with
    | nil => rw [scanHex, if_neg hcu]
    | cons d s =>
      have hd := hr d List.mem_cons_self
      have h1 : d ≠ '_' := by rintro rfl; revert hd; decide
      have h2 : ¬ (hexDigit d).isSome = true := fun hx => by
        have := (isHex_facts ((hexDigit_iff d).1 hx)).2.1
        rw [this] at hd; cases hd
      rw [scanHex, if_neg h1, if_neg h2, if_neg hcu]
  induction h generalizing prev with
  | one hc =>
    rw [List.cons_append, scanHex, if_neg (isHex_facts hc).2.2.2.2.2.2, if_pos ((hexDigit_iff _).2 hc)]
    exact key _ hc
  | more hc _ ih =>
    rw [List.cons_append, scanHex, if_neg (isHex_facts hc).2.2.2.2.2.2, if_pos ((hexDigit_iff _).2 hc)]
    exact ih _
  | sep hc _ ih =>
    have hcu := (isHex_facts hc).2.2.2.2.2.2
    rw [List.cons_append, scanHex, if_neg hcu, if_pos ((hexDigit_iff _).2 hc), List.cons_append, scanHex, if_pos rfl,
      if_neg hcu]
    exact ih _

theorem dropWhile_blanks {b s : Str} (hb : ∀ c ∈ b, asciiSpace c = true) : (b ++ s).dropWhile asciiSpace = s.dropWhile asciiSpace := by
  induction b with
  | nil => rfl
  | cons c b ih =>
    rw [List.cons_append, List.dropWhile_cons_of_pos (hb c List.mem_cons_self)]
    exact ih fun d hd => hb d (List.mem_cons_of_mem _ hd)

theorem splitBlanks (s : Str) : ∃ b, s = b ++ s.dropWhile asciiSpace ∧ ∀ c ∈ b, asciiSpace c = true :=
  ⟨s.takeWhile asciiSpace, List.takeWhile_append_dropWhile.symm, fun _ hc => List.all_eq_true.1 List.all_takeWhile _ hc⟩

theorem skipSign_split (s : Str) : ∃ g ∈ [py! "", py! "+", py! "-"], s = g ++ skipSign s := by
  unfold skipSign
  split
  · exact ⟨py! "+", by simp, rfl⟩
  · exact ⟨py! "-", by simp, rfl⟩
  · exact ⟨[], by simp, rfl⟩

theorem skipPrefix_split (s : Str) : ∃ g ∈ [py! "", py! "0x", py! "0X", py! "0x_", py! "0X_"], s = g ++ skipPrefix s := by
  unfold skipPrefix
  split
  · exact ⟨py! "0x_", by simp, rfl⟩
  · exact ⟨py! "0x", by simp, rfl⟩
  · exact ⟨py! "0X_", by simp, rfl⟩
  · exact ⟨py! "0X", by simp, rfl⟩
  · exact ⟨[], by simp, rfl⟩

theorem skipSign_hex {c : Char} {s : Str} (h : IsHex c) : skipSign (c :: s) = c :: s := by
  have hc := isHex_facts h
  unfold skipSign
  split
  · rename_i heq; cases heq; exact absurd rfl hc.2.2.1
  · rename_i heq; cases heq; exact absurd rfl hc.2.2.2.1
  · rfl

theorem Spec.HexDigits.second {b : Str} (h : HexDigits b) : ∀ c d s, b = c :: d :: s → d ≠ 'x' ∧ d ≠ 'X' := by
  intro c d s e
  cases h with
  | one _ => cases e
  | more _ h' =>
    cases e
    obtain ⟨c', s', e', hx⟩ := h'.head
    cases e'
    have := isHex_facts hx
    exact ⟨this.2.2.2.2.1, this.2.2.2.2.2.1⟩
  | sep _ _ => cases e; decide

theorem skipPrefix_digits {b r : Str} (h : HexDigits b) (hr : ∀ c ∈ r, asciiSpace c = true) : skipPrefix (b ++ r) = b ++ r := by
  have h2 : ∀ c d s, b ++ r = c :: d :: s → d ≠ 'x' ∧ d ≠ 'X' := by
    intro c d s e
    cases b with
    | nil => cases h
    | cons c' b =>
      cases b with
      | nil =>
        simp only [List.cons_append, List.nil_append, List.cons.injEq] at e
        have := hr d (by rw [e.2]; simp)
        constructor <;> rintro rfl <;> revert this <;> decide
      | cons d' b =>
        simp only [List.cons_append, List.cons.injEq] at e
        have := h.second c' d' b rfl
        rw [e.2.1] at this
        exact this
  unfold skipPrefix
  split
  · rename_i heq; exact absurd rfl (h2 _ _ _ heq).1
  · rename_i heq; exact absurd rfl (h2 _ _ _ heq).1
  · rename_i heq; exact absurd rfl (h2 _ _ _ heq).2
  · rename_i heq; exact absurd rfl (h2 _ _ _ heq).2
  · rfl

theorem skipPrefix_prefix {b r g : Str} (h : HexDigits b) (hg : g ∈ [py! "", py! "0x", py! "0X", py! "0x_", py! "0X_"])
    (hr : ∀ c ∈ r, asciiSpace c = true) : skipPrefix (g ++ (b ++ r)) = b ++ r := by
  obtain ⟨c, s, rfl, hc⟩ := h.head
  have hu := (isHex_facts hc).2.2.2.2.2.2
  simp only [List.mem_cons, List.not_mem_nil, or_false] at hg
  rcases hg with rfl | rfl | rfl | rfl | rfl
  · exact skipPrefix_digits (b := c :: s) h hr
  · show skipPrefix ('0' :: 'x' :: c :: (s ++ r)) = _
    unfold skipPrefix
    split
    · rename_i heq; cases heq; exact absurd rfl hu
    · rename_i heq; cases heq; rfl
    · rename_i heq; cases heq
    · rename_i heq; cases heq
    · rename_i h1 _ _; exact absurd rfl (h1 _)
  · show skipPrefix ('0' :: 'X' :: c :: (s ++ r)) = _
    unfold skipPrefix
    split
    · rename_i heq; cases heq
    · rename_i heq; cases heq
    · rename_i heq; cases heq; exact absurd rfl hu
    · rename_i heq; cases heq; rfl
    · rename_i h1; exact absurd rfl (h1 _)
  · rfl
  · rfl

/-- **C56.** A key is valid exactly when it has 64 characters and is an integer literal in base 16 as Python's `int`
reads it (non-ASCII decimal digits and blanks are first replaced by `uni`). -/
theorem C56_exact (uni : Char → Char) (key : Str) :
    keyIsValid uni key = true ↔ key.length = 64 ∧ HexInteger (key.map fun c => if c.toNat < 127 then c else uni c) := by
  unfold keyIsValid intHex
  simp only [Bool.and_eq_true, decide_eq_true_eq]
  refine and_congr_right fun _ => ?_
  generalize key.map (fun c => if c.toNat < 127 then c else uni c) = t
  constructor
  · rintro ⟨hu, h⟩
    obtain ⟨b1, e1, hb1⟩ := splitBlanks t
    obtain ⟨g, hg, e2⟩ := skipSign_split (t.dropWhile asciiSpace)
    obtain ⟨p, hp, e3⟩ := skipPrefix_split (skipSign (t.dropWhile asciiSpace))
    generalize hbody : skipPrefix (skipSign (t.dropWhile asciiSpace)) = body at hu h e3
    split at h
    · cases h
    · rename_i rest hs
      simp only [Bool.and_eq_true, decide_eq_true_eq, List.isEmpty_iff] at h
      obtain ⟨b2, e4, hb2⟩ := splitBlanks rest
      rw [h.2, List.append_nil] at e4
      subst e4
      cases body with
      | nil => simp at h
      | cons c s =>
        have hcu : c ≠ '_' := by rintro rfl; simp at hu
        rw [scanHex, if_neg hcu] at hs
        by_cases hx : (hexDigit c).isSome = true
        · rw [if_pos hx] at hs
          obtain ⟨b, e5, hb⟩ := scanHex_digits s ((hexDigit_iff c).1 hx) hs
          exact ⟨b1, g, p, b, rest, by rw [e1, e2, e3, e5]; simp only [List.append_assoc], hb1, hg, hp, hb, hb2⟩
        · rw [if_neg hx, if_neg (by decide)] at hs
          cases hs
          simp at h
  · rintro ⟨b1, g, p, b, b2, rfl, hb1, hg, hp, hb, hb2⟩
    have e1 : (b1 ++ g ++ p ++ b ++ b2).dropWhile asciiSpace = g ++ (p ++ (b ++ b2)) := by
      rw [List.append_assoc, List.append_assoc, List.append_assoc, dropWhile_blanks hb1]
      obtain ⟨c, s, rfl, hc⟩ := hb.head
      have hcs := (isHex_facts hc).2.1
      simp only [List.mem_cons, List.not_mem_nil, or_false] at hg hp
      rcases hg with rfl | rfl | rfl
      · rcases hp with rfl | rfl | rfl | rfl | rfl
        · simp [List.dropWhile, hcs]
        all_goals rfl
      · rfl
      · rfl
    have e2 : skipSign (g ++ (p ++ (b ++ b2))) = p ++ (b ++ b2) := by
      obtain ⟨c, s, rfl, hc⟩ := hb.head
      simp only [List.mem_cons, List.not_mem_nil, or_false] at hg hp
      rcases hg with rfl | rfl | rfl
      · rcases hp with rfl | rfl | rfl | rfl | rfl
        · exact skipSign_hex hc
        all_goals rfl
      · rfl
      · rfl
    rw [e1, e2, skipPrefix_prefix hb hp hb2, scanHex_body hb hb2]
    obtain ⟨c, s, rfl, hc⟩ := hb.head
    have hcu := (isHex_facts hc).2.2.2.2.2.2
    refine ⟨by simpa using hcu, ?_⟩
    simp only [Bool.and_eq_true, decide_eq_true_eq, List.isEmpty_iff]
    refine ⟨by simp; omega, ?_⟩
    have := dropWhile_blanks (s := []) hb2
    simpa using this

theorem Spec.HexDigits.of_hex {s : Str} (hn : s ≠ []) (h : ∀ c ∈ s, IsHex c) : HexDigits s := by
  induction s with
  | nil => exact absurd rfl hn
  | cons c s ih =>
    cases s with
    | nil => exact .one (h c (by simp))
    | cons d s => exact .more (h c (by simp)) (ih (by simp) fun e he => h e (List.mem_cons_of_mem _ he))

theorem Spec.HexDigits.mem {s : Str} (h : HexDigits s) : ∀ c ∈ s, IsHex c ∨ c = '_' := by
  induction h with
  | one hc => intro d hd; rw [List.mem_singleton.1 hd]; exact .inl hc
  | more hc _ ih => intro d hd; rcases List.mem_cons.1 hd with rfl | hd; exact .inl hc; exact ih d hd
  | sep hc _ ih =>
    intro d hd
    rcases List.mem_cons.1 hd with rfl | hd
    · exact .inl hc
    · rcases List.mem_cons.1 hd with rfl | hd
      · exact .inr rfl
      · exact ih d hd

theorem map_ascii {uni : Char → Char} {key : Str} (ha : ∀ c ∈ key, c.toNat < 127) :
    key.map (fun c => if c.toNat < 127 then c else uni c) = key := by
  conv => rhs; rw [← List.map_id key]
  exact List.map_congr_left fun c hc => by rw [if_pos (ha c hc)]; rfl

/-- **C56, ordinary keys.** A key of letters and digits in which `x` and `X` do not occur is valid exactly when it
consists of 64 hexadecimal digits. -/
theorem C56_hex (uni : Char → Char) (key : Str)
    (ha : ∀ c ∈ key, c.toNat < 127 ∧ asciiSpace c = false ∧ c ∉ ['_', '+', '-', 'x', 'X']) :
    keyIsValid uni key = true ↔ key.length = 64 ∧ ∀ c ∈ key, IsHex c := by
  rw [C56_exact, map_ascii fun c hc => (ha c hc).1]
  refine and_congr_right fun hl => ⟨?_, fun h => ?_⟩
  · rintro ⟨b1, g, p, b, b2, e, hb1, hg, hp, hb, hb2⟩ c hc
    have := ha c hc
    subst e
    simp only [List.mem_append] at hc
    rcases hc with (((hc | hc) | hc) | hc) | hc
    · rw [hb1 c hc] at this; simp at this
    · simp only [List.mem_cons, List.not_mem_nil, or_false] at hg
      rcases hg with rfl | rfl | rfl
      · simp at hc
      all_goals simp at hc; simp [hc] at this
    · have hx : 'x' ∉ p ∧ 'X' ∉ p := by
        constructor <;> intro hx
        · have := ha 'x' (by simp [hx]); simp at this
        · have := ha 'X' (by simp [hx]); simp at this
      simp only [List.mem_cons, List.not_mem_nil, or_false] at hp
      rcases hp with rfl | rfl | rfl | rfl | rfl
      · simp at hc
      all_goals simp at hx
    · rcases hb.mem c hc with h | rfl
      · exact h
      · simp at this
    · rw [hb2 c hc] at this; simp at this
  · exact ⟨[], [], [], key, [], by simp, by simp, by simp, by simp,
      .of_hex (by rintro rfl; simp at hl) h, by simp⟩

example : keyIsValid id (List.replicate 60 'a' ++ py! "09Ff") = true := by decide

/-- C56 refuted: `0x` and 62 digits, digits with an underscore, a sign, or surrounding blanks are also valid. -/
theorem C56_refuted :
    keyIsValid id (py! "0x" ++ List.replicate 62 'a') = true ∧ keyIsValid id (py! "a_" ++ List.replicate 62 'a') = true ∧
    keyIsValid id ('-' :: List.replicate 63 'a') = true ∧ keyIsValid id (py! "   1" ++ List.replicate 60 ' ') = true ∧
    ¬ IsHex 'x' ∧ ¬ IsHex '_' ∧ ¬ IsHex '-' ∧ ¬ IsHex ' ' := by decide

/-! ## C57 -/

theorem utf8_inj {a b : Str} (h : utf8 a = utf8 b) : a = b := by
  have : (String.ofList a).toByteArray = (String.ofList b).toByteArray := by
    show List.utf8Encode a = List.utf8Encode b
    unfold List.utf8Encode
    unfold utf8 at h
    rw [h]
  have := String.toByteArray_inj.1 this
  simpa using congrArg String.toList this

theorem hexByte_parse (b : UInt8) :
    ∃ c d x y, hexByte b = [c, d] ∧ asciiSpace c = false ∧ hexDigit c = some x ∧ hexDigit d = some y ∧ UInt8.ofNat (16 * x + y) = b := by
  have h : ∀ n : Fin 256, ∃ x y, hexDigit ((py! "0123456789abcdef").getD (n.val / 16) ' ') = some x ∧
      hexDigit ((py! "0123456789abcdef").getD (n.val % 16) ' ') = some y ∧
      asciiSpace ((py! "0123456789abcdef").getD (n.val / 16) ' ') = false ∧ 16 * x + y = n.val := by
    have h16 : ∀ k : Fin 16, hexDigit ((py! "0123456789abcdef").getD k.val ' ') = some k.val ∧
        asciiSpace ((py! "0123456789abcdef").getD k.val ' ') = false := by decide
    intro n
    have h1 := h16 ⟨n.val / 16, by omega⟩
    have h2 := h16 ⟨n.val % 16, by omega⟩
    exact ⟨_, _, h1.1, h2.1, h1.2, by simp only; omega⟩
  obtain ⟨x, y, h1, h2, h3, h4⟩ := h ⟨b.toNat, b.toNat_lt⟩
  refine ⟨_, _, x, y, rfl, h3, h1, h2, ?_⟩
  rw [h4]
  exact UInt8.ofNat_toNat

theorem hexToBytes_toHex (bs : List UInt8) : hexToBytes (toHex bs) = some bs := by
  induction bs with
  | nil => rfl
  | cons b bs ih =>
    obtain ⟨c, d, x, y, e, hs, hx, hy, hb⟩ := hexByte_parse b
    have : toHex (b :: bs) = c :: d :: toHex bs := by
      show hexByte b ++ toHex bs = _
      rw [e]; rfl
    rw [this]
    simp only [hexToBytes, hs, Bool.false_eq_true, if_false, hx, hy, ih, Option.map_some, hb]

theorem hexDigit_val {c : Char} (h : IsHex c) : hexDigit c = some (hexVal c) := by
  revert c
  decide

theorem hexToBytes_iff (s : Str) (bs : List UInt8) : hexToBytes s = some bs ↔ HexText s bs := by
  constructor
  · induction hn : s.length using Nat.strongRecOn generalizing s bs with
    | _ n ih =>
      intro h
      cases s with
      | nil => rw [hexToBytes] at h; cases h; exact .nil
      | cons c s =>
        by_cases hc : asciiSpace c = true
        · rw [hexToBytes.eq_def] at h
          simp only [hc, if_true] at h
          exact .blank hc (ih s.length (by rw [← hn]; simp) s bs rfl h)
        · cases s with
          | nil => simp [hexToBytes, hc] at h
          | cons d s =>
            rw [hexToBytes.eq_def] at h
            simp only [hc, if_false, Bool.false_eq_true] at h
            split at h
            · rename_i a b ha hb
              have hac := (hexDigit_iff c).1 (by rw [ha]; rfl)
              have hbd := (hexDigit_iff d).1 (by rw [hb]; rfl)
              rw [hexDigit_val hac] at ha
              rw [hexDigit_val hbd] at hb
              cases ha; cases hb
              cases hr : hexToBytes s with
              | none => rw [hr] at h; cases h
              | some r =>
                rw [hr] at h
                cases h
                exact .pair hac hbd (ih s.length (by rw [← hn]; simp; omega) s r rfl hr)
            · cases h
  · intro h
    induction h with
    | nil => rfl
    | blank hc _ ih => rw [hexToBytes.eq_def]; simp only; rw [if_pos hc]; exact ih
    | pair hc hd _ ih =>
      rw [hexToBytes.eq_def]
      simp only
      rw [if_neg (by rw [(isHex_facts hc).2.1]; simp), hexDigit_val hc, hexDigit_val hd, ih]
      rfl

theorem Spec.HexText.toHex (bs : List UInt8) : HexText (Spec.toHex bs) bs := (hexToBytes_iff _ _).1 (hexToBytes_toHex bs)

/-- **C57, what is hashed.** A text of digit pairs is hashed as the bytes it stands for, any other text as its UTF-8
bytes. -/
theorem C57_inputs (s : Str) (bs : List UInt8) :
    hashInput s = bs ↔ HexText s bs ∨ ((∀ bs', ¬ HexText s bs') ∧ bs = utf8 s) := by
  unfold hashInput
  cases h : hexToBytes s with
  | none =>
    have hno : ∀ bs', ¬ HexText s bs' := fun bs' hb => by rw [(hexToBytes_iff _ _).2 hb] at h; cases h
    exact ⟨fun e => .inr ⟨hno, e.symm⟩, fun e => by rcases e with e | e; exact absurd e (hno _); exact e.2.symm⟩
  | some r =>
    have hr := (hexToBytes_iff _ _).1 h
    refine ⟨fun e => .inl (by simpa using e ▸ hr), fun e => ?_⟩
    rcases e with e | e
    · rw [(hexToBytes_iff _ _).2 e] at h; cases h; rfl
    · exact absurd hr (e.1 _)

/-- **C57, which texts are hashed alike.** Two texts give the hash function the same bytes exactly when they are
equal, or stand for the same bytes, or one stands for the UTF-8 bytes of the other, which stands for none. -/
theorem C57_same (a b : Str) :
    hashInput a = hashInput b ↔ a = b ∨ (∃ bs, HexText a bs ∧ HexText b bs) ∨
      (HexText a (utf8 b) ∧ ∀ bs, ¬ HexText b bs) ∨ (HexText b (utf8 a) ∧ ∀ bs, ¬ HexText a bs) := by
  constructor
  · intro h
    rcases (C57_inputs a _).1 h with ha | ⟨ha, e⟩
    · rcases (C57_inputs b _).1 rfl with hb | ⟨hb, e'⟩
      · exact .inr (.inl ⟨_, ha, hb⟩)
      · rw [e'] at ha; exact .inr (.inr (.inl ⟨ha, hb⟩))
    · rcases (C57_inputs b _).1 rfl with hb | ⟨_, e'⟩
      · rw [e] at hb; exact .inr (.inr (.inr ⟨hb, ha⟩))
      · exact .inl (utf8_inj (e.symm.trans e'))
  · rintro (rfl | ⟨bs, ha, hb⟩ | ⟨ha, hb⟩ | ⟨hb, ha⟩)
    · rfl
    · rw [(C57_inputs a bs).2 (.inl ha), (C57_inputs b bs).2 (.inl hb)]
    · rw [(C57_inputs a _).2 (.inl ha), (C57_inputs b _).2 (.inr ⟨hb, rfl⟩)]
    · rw [(C57_inputs b _).2 (.inl hb), (C57_inputs a _).2 (.inr ⟨ha, rfl⟩)]

/-- C57: hashing chains: the result of one hash, as hexadecimal text, is hashed as bytes. -/
theorem C57_chain (digest : List UInt8 → List UInt8) (s : Str) :
    hashOf (fun x => toHex (digest x)) (hashOf (fun x => toHex (digest x)) s) = toHex (digest (digest (hashInput s))) := by
  simp [hashOf, (C57_inputs _ _).2 (.inl (HexText.toHex _))]

example : hexToBytes (py! "con_token") = none ∧ toHex [222, 173] = py! "dead" := by decide

/-- C57 refuted: `'a'` and `'61'`, `'ab'` and `'AB'`, `'ab cd'` and `'abcd'`, the empty text and a blank give the hash
function the same bytes. -/
theorem C57_refuted :
    hashInput (py! "a") = hashInput (py! "61") ∧ hashInput (py! "ab") = hashInput (py! "AB") ∧
    hashInput (py! "ab cd") = hashInput (py! "abcd") ∧ hashInput [] = hashInput (py! " ") := by decide

/-! ## C74: signatures -/

/-- **C74.** With `nacl.signing` loaded, `verify` returns `True` exactly when key and signature are texts of 32 and of
64 bytes and the signature of the UTF-8 bytes of the message is correct. -/
theorem C74_true {N : Nacl} (hl : N.loaded = true) (vk msg sig : Str) :
    verifySig N vk msg sig = .ok true ↔
      ∃ k s, HexText vk k ∧ HexText sig s ∧ k.length = 32 ∧ s.length = 64 ∧ N.ed25519 k (utf8 msg) s = true := by
  unfold verifySig
  constructor
  · intro h
    split at h
    · cases h
    · rename_i k hk
      split at h
      · cases h
      · rename_i s hs
        rw [hl] at h
        simp only [Bool.true_eq_false, if_false] at h
        split at h
        · rename_i h32
          simp only [Except.ok.injEq, Bool.and_eq_true, decide_eq_true_eq] at h
          exact ⟨k, s, (hexToBytes_iff _ _).1 hk, (hexToBytes_iff _ _).1 hs, h32, h.1, h.2⟩
        · cases h
  · rintro ⟨k, s, hk, hs, h32, h64, h⟩
    rw [(hexToBytes_iff _ _).2 hk]
    simp only
    rw [(hexToBytes_iff _ _).2 hs]
    simp [hl, h32, h64, h]

/-- **C74.** It raises exactly when the key is not a text of 32 bytes or the signature is not a text of bytes; so a
signature of the wrong length or a wrong signature gives `False`. -/
theorem C74_raises {N : Nacl} (hl : N.loaded = true) (vk msg sig : Str) :
    (∃ e, verifySig N vk msg sig = .error e) ↔
      (¬ ∃ k, HexText vk k ∧ k.length = 32) ∨ ¬ ∃ s, HexText sig s := by
  have inj : ∀ {t : Str} {a b}, HexText t a → HexText t b → a = b := fun ha hb => by
    have := (hexToBytes_iff _ _).2 ha
    rw [(hexToBytes_iff _ _).2 hb] at this
    exact (Option.some.inj this).symm
  unfold verifySig
  cases hk : hexToBytes vk with
  | none =>
    refine ⟨fun _ => .inl ?_, fun _ => ⟨_, rfl⟩⟩
    rintro ⟨k, h, _⟩; rw [(hexToBytes_iff _ _).2 h] at hk; cases hk
  | some k =>
    have hk' := (hexToBytes_iff _ _).1 hk
    cases hs : hexToBytes sig with
    | none =>
      refine ⟨fun _ => .inr ?_, fun _ => ⟨_, rfl⟩⟩
      rintro ⟨s, h⟩; rw [(hexToBytes_iff _ _).2 h] at hs; cases hs
    | some s =>
      have hs' := (hexToBytes_iff _ _).1 hs
      simp only [hl, Bool.true_eq_false, if_false]
      by_cases h32 : k.length = 32
      · rw [if_pos h32]
        refine ⟨(by rintro ⟨e, h⟩; cases h), ?_⟩
        rintro (h | h)
        · exact absurd ⟨k, hk', h32⟩ h
        · exact absurd ⟨s, hs'⟩ h
      · rw [if_neg h32]
        refine ⟨fun _ => .inl ?_, fun _ => ⟨_, rfl⟩⟩
        rintro ⟨k', h, h'⟩
        rw [← inj hk' h] at h'
        exact h32 h'

/-- A key of 32 and a signature of 64 bytes, and one of 63 bytes. -/
example (f : List UInt8 → List UInt8 → List UInt8 → Bool) :
    verifySig ⟨true, f⟩ (List.replicate 64 'A') (py! "hi") (List.replicate 128 '0') =
      .ok (f (List.replicate 32 170) [104, 105] (List.replicate 64 0)) ∧
    verifySig ⟨true, f⟩ (List.replicate 64 'A') (py! "hi") (List.replicate 126 '0') = .ok false ∧
    verifySig ⟨true, f⟩ (List.replicate 63 'A') (py! "hi") (List.replicate 126 '0') = .error .valueError := ⟨rfl, rfl, rfl⟩

/-- C74 depends on another module having imported `nacl.signing`: otherwise nothing is ever verified. -/
theorem C74_refuted (f : List UInt8 → List UInt8 → List UInt8 → Bool) (vk msg sig : Str) :
    ∃ e, verifySig ⟨false, f⟩ vk msg sig = .error e := by
  unfold verifySig
  split
  · exact ⟨_, rfl⟩
  · split
    · exact ⟨_, rfl⟩
    · exact ⟨_, rfl⟩

end Verif
