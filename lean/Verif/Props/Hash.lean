import Verif.Proof.Hash
/-!
# C39 to C42: `numbers::big_endian`, `sha1`, `sha256`, hexadecimal literals

`hostBytes e n x` is the object representation of the member of a `big_endian<T>` object on a host of byte order `e`, and
`beValue` reads bytes as a big-endian number: an object holds the number `beValue (hostBytes e n x)`.
-/

namespace Zpp.Props
open Zpp

/-- C39, construction: the object's bytes are the number in big-endian order, on either host. -/
theorem C39_make (e : Endian) (n v : Nat) :
    (hostBytes e n (beMake e n v)).length = n ∧ beValue (hostBytes e n (beMake e n v)) = v % 256 ^ n := by
  rw [beMake, hostBytes_hostNat' e n _ (beDigits_length n v), beDigits_length, beValue_beDigits]
  exact ⟨rfl, rfl⟩

/-- C39, left shift by any amount. -/
theorem C39_shl (e : Endian) (n x v : Nat) :
    beValue (hostBytes e n (beShl e n x v)) = (beValue (hostBytes e n x) * 2 ^ v) % 2 ^ (8 * n) := beShl_value e n x v

/-- C39, right shift by any amount (of a 64-bit type; objects have at most 8 bytes). -/
theorem C39_shr (e : Endian) (n x v : Nat) (hn : n ≤ 8) (hv : v < 2 ^ 64) :
    beValue (hostBytes e n (beShr e n x v)) = beValue (hostBytes e n x) / 2 ^ v := beShr_value e n x v (by omega)

/-- C39, addition. -/
theorem C39_add (e : Endian) (n x y : Nat) :
    beValue (hostBytes e n (beAdd e n x y)) = (beValue (hostBytes e n x) + beValue (hostBytes e n y)) % 2 ^ (8 * n) := by
  rw [beAdd_value, pow256]

/-- C39, bitwise operators. -/
theorem C39_bitwise (e : Endian) (n x y : Nat) (hx : x < 256 ^ n) (hy : y < 256 ^ n) :
    beValue (hostBytes e n (beAnd x y)) = beValue (hostBytes e n x) &&& beValue (hostBytes e n y) ∧
    beValue (hostBytes e n (beOr x y)) = beValue (hostBytes e n x) ||| beValue (hostBytes e n y) ∧
    beValue (hostBytes e n (beXor x y)) = beValue (hostBytes e n x) ^^^ beValue (hostBytes e n y) ∧
    beValue (hostBytes e n (beNot n x)) = 2 ^ (8 * n) - 1 - beValue (hostBytes e n x) :=
  ⟨beAnd_value e n x y hx hy, beOr_value e n x y hx hy, beXor_value e n x y hx hy, by rw [← pow256]; exact beNot_value e n x hx⟩

example : beValue (hostBytes .little 4 (beShl .little 4 (beMake .little 4 0x12345678) 12)) = 0x45678000 ∧
    beValue (hostBytes .little 4 (beShr .little 4 (beMake .little 4 0x12345678) 12)) = 0x12345 ∧
    beValue (hostBytes .little 2 (beAdd .little 2 (beMake .little 2 0xfffe) (beMake .little 2 0x103))) = 0x101 ∧
    beMake .little 2 0x102 = 0x201 ∧ beMake .big 2 0x102 = 0x102 := by decide +kernel

/-- C39, comparison: on a big-endian host objects compare like the numbers they hold. -/
theorem C39_compare_big (n x y : Nat) (hx : x < 256 ^ n) (hy : y < 256 ^ n) :
    beLt x y = true ↔ beValue (hostBytes .big n x) < beValue (hostBytes .big n y) := by
  simp only [beLt, hostBytes, beValue_eq, List.reverse_reverse, decide_eq_true_eq]
  rw [leNat_leBytes n x hx, leNat_leBytes n y hy]

/-- On a little-endian host they do not: 1 compares greater than 256. -/
theorem C39_compare_little_wrong :
    ¬ ∀ a b, a < 256 ^ 2 → b < 256 ^ 2 → (beLt (beMake .little 2 a) (beMake .little 2 b) = true ↔ a < b) := by
  intro h
  have := h 1 256 (by decide) (by decide)
  revert this
  decide +kernel

/-- C40. `sha1` accepts exactly the messages of at most 4096 bytes whose length modulo 64 is at most 55, and computes their
SHA-1 digest, on either host. -/
theorem C40_sha1 (e : Endian) (msg : List UInt8) :
    (msg.length ≤ 4096 ∧ msg.length % 64 ≤ 55 → sha1 e msg = some (Fips.sha1 msg)) ∧
    (¬ (msg.length ≤ 4096 ∧ msg.length % 64 ≤ 55) → sha1 e msg = none) := by
  rw [sha1_spec]
  exact ⟨fun h => if_pos h, fun h => if_neg h⟩

/-- C41. `sha256` accepts the same messages, and computes their SHA-256 digest, on either host. -/
theorem C41_sha256 (e : Endian) (msg : List UInt8) :
    (msg.length ≤ 4096 ∧ msg.length % 64 ≤ 55 → sha256 e msg = some (Fips.sha256 msg)) ∧
    (¬ (msg.length ≤ 4096 ∧ msg.length % 64 ≤ 55) → sha256 e msg = none) := by
  rw [sha256_spec]
  exact ⟨fun h => if_pos h, fun h => if_neg h⟩

-- The digests of "abc" from FIPS 180-4, appendix A and B.
example : sha1 .little [97, 98, 99] = some [0xa9, 0x99, 0x3e, 0x36, 0x47, 0x06, 0x81, 0x6a, 0xba, 0x3e, 0x25, 0x71,
    0x78, 0x50, 0xc2, 0x6c, 0x9c, 0xd0, 0xd8, 0x9d] := by decide +kernel

example : sha256 .little [97, 98, 99] = some [0xba, 0x78, 0x16, 0xbf, 0x8f, 0x01, 0xcf, 0xea, 0x41, 0x41, 0x40, 0xde,
    0x5d, 0xae, 0x22, 0x23, 0xb0, 0x03, 0x61, 0xa3, 0x96, 0x17, 0x7a, 0x9c, 0xb4, 0x10, 0xff, 0x61, 0xf2, 0x00, 0x15, 0xad] := by
  decide +kernel

/-! ## Hexadecimal literals -/

theorem hexVal_spec {c x : Nat} (h : HexVal c x) : hexCharOk c = true ∧ hexDigit (hexToLower c) = x ∧ x < 16 := by
  cases h with
  | digit h =>
    have h1 : 48 ≤ c ∧ c ≤ 57 := h
    have h3 : '0'.toNat = 48 := rfl
    have h2 : hexToLower c = c := by unfold hexToLower; rw [if_neg (by omega)]
    rw [h2, h3]
    unfold hexCharOk hexDigit
    rw [if_neg (by omega)]
    simp [h1]; omega
  | upper h =>
    have h1 : 65 ≤ c ∧ c ≤ 70 := h
    have h3 : 'A'.toNat = 65 := rfl
    have h2 : hexToLower c = c - 65 + 97 := by unfold hexToLower; rw [if_pos (by omega)]
    rw [h3]
    unfold hexCharOk hexDigit
    rw [h2, if_pos (by omega)]
    refine ⟨?_, by omega, by omega⟩
    simp; omega
  | lower h =>
    have h1 : 97 ≤ c ∧ c ≤ 102 := h
    have h3 : 'a'.toNat = 97 := rfl
    have h2 : hexToLower c = c := by unfold hexToLower; rw [if_neg (by omega)]
    rw [h3]
    unfold hexCharOk hexDigit
    rw [h2, if_pos (by omega)]
    refine ⟨?_, by omega, by omega⟩
    simp; omega

theorem hexVal_exists {c : Nat} (h : hexCharOk c = true) : ∃ x, HexVal c x := by
  unfold hexCharOk hexToLower at h
  simp only [Bool.or_eq_true, Bool.and_eq_true, decide_eq_true_eq] at h
  by_cases h1 : 48 ≤ c ∧ c ≤ 57
  · exact ⟨_, .digit c h1⟩
  · by_cases h2 : 65 ≤ c ∧ c ≤ 90
    · rw [if_pos h2] at h
      exact ⟨_, .upper c (show 65 ≤ c ∧ c ≤ 70 by omega)⟩
    · rw [if_neg h2] at h
      exact ⟨_, .lower c (show 97 ≤ c ∧ c ≤ 102 by omega)⟩

theorem shl_or (x y : Nat) (hy : y < 16) : (x <<< 4) ||| y = 16 * x + y := by
  rw [Nat.shiftLeft_eq, Nat.mul_comm]
  exact (Nat.two_pow_add_eq_or_of_lt (i := 4) hy x).symm

theorem spells_decode {s : List Nat} {bs : List UInt8} (h : Spells s bs) :
    s.length % 2 = 0 ∧ s.all hexCharOk = true ∧ hexPairs s = bs := by
  induction h with
  | nil => simp [hexPairs]
  | cons hl hr _ ih =>
    obtain ⟨i1, i2, i3⟩ := ih
    obtain ⟨a1, a2, a3⟩ := hexVal_spec hl
    obtain ⟨b1, b2, b3⟩ := hexVal_spec hr
    refine ⟨by simp only [List.length_cons]; omega, by simp [a1, b1, i2], ?_⟩
    simp only [hexPairs, a2, b2, i3, shl_or _ _ b3]

theorem decode_spells : ∀ (s : List Nat), s.length % 2 = 0 → s.all hexCharOk = true → ∃ bs, Spells s bs
  | [], _, _ => ⟨[], .nil⟩
  | [_], h, _ => by simp at h
  | l :: r :: s, h, ha => by
    simp only [List.all_cons, Bool.and_eq_true] at ha
    obtain ⟨x, hx⟩ := hexVal_exists ha.1
    obtain ⟨y, hy⟩ := hexVal_exists ha.2.1
    obtain ⟨bs, hs⟩ := decode_spells s (by simp only [List.length_cons] at h; omega) ha.2.2
    exact ⟨_, .cons hx hy hs⟩

/-- C42. A literal is accepted with result `bs` if and only if it is a string of pairs of hexadecimal digits, of either
case, that spells `bs`; everything else does not compile. -/
theorem C42_decode_hex (s : List Nat) (bs : List UInt8) : decodeHex s = some bs ↔ Spells s bs := by
  unfold decodeHex
  constructor
  · intro h
    split at h
    · cases h
    · next h0 =>
      split at h
      · next ha =>
        obtain ⟨bs', hs⟩ := decode_spells s (by omega) ha
        have := (spells_decode hs).2.2
        cases h
        rw [this]; exact hs
      · cases h
  · intro h
    obtain ⟨h1, h2, h3⟩ := spells_decode h
    rw [if_neg (by omega), if_pos h2, h3]

/-- C42. Any way to write bytes with two hexadecimal digits each is inverted: in particular lower-case and upper-case
encoding. `dig` picks the character for a digit value. -/
theorem C42_inverse (dig : Nat → Nat) (hdig : ∀ x, x < 16 → HexVal (dig x) x) (bs : List UInt8) :
    decodeHex (bs.flatMap fun b => [dig (b.toNat / 16), dig (b.toNat % 16)]) = some bs := by
  rw [C42_decode_hex]
  induction bs with
  | nil => exact .nil
  | cons b bs ih =>
    have hb := b.toNat_lt
    have key := Spells.cons (hdig (b.toNat / 16) (by omega)) (hdig (b.toNat % 16) (by omega)) ih
    have e1 : UInt8.ofNat (16 * (b.toNat / 16) + b.toNat % 16) = b := by rw [Nat.div_add_mod]; simp
    rw [e1] at key
    exact key

/-- The lower-case and the upper-case digits. -/
def lowerDigit (x : Nat) : Nat := if x < 10 then '0'.toNat + x else 'a'.toNat + (x - 10)
/-- The upper-case digits. -/
def upperDigit (x : Nat) : Nat := if x < 10 then '0'.toNat + x else 'A'.toNat + (x - 10)

theorem C42_lower_upper (bs : List UInt8) :
    decodeHex (bs.flatMap fun b => [lowerDigit (b.toNat / 16), lowerDigit (b.toNat % 16)]) = some bs ∧
    decodeHex (bs.flatMap fun b => [upperDigit (b.toNat / 16), upperDigit (b.toNat % 16)]) = some bs := by
  have h0 : '0'.toNat = 48 := rfl
  have h9 : '9'.toNat = 57 := rfl
  have hA : 'A'.toNat = 65 := rfl
  have hF : 'F'.toNat = 70 := rfl
  have ha : 'a'.toNat = 97 := rfl
  have hf : 'f'.toNat = 102 := rfl
  constructor <;> apply C42_inverse <;> intro x hx
  · unfold lowerDigit
    split
    · have := HexVal.digit ('0'.toNat + x) (by omega)
      rwa [Nat.add_sub_cancel_left] at this
    · have := HexVal.lower ('a'.toNat + (x - 10)) (by omega)
      rwa [Nat.add_sub_cancel_left, show 10 + (x - 10) = x by omega] at this
  · unfold upperDigit
    split
    · have := HexVal.digit ('0'.toNat + x) (by omega)
      rwa [Nat.add_sub_cancel_left] at this
    · have := HexVal.upper ('A'.toNat + (x - 10)) (by omega)
      rwa [Nat.add_sub_cancel_left, show 10 + (x - 10) = x by omega] at this

-- "Aa0f" spells two bytes; "a" and "0g" are rejected.
example : decodeHex [65, 97, 48, 102] = some [0xaa, 0x0f] ∧ decodeHex [97] = none ∧ decodeHex [48, 103] = none := by
  decide +kernel

end Zpp.Props
