import Verif.Proof.Varint
/-!
# Properties C19-C23: variable length integers

Statements use the model of `zpp_bits.h:1586-1833` and the LEB128 / zigzag definitions of
`Verif/Spec/Leb128.lean`. `IntWidth n` says that `n` is `sizeof` of a C++ integer type.
-/

namespace Zpp.Props
open Zpp Zpp.Spec

/-- C19. The bytes written for an unsigned value `v` are one LEB128 group string denoting `v`, no group
string denoting `v` is shorter, and `varint_size` predicts the length, which never exceeds
`varint_max_size`. -/
theorem C19_varint_minimal (n v : Nat) (hn : IntWidth n) (hv : v < 2 ^ (8 * n)) :
    IsLeb (varintBytes v) ∧ lebValue (varintBytes v) = v ∧
    (∀ g, IsLeb g → lebValue g = v → (varintBytes v).length ≤ g.length) ∧
    varintSize n v = (varintBytes v).length ∧ (varintBytes v).length ≤ varintMaxSize n := by
  have hn0 : 0 < n := by rcases hn with h | h | h | h <;> omega
  refine ⟨lebPrefix_varintBytes v, lebValue_varintBytes v, ?_, varintSize_eq_length n v hn0 hv,
    varintBytes_length_le_max n v hv⟩
  intro g hg hgv
  have h1 := (lebPrefix_length hg).1
  rw [varintBytes_length_le_iff _ _ h1, ← hgv]
  exact lebValue_lt g

example : IntWidth 4 ∧ 150 < 2 ^ (8 * 4) ∧ varintBytes 150 = [0x96, 0x01] := by decide
example : varintBytes (2 ^ 32 - 1) = [0xff, 0xff, 0xff, 0xff, 0x0f] := by decide

/-- C20. Writing a value and reading it back at the same type yields the value and consumes exactly the
written bytes, whatever follows; for zigzag types as well (`x` is the two's complement word). -/
theorem C20_varint_roundtrip (n x : Nat) (zz : Bool) (hn : IntWidth n) (hx : x < 2 ^ (8 * n))
    (rest : List UInt8) :
    readVarintRaw n (varintBytes (varintLoad n zz x) ++ rest) =
      .ok (varintLoad n zz x) (varintBytes (varintLoad n zz x)).length ∧
    varintStore n zz (varintLoad n zz x) = x := by
  have hn0 : 0 < n := by rcases hn with h | h | h | h <;> omega
  exact ⟨readVarintRaw_varintBytes n _ hn (varintLoad_lt n zz x hn0 hx) rest,
    varintStore_load n zz x hn0 hx⟩

example : IntWidth 4 ∧ (2 ^ 32 - 1) < 2 ^ (8 * 4) ∧ varintLoad 4 true (2 ^ 32 - 1) = 1 ∧
    varintStore 4 true 1 = 2 ^ 32 - 1 := by decide

/-- C21. All decoding paths (first byte shortcut, byte by byte near the end of the input, unrolled, and the
alternative inline build) agree on every input, and compute this function of the input: the first LEB128
group string, if it is at most `varint_max_size` long, reduced to the width of the type. -/
theorem C21_varint_decoder (n : Nat) (hn : IntWidth n) (data : List UInt8) :
    readVarintRaw n data = readVarintRawInline n data ∧
    readVarintRaw n data =
      match lebPrefix data with
      | some g =>
        if g.length ≤ varintMaxSize n then .ok (lebValue g % 2 ^ (8 * n)) g.length
        else .err .valueTooLarge
      | none =>
        if data.length < varintMaxSize n then .err .resultOutOfRange else .err .valueTooLarge := by
  have h : readVarintRaw n data = decodeVarint n data := readVarintRaw_eq_decode n hn data
  exact ⟨h, h.trans (decodeVarint_spec n hn data)⟩

/-- C21 (accepted length). Whether near the end of the input or not, the same group string is decoded to
the same value: decoding does not depend on what follows. -/
theorem C21_varint_suffix_irrelevant (n : Nat) (hn : IntWidth n) (data rest : List UInt8) (v len : Nat)
    (h : readVarintRaw n data = .ok v len) :
    readVarintRaw n (data ++ rest) = .ok v len ∧ readVarintRaw n (data.take len) = .ok v len := by
  rw [(C21_varint_decoder n hn data).2] at h
  cases hp : lebPrefix data with
  | none => rw [hp] at h; simp only at h; split at h <;> cases h
  | some g =>
    rw [hp] at h; simp only at h
    split at h
    · rename_i hg
      cases h
      constructor
      · rw [(C21_varint_decoder n hn _).2, lebPrefix_append hp]; simp [hg]
      · rw [(C21_varint_decoder n hn _).2, lebPrefix_take hp _ (Nat.le_refl _)]; simp [hg]
    · cases h

example : readVarintRaw 4 [0x96, 0x01, 0xff, 0xff, 0xff, 0xff] = .ok 150 2 ∧
    readVarintRaw 4 [0x96, 0x01] = .ok 150 2 := by decide

/-- C22. The encoder's zigzag transformation of the two's complement word is the zigzag image of the signed
value, and encoder and decoder transformations are mutually inverse bijections on words. -/
theorem C22_zigzag_bijection (w x : Nat) (hw : 0 < w) (hx : x < 2 ^ w) :
    zzEnc w x = zigzag (toSigned w x) ∧ zzEnc w x < 2 ^ w ∧ zzDec w x < 2 ^ w ∧
    zzDec w (zzEnc w x) = x ∧ zzEnc w (zzDec w x) = x :=
  ⟨zzEnc_eq w x hw hx, zzEnc_lt w x hw hx, zzDec_lt w x hx, zzDec_zzEnc w x hw hx, zzEnc_zzDec w x hw hx⟩

example : (0 < 32 ∧ 2 ^ 32 - 2 < 2 ^ 32) ∧ toSigned 32 (2 ^ 32 - 2) = -2 ∧ zzEnc 32 (2 ^ 32 - 2) = 3 := by
  decide

/-- C23. No input makes the varint reader shift by the width of the promoted type or more, or read past the
end of the data: undefined behaviour is unreachable. -/
theorem C23_varint_no_ub (n : Nat) (hn : IntWidth n) (data : List UInt8) :
    readVarintRaw n data ≠ .ub ∧ readVarintRawInline n data ≠ .ub ∧
    ∀ v len, readVarintRaw n data = .ok v len → v < 2 ^ (8 * n) ∧ 0 < len ∧ len ≤ data.length := by
  have h := C21_varint_decoder n hn data
  rw [← h.1, h.2]
  cases hp : lebPrefix data with
  | none =>
    simp only
    split <;> simp
  | some g =>
    simp only
    have := lebPrefix_length hp
    split
    · refine ⟨by simp, by simp, ?_⟩
      intro v len he
      cases he
      exact ⟨Nat.mod_lt _ (Nat.pow_pos (by omega)), this⟩
    · simp

example : IntWidth 8 ∧ readVarintRaw 8 (List.replicate 12 0xff) = .err .valueTooLarge := by decide

end Zpp.Props
