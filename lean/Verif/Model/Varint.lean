import Verif.Model.Base
/-!
# Model of variable length integers (zpp_bits.h:1586-1833)

A varint of C++ type with `sizeof == n` is handled as the unsigned value of width `w = 8 * n` bits
(`std::make_unsigned_t`), a natural number below `2 ^ w`.
-/

namespace Zpp

/-- `varint_max_size<Type>` for `sizeof(Type) = n` (zpp_bits.h:1640-1642). -/
def varintMaxSize (n : Nat) : Nat := n * 8 / 7 + 1

/-- `std::countl_zero` on a `w`-bit unsigned value (used at zpp_bits.h:1652). -/
def countlZero (w x : Nat) : Nat := if x = 0 then w else w - (Nat.log2 x + 1)

/-- `varint_size<normal>(value)` for `sizeof(value) = n` (zpp_bits.h:1650-1656). -/
def varintSize (n value : Nat) : Nat := ((n * 8) - countlZero (n * 8) (value ||| 1) + (8 - 2)) / (8 - 1)

/-- The zigzag image computed by the encoder, `(value << 1) ^ (orig_value >> (w - 1))` on `w` bits
(zpp_bits.h:1668-1671, and 1647-1649 for the size). `value` is the two's complement representation;
the right shift of the signed `orig_value` is arithmetic, hence all ones for a negative value.
Simplification: `zig_zag` is modelled for signed types only (the library's `vsint32_t`, `vsint64_t`). -/
def zzEnc (w value : Nat) : Nat :=
  ((value <<< 1) % 2 ^ w) ^^^ (if 2 ^ (w - 1) ≤ value then 2 ^ w - 1 else 0)

/-- The inverse computed by the decoder, `(value >> 1) ^ -(value & 0x1)` on `w` bits
(zpp_bits.h:1776-1779, 1792-1794, 1824-1826). -/
def zzDec (w value : Nat) : Nat :=
  (value >>> 1) ^^^ (if value &&& 1 = 1 then 2 ^ w - 1 else 0)

/-- The writing loop `while (value >= 0x80) {...} data[position++] = byte_type(value)`
(zpp_bits.h:1691-1697), as the list of bytes stored. The first argument is loop fuel;
`varintBytes` starts it with `value`, which is enough because `value >>= 7` strictly decreases. -/
def varintLoop : Nat → Nat → List UInt8
  | 0, value => [UInt8.ofNat value]
  | fuel + 1, value =>
    if value ≥ 0x80 then
      UInt8.ofNat ((value &&& 0x7f) ||| 0x80) :: varintLoop fuel (value >>> 7)
    else [UInt8.ofNat value]

/-- Bytes stored by the varint output routine for the unsigned value `value` (zpp_bits.h:1691-1697). -/
def varintBytes (value : Nat) : List UInt8 := varintLoop value value

/-- Result of the varint decoding routines: value and number of bytes used, an error code,
or undefined behaviour. -/
inductive VRes
  | ok (value len : Nat)
  | err (e : Errc)
  | ub
deriving DecidableEq, Repr

/-- Byte by byte decoding loop used when fewer than `varint_max_size` bytes remain
(zpp_bits.h:1706-1718; identical text at 1783-1802). `w` is the width of `value_type` in bits.
A shift by the promoted width (`max w 32`) or more is undefined behaviour. -/
def decSlow (w : Nat) : List UInt8 → (shift value len : Nat) → VRes
  | [], _, _, _ => .err .resultOutOfRange
  | b :: rest, shift, value, len =>
    if max w 32 ≤ shift then .ub
    else
      let next := b.toNat
      let value' := (value ||| ((next &&& 0x7f) <<< shift)) % 2 ^ w
      if next ≥ 0x80 then decSlow w rest (shift + 7) value' (len + 1)
      else .ok value' (len + 1)

/-- The `(mask, shift)` pairs of the unrolled decoder (zpp_bits.h:1724-1736; identical text at
1808-1820), selected by the nested `if constexpr (varint_max_size > 2 / 3 / 5)`. -/
def fastSteps (maxSize : Nat) : List (Nat × Nat) :=
  [(0x7f, 0), (0x7f, 7)] ++
  (if maxSize > 2 then
    [(0x7f, 14)] ++
    (if maxSize > 3 then
      [(0x7f, 21), (0x7f, 28)] ++
      (if maxSize > 5 then
        [(0x7f, 35), (0x7f, 42), (0x7f, 49), (0x7f, 56), (0x01, 63)]
      else [])
    else [])
  else [])

/-- The unrolled decoder (zpp_bits.h:1719-1741, 1803-1830). Reading past the end of the input and
over-wide shifts are undefined behaviour. -/
def decFast (w : Nat) : List (Nat × Nat) → List UInt8 → (value len : Nat) → VRes
  | [], _, _, _ => .err .valueTooLarge
  | _ :: _, [], _, _ => .ub
  | (mask, shift) :: steps, b :: rest, value, len =>
    if max w 32 ≤ shift then .ub
    else
      let next := b.toNat
      let value' := (value ||| ((next &&& mask) <<< shift)) % 2 ^ w
      if next < 0x80 then .ok value' (len + 1)
      else decFast w steps rest value' (len + 1)

/-- `decode_varint(data, value, position)` with `value = 0` (zpp_bits.h:1703-1743). -/
def decodeVarint (n : Nat) (data : List UInt8) : VRes :=
  if data.length < varintMaxSize n then decSlow (8 * n) data 0 0 0
  else decFast (8 * n) (fastSteps (varintMaxSize n)) data 0 0

/-- Reading a varint from the remaining data, default build: first byte shortcut, else `decode_varint`
(zpp_bits.h:1757-1774). -/
def readVarintRaw (n : Nat) (data : List UInt8) : VRes :=
  match data with
  | b :: _ => if b.toNat &&& 0x80 = 0 then .ok b.toNat 1 else decodeVarint n data
  | [] => decodeVarint n data

/-- Reading a varint from the remaining data with `ZPP_BITS_INLINE_DECODE_VARINT`
(zpp_bits.h:1783-1832). -/
def readVarintRawInline (n : Nat) (data : List UInt8) : VRes :=
  if data.length < varintMaxSize n then decSlow (8 * n) data 0 0 0
  else decFast (8 * n) (fastSteps (varintMaxSize n)) data 0 0

/-- Value stored into the destination after a successful read (zpp_bits.h:1776-1781, 1792-1797, 1824-1829). -/
def varintStore (n : Nat) (zz : Bool) (value : Nat) : Nat :=
  if zz then zzDec (8 * n) value else value

/-- Unsigned value handed to the writing loop (zpp_bits.h:1664-1671). -/
def varintLoad (n : Nat) (zz : Bool) (value : Nat) : Nat :=
  if zz then zzEnc (8 * n) value else value

end Zpp
