import Verif.Model.Out
import Verif.Model.In
/-!
# `varint<Type, varint_encoding::zig_zag>` of unsigned types

`Model/Varint` has the signed types the library names (`vsint32_t`, `vsint64_t`); nothing stops programs from using unsigned ones.
-/

namespace Zpp

/-- `(value << 1) ^ (orig_value >> (w - 1))` for an unsigned type of `w` bits: the right shift brings in zeros, so it is the top bit
(zpp_bits.h:1664-1671). -/
def zzEncU (w value : Nat) : Nat := ((value <<< 1) % 2 ^ w) ^^^ (value >>> (w - 1))

/-- `out(varint<Type, varint_encoding::zig_zag>{x})` for an unsigned `Type` with `sizeof(Type) = n`
(zpp_bits.h:1659-1701, 2443-2456). -/
def outZigzagU (c : Cfg) (noFit : Bool) (n x : Nat) : OutM := fitCall c noFit (putVarint c.g n (zzEncU (8 * n) x))

/-- `in(item)` for such an object, which held the value `old`: the text is that of the signed types, the result is cast to the
unsigned type (zpp_bits.h:1744-1832). Value, or the value left in the object, and the position. -/
def inZigzagU (n : Nat) (old : Nat) (data : List UInt8) (p : Nat) : Res := getVarint n true (.num old) data p

end Zpp
