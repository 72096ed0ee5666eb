/-!
# Specification: LEB128 groups and zigzag

Independent of the model: the published definitions of the base-128 variable length encoding (as used by
Protocol Buffers, little-endian groups of seven bits, high bit = continuation) and of zigzag.
-/

/-- Widths of the C++ integer types in bytes. -/
abbrev Zpp.IntWidth (n : Nat) : Prop := n = 1 ∨ n = 2 ∨ n = 4 ∨ n = 8

namespace Zpp.Spec

/-- The shortest prefix ending in a byte below 128: the first LEB128 group string of the input. -/
def lebPrefix : List UInt8 → Option (List UInt8)
  | [] => none
  | b :: bs => if b.toNat < 128 then some [b] else (lebPrefix bs).map (b :: ·)

/-- `g` is one LEB128 group string: exactly the last byte is below 128. -/
def IsLeb (g : List UInt8) : Prop := lebPrefix g = some g

/-- The number a group string denotes: `Σ 128^i * (bᵢ mod 128)`. -/
def lebValue : List UInt8 → Nat
  | [] => 0
  | b :: bs => b.toNat % 128 + 128 * lebValue bs

/-- Two's complement reading of the `w`-bit word `x`. -/
def toSigned (w x : Nat) : Int := if x < 2 ^ (w - 1) then (x : Int) else (x : Int) - 2 ^ w

/-- Zigzag: 0, -1, 1, -2, 2, ... ↦ 0, 1, 2, 3, 4, ... -/
def zigzag (i : Int) : Nat := if 0 ≤ i then (2 * i).toNat else (-2 * i - 1).toNat

end Zpp.Spec
