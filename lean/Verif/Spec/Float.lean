/-!
# Specification: floating point numbers

The binary formats of IEEE 754, as numbers of bits. Archives treat `float` and `double` as numbers with the bits of their representation (`scalar .int n`,
`reverse_copy`/`memcpy` of `sizeof(item)` bytes, zpp_bits.h:2049-2086, 2609-2637).
-/

namespace Zpp.Spec

/-- A format: bytes, bits of the exponent, bits of the fraction. -/
structure FloatFmt where
  bytes : Nat
  exp : Nat
  frac : Nat

/-- `float`: binary32. -/
def binary32 : FloatFmt := ⟨4, 8, 23⟩

/-- `double`: binary64. -/
def binary64 : FloatFmt := ⟨8, 11, 52⟩

/-- A sign bit, the exponent and the fraction fill the bytes. -/
def FloatFmt.ok (f : FloatFmt) : Prop := 8 * f.bytes = 1 + f.exp + f.frac ∧ 0 < f.exp ∧ f.bytes ∈ [1, 2, 4, 8, 16]

/-- The fraction. -/
def FloatFmt.fraction (f : FloatFmt) (b : Nat) : Nat := b % 2 ^ f.frac

/-- The exponent, with its bias. -/
def FloatFmt.exponent (f : FloatFmt) (b : Nat) : Nat := b / 2 ^ f.frac % 2 ^ f.exp

/-- The sign bit. -/
def FloatFmt.negative (f : FloatFmt) (b : Nat) : Bool := 2 ^ (f.exp + f.frac) ≤ b

/-- Not a number: the largest exponent, and the fraction is not 0. -/
def FloatFmt.nan (f : FloatFmt) (b : Nat) : Prop := f.exponent b = 2 ^ f.exp - 1 ∧ f.fraction b ≠ 0

/-- The absolute value, as a multiple of the smallest positive number: a subnormal number has exponent 0, all others an implied leading bit. The largest exponent,
with fraction 0, is infinity: greater than all others. -/
def FloatFmt.magnitude (f : FloatFmt) (b : Nat) : Nat :=
  if f.exponent b = 0 then f.fraction b else (2 ^ f.frac + f.fraction b) * 2 ^ (f.exponent b - 1)

/-- The number. -/
def FloatFmt.number (f : FloatFmt) (b : Nat) : Int := if f.negative b then -(f.magnitude b : Int) else f.magnitude b

/-- `x < y` in C++. -/
def FloatFmt.lt (f : FloatFmt) (x y : Nat) : Prop := ¬ f.nan x ∧ ¬ f.nan y ∧ f.number x < f.number y

/-- `x == y` in C++. -/
def FloatFmt.eq (f : FloatFmt) (x y : Nat) : Prop := ¬ f.nan x ∧ ¬ f.nan y ∧ f.number x = f.number y

end Zpp.Spec
