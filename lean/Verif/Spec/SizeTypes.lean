import Verif.Model.SizeTypes
import Verif.Spec.Input
/-!
# What size types of any integer type mean
-/

namespace Zpp.Spec

/-- Integer types of the host: 1, 2, 4 or 8 bytes. The zigzag encoding is for signed types. -/
def SizeIntOk : SizeInt → Prop
  | .int n _ => intWidth n = true
  | .var n sgn zz => intWidth n = true ∧ (zz = true → sgn = true)

/-- The number an object of the size type holds, when its bytes read as an unsigned number give `x`. -/
def sizeNumber (S : SizeInt) (x : Nat) : Int :=
  if S.signed = true ∧ 2 ^ (8 * S.width) ≤ 2 * x then (x : Int) - 2 ^ (8 * S.width) else x

/-- A number as a `std::size_t`. -/
def toSize (z : Int) : Nat := (z % 2 ^ 64).toNat

/-- The numbers of the size type that are sizes: up to `std::numeric_limits<SizeType>::max()`. -/
def SizeHolds (S : SizeInt) (count : Nat) : Prop :=
  if S.signed = true then 2 * count < 2 ^ (8 * S.width) else count < 2 ^ (8 * S.width)

/-- Sequence or associative containers. -/
def isContainer : Ty → Bool
  | .seq _ _ _ => true
  | .assoc _ _ _ _ _ => true
  | _ => false

/-- Protobuf messages. -/
def isMessage : Ty → Bool
  | .msg _ _ _ _ _ => true
  | _ => false

/-- The container or message with another size type. -/
def withSize (sz : SizeTy) : Ty → Ty
  | .msg _ ok maps nums fs => .msg (some sz) ok maps nums fs
  | .seq k _ t => .seq k (some sz) t
  | .assoc multi hashed _ key mapped => .assoc multi hashed (some sz) key mapped
  | t => t

end Zpp.Spec
