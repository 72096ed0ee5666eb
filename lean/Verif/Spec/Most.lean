import Verif.Spec.Wire
/-!
# Specification: how many bytes an object of a type can take

The longest encoding, computed from the type alone. `none` means that there is no bound: the type has a container or refers
to a named class.
-/

namespace Zpp.Spec

/-- Sum of two bounds. -/
def plus : Option Nat → Option Nat → Option Nat
  | some a, some b => some (a + b)
  | _, _ => none

/-- Maximum of two bounds. -/
def larger : Option Nat → Option Nat → Option Nat
  | some a, some b => some (max a b)
  | _, _ => none

/-- Bytes of the longest varint of `n` bytes (2, 3, 5 and 10 for 1, 2, 4 and 8). -/
def varintMost (n : Nat) : Nat := (leb (2 ^ (8 * n) - 1)).length

/-- Longest size prefix of a message of at most `m` bytes. -/
def prefixMost (sz : SizeTy) (m : Nat) : Nat :=
  match sz with
  | .fixed k => k
  | .varint => (leb m).length
  | .none => 0

mutual
/-- A member with field number `num` of a protobuf message. -/
def pbMost (num : Nat) : Ty → Option Nat
  | .empty => some 0
  | .bool => some ((leb (num * 8 + 0)).length + 1)
  | .varint n _ => some ((leb (num * 8 + 0)).length + varintMost n)
  | .scalar .enum n => some ((leb (num * 8 + 0)).length + varintMost n)
  | .scalar .int 4 => some ((leb (num * 8 + 5)).length + 4)
  | .scalar .int 8 => some ((leb (num * 8 + 1)).length + 8)
  | .msg _ _ maps nums fs => (pbMostL maps 0 nums fs).map fun m => (leb (num * 8 + 2)).length + (leb m).length + m
  | _ => none
/-- All members. -/
def pbMostL (maps : List (Nat × Nat)) : Nat → List (Option Nat) → List Ty → Option Nat
  | _, [], [] => some 0
  | i, num :: nums, t :: ts => plus (pbMost (fieldNumber maps num i) t) (pbMostL maps (i + 1) nums ts)
  | _, _, _ => none
end

mutual
/-- An object of the type takes at most this many bytes; `dsz` is the archive's default size type. -/
def mostBytes (dsz : SizeTy) : Ty → Option Nat
  | .scalar _ n => some n
  | .bool => some 1
  | .varint n _ => some (varintMost n)
  | .empty => some 0
  | .struct _ fs => mostBytesL dsz fs
  | .array n t => (mostBytes dsz t).map (n * ·)
  | .optional _ t => (mostBytes dsz t).map (1 + ·)
  | .optPtr t => (mostBytes dsz t).map (1 + ·)
  | .uptr t => mostBytes dsz t
  | .variant idTy _ _ alts => plus (mostBytes dsz idTy) (mostBytesMax dsz alts)
  | .bitset n => some ((n + 7) / 8)
  | .msg sz _ maps nums fs => (pbMostL maps 0 nums fs).map fun m => prefixMost (sz.getD dsz) m + m
  | .seq _ _ _ => none
  | .assoc _ _ _ _ _ => none
  | .ref _ => none
/-- Sum over the members. -/
def mostBytesL (dsz : SizeTy) : List Ty → Option Nat
  | [] => some 0
  | t :: ts => plus (mostBytes dsz t) (mostBytesL dsz ts)
/-- Maximum over the alternatives. -/
def mostBytesMax (dsz : SizeTy) : List Ty → Option Nat
  | [] => some 0
  | t :: ts => larger (mostBytes dsz t) (mostBytesMax dsz ts)
end

end Zpp.Spec

namespace Zpp.Spec

mutual
/-- Types whose bound is the length of the encoding of some object: those without variants and messages. -/
def plainTy : Ty → Bool
  | .scalar _ _ => true
  | .bool => true
  | .varint _ _ => true
  | .empty => true
  | .struct _ fs => plainTyL fs
  | .array _ t => plainTy t
  | .optional _ t => plainTy t
  | .optPtr t => plainTy t
  | .uptr t => plainTy t
  | .bitset _ => true
  | _ => false
/-- All of them. -/
def plainTyL : List Ty → Bool
  | [] => true
  | t :: ts => plainTy t && plainTyL ts
end

end Zpp.Spec
