import Verif.Spec.Input
/-!
# Specification: least size of encodings, and recursion of types that costs input
-/

namespace Zpp.Spec

/-- Least number of bytes of a size prefix. -/
def prefixLeast : SizeTy → Nat
  | .fixed k => k
  | .varint => 1
  | .none => 0

mutual
/-- A number of bytes that every encoding of an object of the type has at least. `dsz` is the archive's default size
type, `so` is `sizeof`. (A message that is a plain block of bytes may be copied without its size field, so nothing is
promised for it; nor for a reference to a named class.) -/
def leastBytes (so : Ty → Nat) (dsz : SizeTy) : Ty → Nat
  | .scalar _ n => n
  | .bool => 1
  | .varint _ _ => 1
  | .empty => 0
  | .struct _ fs => leastBytesL so dsz fs
  | .array n t => n * leastBytes so dsz t
  | .seq _ sz _ => prefixLeast (sz.getD dsz)
  | .assoc _ _ sz _ _ => prefixLeast (sz.getD dsz)
  | .optional _ _ => 1
  | .optPtr _ => 1
  | .uptr t => leastBytes so dsz t
  | .variant idTy _ _ alts => leastBytes so dsz idTy + leastBytesMin so dsz alts
  | .bitset n => (n + 7) / 8
  | .msg sz ok maps nums fs => if oneBlock so (.msg sz ok maps nums fs) then 0 else prefixLeast (sz.getD dsz)
  | .ref _ => 0
/-- Sum over the members. -/
def leastBytesL (so : Ty → Nat) (dsz : SizeTy) : List Ty → Nat
  | [] => 0
  | t :: ts => leastBytes so dsz t + leastBytesL so dsz ts
/-- Minimum over the alternatives. -/
def leastBytesMin (so : Ty → Nat) (dsz : SizeTy) : List Ty → Nat
  | [] => 0
  | [t] => leastBytes so dsz t
  | t :: ts => min (leastBytes so dsz t) (leastBytesMin so dsz ts)
end

mutual
/-- Nesting of a type (named classes count as one level; a map counts as much as a message with key and value). -/
def height : Ty → Nat
  | .struct _ fs => 1 + heightL fs
  | .array _ t => 1 + height t
  | .seq _ _ t => 1 + height t
  | .assoc _ _ _ key none => 2 + height key
  | .assoc _ _ _ key (some m) => 2 + max (height key) (height m)
  | .optional _ t => 1 + height t
  | .optPtr t => 1 + height t
  | .uptr t => 1 + height t
  | .variant idTy _ _ alts => 1 + max (height idTy) (heightL alts)
  | .msg _ _ _ _ fs => 1 + heightL fs
  | _ => 1
/-- Maximum over the members. -/
def heightL : List Ty → Nat
  | [] => 0
  | t :: ts => max (height t) (heightL ts)
end

mutual
/-- The named classes an object of the type can contain in a place that may be reached without any byte of input:
not behind a size prefix, a presence byte, an id, a field tag, or another member that takes at least one byte. -/
def freeRefs (so : Ty → Nat) (dsz : SizeTy) : Ty → List Nat
  | .struct _ fs => freeRefsL so dsz fs
  | .array _ t => freeRefs so dsz t
  | .seq _ sz t => if prefixLeast (sz.getD dsz) = 0 then freeRefs so dsz t else []
  | .assoc _ _ sz key none => if prefixLeast (sz.getD dsz) = 0 then freeRefs so dsz key else []
  | .assoc _ _ sz key (some m) =>
    if prefixLeast (sz.getD dsz) = 0 then freeRefs so dsz key ++ freeRefs so dsz m else []
  | .uptr t => freeRefs so dsz t
  | .variant idTy _ _ alts =>
    freeRefs so dsz idTy ++ (if leastBytes so dsz idTy = 0 then freeRefsAny so dsz alts else [])
  | .ref i => [i]
  | _ => []
/-- Members are read in order. -/
def freeRefsL (so : Ty → Nat) (dsz : SizeTy) : List Ty → List Nat
  | [] => []
  | t :: ts => freeRefs so dsz t ++ (if leastBytes so dsz t = 0 then freeRefsL so dsz ts else [])
/-- One of the alternatives is read. -/
def freeRefsAny (so : Ty → Nat) (dsz : SizeTy) : List Ty → List Nat
  | [] => []
  | t :: ts => freeRefs so dsz t ++ freeRefsAny so dsz ts
end

/-- Every cycle through the named classes costs at least one byte of input: the classes can be ranked below `R` so that
a class reaches, free of input, only classes of lower rank. `S` bounds the nesting of the definitions. (Inside protobuf
messages size prefixes are varints.) -/
structure CyclesCost (c : Cfg) (R S : Nat) (rank : Nat → Nat) : Prop where
  below : ∀ i, rank i < R
  nesting : ∀ i, height (c.env i) ≤ S
  outside : ∀ i, ∀ j ∈ freeRefs c.sizeof c.dsz (c.env i), rank j < rank i
  inside : ∀ i, ∀ j ∈ freeRefs c.sizeof .varint (c.env i), rank j < rank i

end Zpp.Spec
