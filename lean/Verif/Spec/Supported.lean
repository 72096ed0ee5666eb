import Verif.Model.Types
import Verif.Spec.Wire
/-!
# Specification: which types and configurations a theorem covers

`Good c t` collects static facts about a type, node by node:
* facts the compiler enforces (`static_assert`s, concepts): number of ids and alternatives agree, ids are
  distinct, protobuf field numbers are distinct, ...
* absence of the combinations in which the code departs from the documented format. They are listed in
  DESIGN.md ("Disagreements") and each has a theorem exhibiting the departure.
-/

namespace Zpp.Spec

/-- Built only from scalars, `bool`, structs and arrays. -/
def plain : Ty → Bool
  | .scalar _ _ => true
  | .bool => true
  | .struct _ fs => plainAll fs
  | .array _ t => plain t
  | _ => false
where
  /-- All members are plain. -/
  plainAll : List Ty → Bool
    | [] => true
    | t :: ts => plain t && plainAll ts

/-- `sizeof` of an integer type. -/
def intWidth (n : Nat) : Bool := n == 1 || n == 2 || n == 4 || n == 8

/-- Scalars: nonzero size, byte types have size 1. -/
def scalarOk : SKind → Nat → Bool
  | .byte, n => n == 1
  | .chr, n => n == 1
  | _, n => 0 < n

/-- Numbers. -/
def numTy : Ty → Bool
  | .scalar k n => scalarOk k n
  | .bool => true
  | .varint n _ => intWidth n
  | _ => false

/-- Type of a variant id. -/
def idTyOk : Ty → Bool
  | .array n t => 0 < n && numTy t
  | t => numTy t

/-- Pairwise distinct. -/
def nodup {α : Type} [DecidableEq α] : List α → Bool
  | [] => true
  | x :: xs => !(xs.contains x) && nodup xs

/-- A protobuf message class (directly or by reference), with the default size prefix. -/
def isMsg (env : Nat → Ty) : Ty → Bool
  | .msg sz _ _ _ _ => sz == none
  | .ref i =>
    match env i with
    | .msg sz _ _ _ _ => sz == none
    | _ => false
  | _ => false

/-- A string or byte string: contiguous, default size prefix. -/
def isStr : Ty → Bool
  | .seq k sz (.scalar sk n) => k == .vector && sz == none && (sk == .chr || sk == .byte) && n == 1
  | _ => false

/-- Element of a repeated protobuf member. -/
def pbElemOk (env : Nat → Ty) (t : Ty) : Bool :=
  numTy (packedElem t) || isMsg env t || isStr t

/-- Scalar protobuf member (also key of a map): varint, enumeration, `bool`, 32 or 64 bit number. -/
def pbScalarOk : Ty → Bool
  | .varint n _ => intWidth n
  | .scalar .enum n => intWidth n
  | .bool => true
  | .scalar .int n => n == 4 || n == 8
  | _ => false

/-- Member of a protobuf message (`check_type`, zpp_bits.h:4584-4622), without the two members the writer
and reader treat differently: single `std::byte`, and repeated length-delimited members with an
explicit number different from the default one. -/
def pbFieldOk (env : Nat → Ty) (maps : List (Nat × Nat)) (num : Option Nat) (i : Nat) : Ty → Bool
  | .empty => true
  | .seq k sz t =>
    (k == .vector || k == .list) && sz == none && pbElemOk env t &&
      (isPacked t || fieldNumber maps num i == fieldNumber maps none i)
  | .assoc _ _ sz key none =>
    sz == none && pbElemOk env key && (isPacked key || fieldNumber maps num i == fieldNumber maps none i)
  | .assoc _ _ sz key (some m) =>
    sz == none && (pbScalarOk key || isStr key) && (pbScalarOk m || isStr m || isMsg env m)
  | t => pbScalarOk t || isMsg env t

/-- The number of the member with index `i` is mapped at most once, and not to 0. -/
def mapOnce (maps : List (Nat × Nat)) (i : Nat) : Bool :=
  (maps.filter fun m => m.1 == i + 1).length ≤ 1 && 0 < fieldNumber maps none i

/-- `pbFieldOk` for the members from index `i` on. -/
def pbFieldsOk (env : Nat → Ty) (maps : List (Nat × Nat)) : Nat → List (Option Nat) → List Ty → Bool
  | _, [], [] => true
  | i, n :: ns, t :: ts =>
    pbFieldOk env maps n i t && (0 < fieldNumber maps n i && fieldNumber maps n i < 2 ^ 29) &&
      mapOnce maps i && fieldNumber maps none i < 2 ^ 29 && pbFieldsOk env maps (i + 1) ns ts
  | _, _, _ => false

/-- Field numbers of the members from index `i` on. -/
def fieldNumbers (maps : List (Nat × Nat)) : Nat → List (Option Nat) → List Nat
  | _, [] => []
  | i, n :: ns => fieldNumber maps n i :: fieldNumbers maps (i + 1) ns

mutual
/-- Objects that C++ allows to copy as one block of bytes without padding: scalars, empty classes, arrays of such
objects, and trivially copyable classes (`ok`) whose members are such objects (none of them empty) and fill the class. -/
def oneBlock (so : Ty → Nat) : Ty → Bool
  | .scalar _ _ => true
  | .bool => true
  | .empty => true
  | .array _ t => oneBlock so t
  | .struct ok fs => ok && fs.length != 0 && blocks so fs && ((fs.map so).sum == so (.struct ok fs))
  | .msg sz ok maps nums fs => ok && fs.length != 0 && blocks so fs && ((fs.map so).sum == so (.msg sz ok maps nums fs))
  | _ => false
/-- Members of a class that is one block. -/
def blocks (so : Ty → Nat) : List Ty → Bool
  | [] => true
  | t :: ts => oneBlock so t && !(t matches .empty) && blocks so ts
end

/-- If objects of the type can be copied as one block, they are plain: neither protobuf messages nor empty classes are
inside (for those the code departs from the format, unless the archive swaps bytes). -/
def copyOk (c : Cfg) (t : Ty) : Bool := c.aware || !oneBlock c.sizeof t || plain t

/-- `char`, `unsigned char` or `std::byte`. -/
def byteTy : Ty → Bool
  | .scalar .byte n => n == 1
  | .scalar .chr n => n == 1
  | _ => false

/-- The archive inside a protobuf message: varint sizes, little-endian. -/
def insideMsg (c : Cfg) : Cfg := { c with dsz := .varint, aware := (c.host == .big) }

/-- The size prefix of a message is written in the archive's byte order: one byte, varint or absent, or the
archive is not byte-swapping. -/
def msgSzOk (c : Cfg) (sz : Option SizeTy) : Bool :=
  match sz.getD c.dsz with
  | .fixed k => !c.aware || k ≤ 1
  | _ => true

/-- Conditions on one node of a type. -/
def nodeOk (c : Cfg) : Ty → Bool
  | .scalar k n => scalarOk k n
  | .varint n _ => intWidth n
  | .struct ok fs => copyOk c (.struct ok fs)
  | .array n t => 0 < n && copyOk c t
  | .seq k _ t =>
    (k == .list || copyOk c t) && (k != .view || byteTy t)
  | .variant idTy ids dcs alts =>
    idTyOk idTy && ids.length == alts.length && dcs.length == alts.length && nodup ids
  | .msg sz _ maps nums fs =>
    pbFieldsOk c.env maps 0 nums fs && nodup (fieldNumbers maps 0 nums) && msgSzOk c sz &&
      !(c.dsz == .varint && c.host == .little && c.aware)
  | .ref i =>
    match c.env i with
    | .struct _ _ => true
    | .msg _ _ _ _ _ => true
    | _ => false
  | _ => true

mutual
/-- `nodeOk` at every node; below a protobuf message with respect to the message's own format. -/
def Good (c : Cfg) : Ty → Bool
  | .scalar k n => nodeOk c (.scalar k n)
  | .bool => true
  | .varint n zz => nodeOk c (.varint n zz)
  | .empty => true
  | .struct ok fs => nodeOk c (.struct ok fs) && GoodL c fs
  | .array n t => nodeOk c (.array n t) && Good c t
  | .seq k sz t => nodeOk c (.seq k sz t) && Good c t
  | .assoc _ _ _ key none => Good c key
  | .assoc _ _ _ key (some m) => Good c key && Good c m
  | .optional _ t => Good c t
  | .optPtr t => Good c t
  | .uptr t => Good c t
  | .variant idTy ids dcs alts => nodeOk c (.variant idTy ids dcs alts) && Good c idTy && GoodL c alts
  | .bitset _ => true
  | .msg sz ok maps nums fs => nodeOk c (.msg sz ok maps nums fs) && GoodL (insideMsg c) fs
  | .ref i => nodeOk c (.ref i)
/-- `Good` for every type of a list. -/
def GoodL (c : Cfg) : List Ty → Bool
  | [] => true
  | t :: ts => Good c t && GoodL c ts
end

/-- The class definitions are good, outside and inside protobuf messages. -/
def EnvGood (c : Cfg) : Prop := ∀ i, Good c (c.env i) = true ∧ Good (insideMsg c) (c.env i) = true

/-- Facts about `sizeof` every ABI guarantees. -/
structure AbiOk (so : Ty → Nat) : Prop where
  scalar : ∀ k n, 0 < n → so (.scalar k n) = n
  bool : so .bool = 1
  array : ∀ n t, 0 < n → so (.array n t) = n * so t
  pos : ∀ t, 0 < so t

/-- Facts about every growth policy and host that theorems about growing buffers rely on: the enlarger does
not shrink (`enlarger<M, D>` with `D ≤ M`, template constants are `size_t`), the overflow check is not
disabled, and no container exceeds `PTRDIFF_MAX` bytes. -/
structure GrowthLaws (g : Growth) : Prop where
  div_pos : 0 < g.div
  div_le : g.div ≤ g.mul
  mul_lt : g.mul < 2 ^ 64
  checked : g.noOvf = false
  maxMem : g.maxMem < 2 ^ 63

/-- `GrowthLaws` for growing buffers; nothing for fixed buffers. -/
def GrowthOk (g : Growth) : Prop := g.resizable = true → GrowthLaws g

end Zpp.Spec

namespace Zpp.Spec

mutual
/-- Nesting depth of an object. -/
def depth : Val → Nat
  | .num _ => 1
  | .unit => 1
  | .list vs => 1 + depthL vs
  | .none => 1
  | .some v => 1 + depth v
  | .alt _ v => 1 + max 2 (depth v)
  | .valueless => 1
  | .bits _ => 1
/-- Maximal depth. -/
def depthL : List Val → Nat
  | [] => 0
  | v :: vs => max (depth v) (depthL vs)
end

mutual
/-- The object contains no bitset. -/
def noBits : Val → Bool
  | .bits _ => false
  | .list vs => noBitsL vs
  | .some v => noBits v
  | .alt _ v => noBits v
  | _ => true
/-- No object of the list contains a bitset. -/
def noBitsL : List Val → Bool
  | [] => true
  | v :: vs => noBits v && noBitsL vs
end

/-- The format of an archive: byte order of scalars is native, or swapped when the archive swaps. -/
def fmtOf (c : Cfg) : Fmt := ⟨if c.aware then c.host.swap else c.host, c.dsz, c.env⟩

end Zpp.Spec
