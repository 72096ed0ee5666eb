import Verif.Model.Types
import Verif.Spec.Leb128
/-!
# Specification: the wire format

The documented format (README.md "Serialization", "Variant Types and Serialization IDs", "Endianness",
"Variable Length Integers", "Protobuf") as a function from a type and an object to bytes. It knows nothing
about archives, buffers, positions, hosts, `sizeof` or the byte-copy optimization. Recursion is on the
object, so there is no depth bound. `none` means the object has no encoding: it is not an object of the type,
a size does not fit its prefix, an owning pointer is null or a variant is valueless.
-/

namespace Zpp.Spec

/-- What the format depends on: byte order of scalars, default size prefix, class definitions. -/
structure Fmt where
  order : Endian
  dsz : SizeTy
  env : Nat → Ty

/-- The `n` base-256 digits of `x` in the given order. -/
def digits (order : Endian) (n x : Nat) : List UInt8 :=
  let ds := (List.range n).map fun i => UInt8.ofNat (x / 256 ^ i % 256)
  match order with
  | .little => ds
  | .big => ds.reverse

/-- At most `k` LEB128 groups of `v`. -/
def lebGroups : Nat → Nat → List UInt8
  | 0, _ => []
  | k + 1, v => if v < 128 then [UInt8.ofNat v] else UInt8.ofNat (128 + v % 128) :: lebGroups k (v / 128)

/-- Minimal LEB128 encoding of a number below `2^70`. -/
def leb (v : Nat) : List UInt8 := lebGroups 10 v

/-- Concatenation of optional byte strings. -/
def cat (a b : Option (List UInt8)) : Option (List UInt8) :=
  match a, b with
  | some x, some y => some (x ++ y)
  | _, _ => none

/-- Size prefix. -/
def sizePrefix (f : Fmt) (sz : SizeTy) (n : Nat) : Option (List UInt8) :=
  match sz with
  | .fixed k => if n < 256 ^ k then some (digits f.order k n) else none
  | .varint => if n < 2 ^ 64 then some (leb n) else none
  | .none => some []

/-- Size prefix of a protocol message; messages of `2^56` bytes or more have none. -/
def msgPrefix (f : Fmt) (sz : SizeTy) (n : Nat) : Option (List UInt8) :=
  match sz with
  | .varint => if n < 2 ^ 56 then some (leb n) else none
  | sz => sizePrefix f sz n

/-- Bit `8 j + i` of a bitset is bit `i` of byte `j`. -/
def packBits (n : Nat) (bits : List Bool) : List UInt8 :=
  (List.range ((n + 7) / 8)).map fun j =>
    UInt8.ofNat (((List.range 8).map fun i => (bits.getD (8 * j + i) false).toNat * 2 ^ i).sum)

/-- Value encoded by a varint object: the word itself, or the zigzag image of the signed value. -/
def varintValue (n : Nat) (zz : Bool) (x : Nat) : Nat := if zz then zigzag (toSigned (8 * n) x) else x

/-- Objects without nested objects: numbers, and arrays of them (used for variant ids). -/
def wireNum (f : Fmt) : Ty → Nat → Option (List UInt8)
  | .scalar _ n, x => if x < 256 ^ n then some (digits f.order n x) else none
  | .bool, x => if x ≤ 1 then some [UInt8.ofNat x] else none
  | .varint n zz, x => if x < 2 ^ (8 * n) then some (leb (varintValue n zz x)) else none
  | _, _ => none

/-- A list of numbers of the same type. -/
def wireNums (f : Fmt) (t : Ty) : List Val → Option (List UInt8)
  | [] => some []
  | .num x :: vs => cat (wireNum f t x) (wireNums f t vs)
  | _ :: _ => none

/-- A variant id. -/
def wireId (f : Fmt) : Ty → Val → Option (List UInt8)
  | .array n t, .list vs => if vs.length = n then wireNums f t vs else none
  | t, .num x => wireNum f t x
  | _, _ => none

/-- Protobuf record: key (field number and wire type as a varint) and payload. -/
inductive PbPayload
  | varint (v : Nat)
  | fixed64 (v : Nat)
  | len (bs : List UInt8)
  | fixed32 (v : Nat)
deriving DecidableEq, Repr

/-- Wire type numbers and payload encoding (protobuf encoding specification). -/
def pbRecord (num : Nat) : PbPayload → List UInt8
  | .varint v => leb (num * 8 + 0) ++ leb v
  | .fixed64 v => leb (num * 8 + 1) ++ digits .little 8 v
  | .len bs => leb (num * 8 + 2) ++ leb bs.length ++ bs
  | .fixed32 v => leb (num * 8 + 5) ++ digits .little 4 v

/-- Number of a member: explicit, else mapped, else position (from 1). -/
def fieldNumber (maps : List (Nat × Nat)) (num : Option Nat) (i : Nat) : Nat :=
  match num with
  | some n => n
  | none =>
    match maps.find? (fun m => m.1 == i + 1) with
    | some m => m.2
    | none => i + 1

/-- Scalar member of a protobuf message. -/
def pbScalar (num : Nat) : Ty → Nat → Option (List UInt8)
  | .scalar .enum n, x => if x < 2 ^ (8 * n) then some (pbRecord num (.varint x)) else none
  | .varint n zz, x => if x < 2 ^ (8 * n) then some (pbRecord num (.varint (varintValue n zz x))) else none
  | .bool, x => if x ≤ 1 then some (pbRecord num (.varint x)) else none
  | .scalar .int 4, x => if x < 2 ^ 32 then some (pbRecord num (.fixed32 x)) else none
  | .scalar .int 8, x => if x < 2 ^ 64 then some (pbRecord num (.fixed64 x)) else none
  | _, _ => none

/-- Format inside protobuf messages. -/
def pbFmt (env : Nat → Ty) : Fmt := ⟨.little, .varint, env⟩

/-- Types whose repetition is packed (including characters of strings and bytes). -/
def isPacked : Ty → Bool
  | .scalar _ _ => true
  | .bool => true
  | .varint _ _ => true
  | _ => false

/-- One element of a packed field. -/
def packedElem : Ty → Ty
  | .scalar .enum n => .varint n false
  | t => t

/-- A packed field: absent when empty. -/
def pbPackedField (env : Nat → Ty) (num : Nat) (t : Ty) (vs : List Val) : Option (List UInt8) :=
  match vs with
  | [] => some []
  | _ =>
    match wireNums (pbFmt env) (packedElem t) vs with
    | some bs => if bs.length < 2 ^ 56 then some (pbRecord num (.len bs)) else none
    | none => none

/-- Length-delimited record if the payload exists. -/
def pbLen (num : Nat) (p : Option (List UInt8)) : Option (List UInt8) :=
  match p with
  | some bs => if bs.length < 2 ^ 56 then some (pbRecord num (.len bs)) else none
  | none => none

mutual
/-- Encoding of an object. -/
def wire (f : Fmt) : Ty → Val → Option (List UInt8)
  | .empty, .unit => some []
  | .struct _ fs, .list vs => wireFields f fs vs
  | .array n t, .list vs => if vs.length = n then wireAll f t vs else none
  | .seq _ sz t, .list vs => cat (sizePrefix f (sz.getD f.dsz) vs.length) (wireAll f t vs)
  | .assoc _ _ sz key none, .list vs => cat (sizePrefix f (sz.getD f.dsz) vs.length) (wireAll f key vs)
  | .assoc _ _ sz key (some m), .list vs =>
    cat (sizePrefix f (sz.getD f.dsz) vs.length) (wireAll f (.struct false [key, m]) vs)
  | .optional _ _, .none => some [0]
  | .optional _ t, .some v => cat (some [1]) (wire f t v)
  | .optPtr _, .none => some [0]
  | .optPtr t, .some v => cat (some [1]) (wire f t v)
  | .uptr t, .some v => wire f t v
  | .variant idTy ids _ alts, .alt i v =>
    match ids[i]?, alts[i]? with
    | some id, some t => cat (wireId f idTy id) (wire f t v)
    | _, _ => none
  | .bitset n, .bits bs => if bs.length = n then some (packBits n bs) else none
  | .msg sz _ maps nums fs, .list vs =>
    match pbFields f.env maps 0 nums fs vs with
    | some body => cat (msgPrefix f (sz.getD f.dsz) body.length) (some body)
    | none => none
  | .ref i, .list vs =>
    match f.env i with
    | .struct _ fs => wireFields f fs vs
    | .msg sz _ maps nums fs =>
      match pbFields f.env maps 0 nums fs vs with
      | some body => cat (msgPrefix f (sz.getD f.dsz) body.length) (some body)
      | none => none
    | _ => none
  | t, .num x => wireNum f t x
  | _, _ => none
/-- Members in declaration order. -/
def wireFields (f : Fmt) : List Ty → List Val → Option (List UInt8)
  | [], [] => some []
  | t :: ts, v :: vs => cat (wire f t v) (wireFields f ts vs)
  | _, _ => none
/-- Elements in order. -/
def wireAll (f : Fmt) (t : Ty) : List Val → Option (List UInt8)
  | [] => some []
  | v :: vs => cat (wire f t v) (wireAll f t vs)
/-- Body of a protobuf message: the members in order, starting with index `i`. -/
def pbFields (env : Nat → Ty) (maps : List (Nat × Nat)) :
    Nat → List (Option Nat) → List Ty → List Val → Option (List UInt8)
  | _, [], [], [] => some []
  | i, num :: nums, t :: ts, v :: vs =>
    cat (pbField env (fieldNumber maps num i) t v) (pbFields env maps (i + 1) nums ts vs)
  | _, _, _, _ => none
/-- One member of a protobuf message with field number `num`. -/
def pbField (env : Nat → Ty) (num : Nat) : Ty → Val → Option (List UInt8)
  | .empty, .unit => some []
  | .seq _ _ t, .list vs => if isPacked t then pbPackedField env num t vs else pbRepeated env num t vs
  | .assoc _ _ _ key none, .list vs =>
    if isPacked key then pbPackedField env num key vs else pbRepeated env num key vs
  | .assoc _ _ _ key (some m), .list vs =>
    pbRepeated env num (.msg none false [] [none, none] [key, m]) vs
  | .msg _ _ maps nums fs, .list vs => pbLen num (pbFields env maps 0 nums fs vs)
  | .ref i, .list vs =>
    match env i with
    | .msg _ _ maps nums fs => pbLen num (pbFields env maps 0 nums fs vs)
    | _ => none
  | t, .num x => pbScalar num t x
  | _, _ => none
/-- Repeated length-delimited records: messages, strings and byte strings. -/
def pbRepeated (env : Nat → Ty) (num : Nat) (t : Ty) : List Val → Option (List UInt8)
  | [] => some []
  | v :: vs => cat (pbPayload env num t v) (pbRepeated env num t vs)
/-- One element of a repeated length-delimited field. -/
def pbPayload (env : Nat → Ty) (num : Nat) : Ty → Val → Option (List UInt8)
  | .msg _ _ maps nums fs, .list vs => pbLen num (pbFields env maps 0 nums fs vs)
  | .ref i, .list vs =>
    match env i with
    | .msg _ _ maps nums fs => pbLen num (pbFields env maps 0 nums fs vs)
    | _ => none
  | .seq _ _ t, .list vs => pbLen num (wireNums (pbFmt env) t vs)
  | _, _ => none
end

end Zpp.Spec
