import Verif.Model.Varint
/-!
# C++ types and objects as seen by the archives

Overload resolution on concepts (zpp_bits.h:764-937) sorts every C++ type into one of the kinds below;
`Ty` is a deep embedding of these kinds and `Val` the objects.
-/

namespace Zpp

/-- Objects.
* `num x` : scalar, enum, bool or varint, by its unsigned object representation value;
* `unit` : object of an empty class;
* `list vs` : members of a struct/tuple, elements of an array/container (in iteration order),
  `list [k, v]` for a map element;
* `none` / `some v` : empty/engaged optional, null/non-null owning pointer;
* `alt i v` / `valueless` : variant;
* `bits bs` : `std::bitset`, bit 0 first. -/
inductive Val
  | num (x : Nat)
  | unit
  | list (vs : List Val)
  | none
  | some (v : Val)
  | alt (i : Nat) (v : Val)
  | valueless
  | bits (bs : List Bool)
deriving Repr, Inhabited

mutual
/-- Decidable equality of objects (`operator==` on ids and keys). -/
def Val.decEq : (a b : Val) → Decidable (a = b)
  | .num x, .num y => if h : x = y then isTrue (by rw [h]) else isFalse (by simp [h])
  | .unit, .unit => isTrue rfl
  | .list xs, .list ys =>
    match Val.decEqL xs ys with
    | isTrue h => isTrue (by rw [h])
    | isFalse h => isFalse (by simp [h])
  | .none, .none => isTrue rfl
  | .some x, .some y =>
    match Val.decEq x y with
    | isTrue h => isTrue (by rw [h])
    | isFalse h => isFalse (by simp [h])
  | .alt i x, .alt j y =>
    if hi : i = j then
      match Val.decEq x y with
      | isTrue h => isTrue (by rw [h, hi])
      | isFalse h => isFalse (by simp [h])
    else isFalse (by simp [hi])
  | .valueless, .valueless => isTrue rfl
  | .bits x, .bits y => if h : x = y then isTrue (by rw [h]) else isFalse (by simp [h])
  | .num _, .unit | .num _, .list _ | .num _, .none | .num _, .some _ | .num _, .alt _ _
  | .num _, .valueless | .num _, .bits _ => isFalse (by simp)
  | .unit, .num _ | .unit, .list _ | .unit, .none | .unit, .some _ | .unit, .alt _ _
  | .unit, .valueless | .unit, .bits _ => isFalse (by simp)
  | .list _, .num _ | .list _, .unit | .list _, .none | .list _, .some _ | .list _, .alt _ _
  | .list _, .valueless | .list _, .bits _ => isFalse (by simp)
  | .none, .num _ | .none, .unit | .none, .list _ | .none, .some _ | .none, .alt _ _
  | .none, .valueless | .none, .bits _ => isFalse (by simp)
  | .some _, .num _ | .some _, .unit | .some _, .list _ | .some _, .none | .some _, .alt _ _
  | .some _, .valueless | .some _, .bits _ => isFalse (by simp)
  | .alt _ _, .num _ | .alt _ _, .unit | .alt _ _, .list _ | .alt _ _, .none | .alt _ _, .some _
  | .alt _ _, .valueless | .alt _ _, .bits _ => isFalse (by simp)
  | .valueless, .num _ | .valueless, .unit | .valueless, .list _ | .valueless, .none
  | .valueless, .some _ | .valueless, .alt _ _ | .valueless, .bits _ => isFalse (by simp)
  | .bits _, .num _ | .bits _, .unit | .bits _, .list _ | .bits _, .none | .bits _, .some _
  | .bits _, .alt _ _ | .bits _, .valueless => isFalse (by simp)
/-- Decidable equality of object lists. -/
def Val.decEqL : (a b : List Val) → Decidable (a = b)
  | [], [] => isTrue rfl
  | x :: xs, y :: ys =>
    match Val.decEq x y, Val.decEqL xs ys with
    | isTrue h1, isTrue h2 => isTrue (by rw [h1, h2])
    | isFalse h1, _ => isFalse (by simp [h1])
    | _, isFalse h2 => isFalse (by simp [h2])
  | [], _ :: _ => isFalse (by simp)
  | _ :: _, [] => isFalse (by simp)
end

instance : DecidableEq Val := Val.decEq

/-- A `SizeType` template argument: an unsigned integer of `k` bytes, `vsize_t` (a varint of
`size_t`), or `void` (zpp_bits.h:1143-1171, 1852-1857). -/
inductive SizeTy
  | fixed (k : Nat)
  | varint
  | none
deriving DecidableEq, Repr, Inhabited

/-- Kinds of scalar distinguished by the traits: arithmetic types other than character types,
enumerations, `std::byte`, and `char`/`unsigned char` (concept `byte_type`, zpp_bits.h:764-767). -/
inductive SKind
  | int
  | enum
  | byte
  | chr
deriving DecidableEq, Repr, Inhabited

/-- Sequence containers distinguished by `serialize_one(container)` (zpp_bits.h:2181-2250, 2725-2849).
* `vector` : resizable with contiguous storage (`vector`, `string`);
* `list` : resizable without `data()` (`list`, `deque`);
* `span` : dynamic-extent `std::span` over mutable elements;
* `view` : `string_view` / dynamic-extent span over const bytes (aliases the input when read). -/
inductive SeqKind
  | vector
  | list
  | span
  | view
deriving DecidableEq, Repr, Inhabited

/-- C++ types, by the serialization method the library selects.
* `scalar k n` : arithmetic/enum type of `n` bytes; `bool` : `bool`;
* `varint n zz` : `varint<T, normal/zig_zag>` with `sizeof(T) = n`;
* `empty` : empty class (concept `empty`, zpp_bits.h:858-863);
* `struct ok fs` : class serialized through its members, or a tuple/pair (zpp_bits.h:2144-2158,
  2252-2265); `ok` records that the class is trivially copyable, constant-evaluable by `bit_cast` and
  has no explicit `serialize` (zpp_bits.h:1303-1318). A class with an explicit
  `serialize(archive, self)` forwarding its members is `struct false fs`;
* `array n t` : C array or `std::array`;
* `seq k sz t` : sequence container; `sz = none` uses the archive's default size type, `some s` is
  `sized_t<..., s>` (zpp_bits.h:1517-1584);
* `assoc multi hashed sz key mapped` : set/map containers;
* `optional dc t` : `std::optional`, `dc` = value type default constructible;
* `optPtr t`, `uptr t` : `optional_ptr`, owning pointers;
* `variant idTy ids dcs alts` : `std::variant` with the ids of its alternatives (of type `idTy`),
  and whether each alternative is default constructible;
* `bitset n`;
* `msg sz ok maps nums fs` : class serialized by the protobuf protocol (concept `by_protocol`);
  `nums` are the explicit `pb_field` numbers of the members (if any), `maps` the `pb_map` options;
* `ref i` : reference to the named, self-referencing class `i` (concept `self_referencing`). -/
inductive Ty
  | scalar (k : SKind) (n : Nat)
  | bool
  | varint (n : Nat) (zz : Bool)
  | empty
  | struct (ok : Bool) (fs : List Ty)
  | array (n : Nat) (t : Ty)
  | seq (k : SeqKind) (sz : Option SizeTy) (t : Ty)
  | assoc (multi hashed : Bool) (sz : Option SizeTy) (key : Ty) (mapped : Option Ty)
  | optional (dc : Bool) (t : Ty)
  | optPtr (t : Ty)
  | uptr (t : Ty)
  | variant (idTy : Ty) (ids : List Val) (dcs : List Bool) (alts : List Ty)
  | bitset (n : Nat)
  | msg (sz : Option SizeTy) (ok : Bool) (maps : List (Nat × Nat)) (nums : List (Option Nat)) (fs : List Ty)
  | ref (i : Nat)
deriving Repr, Inhabited

/-- Growth policy of an output archive (template constants of `basic_out`, zpp_bits.h:1895-1906)
plus the host's capacity: `maxMem` is the largest size (in bytes) a container can be resized to;
beyond it the container throws. -/
structure Growth where
  resizable : Bool
  mul : Nat
  div : Nat
  limit : Nat
  noOvf : Bool
  maxMem : Nat
deriving DecidableEq, Repr, Inhabited

/-- Static configuration of an archive and its environment.
* `host` : native byte order; `aware` : `endian_aware`, i.e. the swapped order was requested
  (zpp_bits.h:1889-1891, 2512-2514);
* `dsz` : `default_size_type` (zpp_bits.h:1893, 2516);
* `g` : growth policy, allocation limit, host capacity;
* `sizeof` : ABI sizes; `env` : definitions of the self-referencing classes;
* `keyLt` : comparator of ordered associative containers, by key type. -/
structure Cfg where
  host : Endian
  aware : Bool
  dsz : SizeTy
  g : Growth
  sizeof : Ty → Nat
  env : Nat → Ty
  keyLt : Ty → Val → Val → Bool

/-- Concept `empty` (zpp_bits.h:858-863). -/
def Ty.isEmpty : Ty → Bool
  | .empty => true
  | _ => false

mutual
/-- `access::byte_serializable<Type>()` (zpp_bits.h:1270-1328): trivially copyable, no explicit
serialize, no padding (sizes of the members add up), no empty members, all members byte serializable.
An empty class itself has no members and yields `true` (line 1326). Class types without visible
members (containers, optionals, pointers, variants, bitsets) have `members_count < 0`.
`so` is `sizeof`. Simplification: a class without members is `Ty.empty`, so `struct _ []` is `false`;
self-referencing classes own a container or pointer and are never byte serializable. -/
def Ty.byteSer (so : Ty → Nat) : Ty → Bool
  | .scalar _ _ => true
  | .bool => true
  | .empty => true
  | .array _ t => Ty.byteSer so t
  | .struct ok fs =>
    ok && !fs.isEmpty && Ty.byteSerAll so fs && ((fs.map so).sum == so (.struct ok fs)) &&
      !fs.any Ty.isEmpty
  | .msg sz ok maps nums fs =>
    ok && !fs.isEmpty && Ty.byteSerAll so fs && ((fs.map so).sum == so (.msg sz ok maps nums fs)) &&
      !fs.any Ty.isEmpty
  | .varint _ _ => false
  | .seq _ _ _ => false
  | .assoc _ _ _ _ _ => false
  | .optional _ _ => false
  | .optPtr _ => false
  | .uptr _ => false
  | .variant _ _ _ _ => false
  | .bitset _ => false
  | .ref _ => false
/-- `byte_serializable` for all members. -/
def Ty.byteSerAll (so : Ty → Nat) : List Ty → Bool
  | [] => true
  | t :: ts => Ty.byteSer so t && Ty.byteSerAll so ts
end

/-- `access::endian_independent_byte_serializable<Type>()` (zpp_bits.h:1330-1390): effectively the
byte types and arrays of them, because the visitor requires the class itself to be a `byte_type`
(line 1349). -/
def Ty.endianIndep : Ty → Bool
  | .scalar .byte _ => true
  | .scalar .chr _ => true
  | .array _ t => Ty.endianIndep t
  | _ => false

/-- Concept `serialize_as_bytes<Archive, Type>` (zpp_bits.h:878-880). -/
def asBytes (c : Cfg) (t : Ty) : Bool := t.endianIndep || (!c.aware && t.byteSer c.sizeof)

/-- Byte order transformation applied to a scalar by the archive: memcpy, or reverse copy when
`endian_aware` (zpp_bits.h:2073-2084). -/
def ioBytes (c : Cfg) (n x : Nat) : List UInt8 :=
  if c.aware then (hostBytes c.host n x).reverse else hostBytes c.host n x

/-- Inverse of `ioBytes` (zpp_bits.h:2628-2639). -/
def ioNat (c : Cfg) (bs : List UInt8) : Nat :=
  if c.aware then hostNat c.host bs.reverse else hostNat c.host bs

mutual
/-- Object representation of a byte-serializable object, i.e. what `memcpy` of the object copies
(zpp_bits.h:2133, `as_bytes`/`bytes` 999-1057). Members of a padding-free class are consecutive.
The single byte of an empty class is indeterminate; the model takes 0. -/
def rep (e : Endian) : Ty → Val → Option (List UInt8)
  | .scalar _ n, .num x => if x < 256 ^ n then some (hostBytes e n x) else none
  | .bool, .num x => if x < 256 then some [UInt8.ofNat x] else none
  | .empty, .unit => some [0]
  | .struct _ fs, .list vs => repFields e fs vs
  | .msg _ _ _ _ fs, .list vs => repFields e fs vs
  | .array n t, .list vs => if vs.length = n then repAll e t vs else none
  | _, _ => none
/-- Representations of consecutive members. -/
def repFields (e : Endian) : List Ty → List Val → Option (List UInt8)
  | [], [] => some []
  | t :: ts, v :: vs =>
    match rep e t v, repFields e ts vs with
    | some a, some b => some (a ++ b)
    | _, _ => none
  | _, _ => none
/-- Representations of consecutive array elements. -/
def repAll (e : Endian) (t : Ty) : List Val → Option (List UInt8)
  | [] => some []
  | v :: vs =>
    match rep e t v, repAll e t vs with
    | some a, some b => some (a ++ b)
    | _, _ => none
end

/-- Split into `n` consecutive pieces of `sz` bytes, each turned into an object. -/
def chunks (f : List UInt8 → Val) (sz : Nat) : Nat → List UInt8 → List Val
  | 0, _ => []
  | n + 1, bs => f (bs.take sz) :: chunks f sz n (bs.drop sz)

mutual
/-- The object found in memory after `memcpy` into it (zpp_bits.h:2680-2682), inverse of `rep`.
`so` is `sizeof`. -/
def unrep (e : Endian) (so : Ty → Nat) : Ty → List UInt8 → Val
  | .scalar _ _, bs => .num (hostNat e bs)
  | .bool, bs => .num (leNat bs)
  | .struct _ fs, bs => .list (unrepFields e so fs bs)
  | .msg _ _ _ _ fs, bs => .list (unrepFields e so fs bs)
  | .array n t, bs => .list (chunks (unrep e so t) (so t) n bs)
  | _, _ => .unit
/-- Consecutive members. -/
def unrepFields (e : Endian) (so : Ty → Nat) : List Ty → List UInt8 → List Val
  | [], _ => []
  | t :: ts, bs => unrep e so t (bs.take (so t)) :: unrepFields e so ts (bs.drop (so t))
end

/-- `n` consecutive objects of type `t`. -/
def unrepAll (e : Endian) (so : Ty → Nat) (t : Ty) (n : Nat) (bs : List UInt8) : List Val :=
  chunks (unrep e so t) (so t) n bs

/-- Value initialization `T{}` (zpp_bits.h:2939, 2986, 3032, 3063, and `container.resize`).
The first argument bounds the nesting of class definitions. -/
def dflt (c : Cfg) : Nat → Ty → Val
  | 0, _ => .unit
  | d + 1, t =>
    match t with
    | .scalar _ _ => .num 0
    | .bool => .num 0
    | .varint _ _ => .num 0
    | .empty => .unit
    | .struct _ fs => .list (fs.map (dflt c d))
    | .msg _ _ _ _ fs => .list (fs.map (dflt c d))
    | .array n t' => .list (List.replicate n (dflt c d t'))
    | .seq _ _ _ => .list []
    | .assoc _ _ _ _ _ => .list []
    | .optional _ _ => .none
    | .optPtr _ => .none
    | .uptr _ => .none
    | .variant _ _ _ alts =>
      match alts with
      | [] => .valueless
      | t' :: _ => .alt 0 (dflt c d t')
    | .bitset n => .bits (List.replicate n false)
    | .ref i => dflt c d (c.env i)

/-- Effective size type of a container: `SizeType` template argument defaulting to
`default_size_type` (zpp_bits.h:2181, 2341, 2725, 2851, 3095). -/
def effSz (c : Cfg) (sz : Option SizeTy) : SizeTy := sz.getD c.dsz

/-- Configuration of the archive used inside a protobuf message: varint sizes, little endian
(zpp_bits.h:4704-4713, 4937-4941). `endian::little` makes the archive endian-aware exactly on a
big-endian host. -/
def pbCfg (c : Cfg) : Cfg := { c with dsz := .varint, aware := (c.host == .big) }

/-- `pb_map` options: field number mapped for the member with index `i`, 0 if none
(zpp_bits.h:4349-4358, 4472-4482, 4522-4523: the sum of all mappings). -/
def pbMapped (maps : List (Nat × Nat)) (i : Nat) : Nat :=
  (maps.map (fun m => if i + 1 = m.1 then m.2 else 0)).sum

/-- `field_number<Type, Index>()` (zpp_bits.h:4532-4550) and `field_number_from_struct`
(4510-4530): explicit number, else mapped number, else index + 1. -/
def pbNumber (maps : List (Nat × Nat)) (num : Option Nat) (i : Nat) : Nat :=
  match num with
  | some n => n
  | none => if pbMapped maps i ≠ 0 then pbMapped maps i else i + 1

/-- `tag_type<Type>()`: protobuf wire type of a (non-repeated) type (zpp_bits.h:4648-4671).
Other scalar widths are rejected at compile time. -/
def pbWireType : Ty → Nat
  | .varint _ _ => 0
  | .scalar .enum _ => 0
  | .bool => 0
  | .scalar .int n => if n = 4 then 5 else 1
  | .scalar .chr n => if n = 4 then 5 else 1
  | _ => 2

/-- How a member of a protobuf message is written (zpp_bits.h:4795-4926) and read (5033-5170). -/
inductive PbClass
  | skip
  | enumV (n : Nat)
  | single
  | map (key mapped : Ty)
  | packedFix (elem : Ty)
  | packedVar (n : Nat) (zz : Bool)
  | packedEnum (n : Nat)
  | repeated (elem : Ty)
deriving Repr, Inhabited

/-- Classification of repeated elements (zpp_bits.h:4851-4926, 5091-5093). -/
def pbElemClass : Ty → PbClass
  | .scalar .int n => .packedFix (.scalar .int n)
  | .scalar .chr n => .packedFix (.scalar .chr n)
  | .scalar .byte n => .packedFix (.scalar .byte n)
  | .bool => .packedFix .bool
  | .varint n zz => .packedVar n zz
  | .scalar .enum n => .packedEnum n
  | t => .repeated t

/-- Classification used when writing (order of the `if constexpr` chain, zpp_bits.h:4795-4926). -/
def pbOutClass : Ty → PbClass
  | .empty => .skip
  | .scalar .enum n => .enumV n
  | .assoc _ _ _ key (some m) => .map key m
  | .assoc _ _ _ key none => pbElemClass key
  | .seq _ _ t => pbElemClass t
  | _ => .single

/-- Classification used when reading (order of the `if constexpr` chain, zpp_bits.h:5033-5170):
`std::byte` is an enumeration here (line 5033), unlike when writing (line 4801). -/
def pbInClass : Ty → PbClass
  | .scalar .enum n => .enumV n
  | .scalar .byte n => .enumV n
  | .assoc _ _ _ key (some m) => .map key m
  | .assoc _ _ _ key none => pbElemClass key
  | .seq _ _ t => pbElemClass t
  | _ => .single

/-- Key and mapped types of a map entry message: enumerations become varints
(zpp_bits.h:4821-4831, 5050-5060). -/
def pbEntryTy : Ty → Ty
  | .scalar .enum n => .varint n false
  | t => t

/-- The entry message of a protobuf map (zpp_bits.h:4833-4840, 5062-5069). -/
def pbEntry (key mapped : Ty) : Ty :=
  .msg none false [] [none, none] [pbEntryTy key, pbEntryTy mapped]

end Zpp
