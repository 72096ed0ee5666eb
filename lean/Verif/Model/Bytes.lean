import Verif.Model.Out
import Verif.Model.In
import Verif.Model.Options
import Verif.Model.Numbers
/-!
# Model of the compile-time helpers `to_bytes`, `from_bytes`, `slice` and `id` (zpp_bits.h:3214-3304)

`none` is a program that does not compile (an exception or an access out of bounds in a constant expression).
All archives here have no options: `cfgOf h false []`. `junk` stands for the content of the uninitialized local arrays
(`std::array<std::byte, N> data;`): reading one is an error in a constant expression, so no result may depend on it.
-/

namespace Zpp

/-- The first `n` bytes of uninitialized storage. -/
def uninit (junk : Nat → UInt8) (n : Nat) : List UInt8 := (List.range n).map junk

/-- `to_bytes_one<Object>()` (zpp_bits.h:3214-3231): measured in a buffer of `MaxSize = 0x1000` bytes, written into one of
the exact size. -/
def toBytesOne (d : Nat) (h : Host) (junk : Nat → UInt8) (t : Ty) (v : Val) : Option (List UInt8) :=
  match outCall d (cfgOf h false []) false [(t, v)] ⟨uninit junk 0x1000, 0⟩ with
  | (.ok, st) =>
    if st.pos = 0 then some []
    else
      match outCall d (cfgOf h false []) false [(t, v)] ⟨uninit junk st.pos, 0⟩ with
      | (.ok, st') => some st'.data
      | _ => none
  | _ => none

/-- A result of `to_bytes_one` as an object: `std::array<std::byte, N>`, or `string_literal<std::byte, 0>`, a container
without size prefix (zpp_bits.h:3225, 2196-2218). -/
def bytesItem (bs : List UInt8) : Ty × Val :=
  if bs = [] then (.seq .vector (some .none) (.scalar .byte 1), .list [])
  else (.array bs.length (.scalar .byte 1), .list (bs.map fun b => .num b.toNat))

/-- `join<Data...>()` (zpp_bits.h:3233-3244). -/
def joinBytes (d : Nat) (h : Host) (junk : Nat → UInt8) (pieces : List (List UInt8)) : Option (List UInt8) :=
  let size := (pieces.map List.length).sum
  if size = 0 then some []
  else
    match outCall d (cfgOf h false []) false (pieces.map bytesItem) ⟨uninit junk size, 0⟩ with
    | (.ok, st) => some st.data
    | _ => none

/-- `to_bytes_one` of every object. -/
def toBytesEach (d : Nat) (h : Host) (junk : Nat → UInt8) : List (Ty × Val) → Option (List (List UInt8))
  | [] => some []
  | (t, v) :: rest =>
    match toBytesOne d h junk t v, toBytesEach d h junk rest with
    | some b, some bs => some (b :: bs)
    | _, _ => none

/-- `to_bytes<Object...>()` (zpp_bits.h:3261-3265). -/
def toBytes (d : Nat) (h : Host) (junk : Nat → UInt8) (items : List (Ty × Val)) : Option (List UInt8) :=
  match toBytesEach d h junk items with
  | some pieces => joinBytes d h junk pieces
  | none => none

/-- `from_bytes<Data, Type>()` (zpp_bits.h:3267-3273). `old` is the default-initialized object. -/
def fromBytes (d : Nat) (h : Host) (data : List UInt8) (t : Ty) (old : Val) : Option Val :=
  match decMany d (cfgOf h false []) data [(t, old)] 0 with
  | ⟨.ok, [v], _⟩ => some v
  | _ => none

/-- `from_bytes<Data, Types...>()` with several types (zpp_bits.h:3275-3281): a tuple. -/
def fromBytesTuple (d : Nat) (h : Host) (data : List UInt8) (ts : List Ty) (olds : List Val) : Option Val :=
  fromBytes d h data (.struct false ts) (.list olds)

/-- `slice<0, Right>(array)` (zpp_bits.h:3246-3259); `none` for `Right` is `-1`. `0 < Right` is asserted, and copying past
the end does not compile. An empty array without `Right` has no elements to copy. -/
def sliceBytes (data : List UInt8) : Option Nat → Option (List UInt8)
  | none => some data
  | some right => if 0 < right ∧ right ≤ data.length then some (data.take right) else none

/-- The value of the `serialization_id` selected by `serialize_id` (zpp_bits.h:3286-3297): `std::byte`, an unsigned integer,
or the array itself. -/
def idItem (h : Host) (bs : List UInt8) : Ty × Val :=
  if bs.length = 1 then (.scalar .byte 1, .num (hostNat h.order bs))
  else if bs.length = 2 then (.scalar .int 2, .num (hostNat h.order bs))
  else if bs.length = 4 then (.scalar .int 4, .num (hostNat h.order bs))
  else if bs.length = 8 then (.scalar .int 8, .num (hostNat h.order bs))
  else (.array bs.length (.scalar .byte 1), .list (bs.map fun b => .num b.toNat))

/-- `id<Id, MaxSize>` (zpp_bits.h:3283-3304). Without bytes there is no id: `sizeof(std::array<std::byte, 0>)` is 1 with the
common standard libraries, so a `std::byte` is read from no bytes, which does not compile. -/
def serializeId (d : Nat) (h : Host) (junk : Nat → UInt8) (items : List (Ty × Val)) (maxSize : Option Nat) :
    Option (Ty × Val) :=
  match toBytes d h junk items with
  | none => none
  | some bs =>
    match sliceBytes bs maxSize with
    | none => none
    | some s => if s = [] then none else some (idItem h s)

/-- `"text"_sha1_int` (zpp_bits.h:5600-5604): the first `sizeof(int) = 4` bytes of the digest as an id. -/
def sha1Int (d : Nat) (h : Host) (junk : Nat → UInt8) (text : List UInt8) : Option (Ty × Val) :=
  match sha1 h.order text with
  | some digest => serializeId d h junk [bytesItem digest] (some 4)
  | none => none

/-- `"text"_sha256_int` (zpp_bits.h:5606-5610). -/
def sha256Int (d : Nat) (h : Host) (junk : Nat → UInt8) (text : List UInt8) : Option (Ty × Val) :=
  match sha256 h.order text with
  | some digest => serializeId d h junk [bytesItem digest] (some 4)
  | none => none

/-- The id of a class or function with a name: `id<"text"_s>` (zpp_bits.h:3283-3301 with 5540-5544, 941-993; a string literal
is a container of fixed size and has no prefix, so its encoding is that of an array). Simplification: characters as bytes. -/
def textId (d : Nat) (h : Host) (junk : Nat → UInt8) (text : List UInt8) : Option (Ty × Val) :=
  serializeId d h junk [bytesItem text] none

end Zpp
