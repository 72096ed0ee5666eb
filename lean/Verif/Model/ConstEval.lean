import Verif.Model.Out
import Verif.Model.In
/-!
# Model of the branches taken in constant evaluation

`std::is_constant_evaluated()` selects other code than at run time in six places (zpp_bits.h:1763, 2062,
2112, 2390, 2615, 2661): `memcpy`, `reverse_copy` and `memmove` are replaced by loops over single bytes, and
the varint decoder sees the bytes with the archive's own byte type. `Verif.Model.Out` and `Verif.Model.In`
follow the run-time branches; this file follows the other ones, loop by loop.
-/

namespace Zpp

/-- `m_data[i] = b` (zpp_bits.h:2068, 2122, 2393). `none` is an access outside the array: not a constant
expression. -/
def storeByte (d : List UInt8) (i : Nat) (b : UInt8) : Option (List UInt8) :=
  if i < d.length then some (d.set i b) else none

/-- The loop `for (i = 0; i < sizeof(value); ++i)` of the writer of fundamental types (zpp_bits.h:2066-2072),
with `k` iterations left. `value` is the object representation given by `bit_cast`. -/
def storeLoop (aware : Bool) (value : List UInt8) (pos : Nat) : (k i : Nat) → List UInt8 → Option (List UInt8)
  | 0, _, d => some d
  | k + 1, i, d =>
    match value[if aware then value.length - 1 - i else i]? with
    | none => none
    | some b =>
      match storeByte d (pos + i) b with
      | none => none
      | some d' => storeLoop aware value pos k (i + 1) d'

/-- Finish of a write in constant evaluation: the changed bytes and `m_position += n`, or not a constant
expression (zpp_bits.h:2085, 2140). -/
def finishStore (n : Nat) (r : Option (List UInt8)) : OutM := fun st =>
  match r with
  | some d => (.ok, ⟨d, st.pos + n⟩)
  | none => (.ub, st)

/-- Serialization of a fundamental type in constant evaluation (zpp_bits.h:2051-2072, 2085-2086). -/
def putConst (g : Growth) (aware : Bool) (value : List UInt8) : OutM :=
  (claim g value.length).andThen fun st =>
    finishStore value.length (storeLoop aware value st.pos value.length 0 st.data) st

/-- The inner loop over the bytes of one item (zpp_bits.h:2119-2125), `k` iterations left. -/
def storeItem (value : List UInt8) (at_ : Nat) : (k i : Nat) → List UInt8 → Option (List UInt8)
  | 0, _, d => some d
  | k + 1, i, d =>
    match value[i]? with
    | none => none
    | some b =>
      match storeByte d (at_ + i) b with
      | none => none
      | some d' => storeItem value at_ k (i + 1) d'

/-- The outer loop over the items of `bytes` (zpp_bits.h:2113-2126); `size` is `sizeof(value_type)`. -/
def storeItems (size pos : Nat) : (index : Nat) → List (List UInt8) → List UInt8 → Option (List UInt8)
  | _, [], d => some d
  | index, v :: vs, d =>
    match storeItem v (pos + index * size) size 0 d with
    | none => none
    | some d' => storeItems size pos (index + 1) vs d'

/-- Serialization of `bytes` in constant evaluation (zpp_bits.h:2087-2126, 2140-2141). -/
def putBytesConst (g : Growth) (size : Nat) (items : List (List UInt8)) : OutM :=
  if items.length * size = 0 then OutM.skip
  else (claim g (items.length * size)).andThen fun st =>
    finishStore (items.length * size) (storeItems size st.pos 0 items st.data) st

/-- The loop `for (p = message_end - 1; p >= message_start; --p) *(p + move_ahead_count) = *p`
(zpp_bits.h:2391-2394); `p` is an index into the buffer. Decrementing a pointer to the first byte is not a
constant expression. -/
def moveLoop (start ahead : Nat) : (p : Nat) → List UInt8 → Option (List UInt8)
  | 0, d => if start ≤ 0 then none else some d
  | p + 1, d =>
    if start ≤ p + 1 then
      match d[p + 1]? with
      | none => none
      | some b =>
        match storeByte d (p + 1 + ahead) b with
        | none => none
        | some d' => moveLoop start ahead p d'
    else some d

/-- Moving the message ahead in constant evaluation (zpp_bits.h:2373-2394, 2400). -/
def moveAheadConst (g : Growth) (sizePos : Nat) : OutM := fun st =>
  let cur := st.pos
  let msgSize := subSz (subSz cur sizePos) 1
  let ahead := varintSize 8 msgSize - 1
  if ahead = 0 then (.ok, st)
  else
    match claim g ahead st with
    | (.ok, st1) => finishStore ahead (moveLoop (sizePos + 1) ahead (cur - 1) st1.data) st1
    | r => r

/-- The loop filling the local array `value` (zpp_bits.h:2616-2625), `k` iterations left. Elements not
assigned yet are `none`. The outer `none` is an access outside an array. -/
def loadLoop (aware : Bool) (n : Nat) (data : List UInt8) (pos : Nat) :
    (k i : Nat) → List (Option UInt8) → Option (List (Option UInt8))
  | 0, _, v => some v
  | k + 1, i, v =>
    match data[pos + i]? with
    | none => none
    | some b =>
      let j := if aware then n - 1 - i else i
      if j < v.length then loadLoop aware n data pos k (i + 1) (v.set j (some b)) else none

/-- `std::bit_cast` of the local array: an element never assigned makes it no constant expression
(zpp_bits.h:2626, 2677). -/
def castArray : List (Option UInt8) → Option (List UInt8)
  | [] => some []
  | none :: _ => none
  | some b :: r =>
    match castArray r with
    | none => none
    | some bs => some (b :: bs)

/-- Reading a fundamental type of `n` bytes in constant evaluation: outcome, object representation given to
`bit_cast`, position (zpp_bits.h:2610-2626, 2640-2641). -/
def getConst (aware : Bool) (data : List UInt8) (pos n : Nat) : Status × List UInt8 × Nat :=
  if subSz data.length pos < n then (.err .resultOutOfRange, [], pos)
  else
    match loadLoop aware n data pos n 0 (List.replicate n none) with
    | none => (.ub, [], pos)
    | some v =>
      match castArray v with
      | none => (.ub, [], pos)
      | some bs => (.ok, bs, pos + n)

/-- The loops over the items of `bytes` in constant evaluation (zpp_bits.h:2662-2678), `count` items left. -/
def loadItems (size : Nat) (data : List UInt8) (pos : Nat) : (count index : Nat) → Option (List (List UInt8))
  | 0, _ => some []
  | count + 1, index =>
    match loadLoop false size data (pos + index * size) size 0 (List.replicate size none) with
    | none => none
    | some v =>
      match castArray v with
      | none => none
      | some bs =>
        match loadItems size data pos count (index + 1) with
        | none => none
        | some r => some (bs :: r)

/-- Reading `bytes` of `count` items in constant evaluation: outcome, the object representation of each item,
position (zpp_bits.h:2642-2678, 2684-2685). For an empty range nothing is assigned. -/
def getBytesConst (size count : Nat) (data : List UInt8) (pos : Nat) : Status × List (List UInt8) × Nat :=
  if count * size = 0 then (.ok, [], pos)
  else if subSz data.length pos < count * size then (.err .resultOutOfRange, [], pos)
  else
    match loadItems size data pos count 0 with
    | none => (.ub, [], pos)
    | some r => (.ok, r, pos + count * size)

/-- `value_type(byte)` where the byte type of the archive is `char` (`sgn`: a signed `char`) or an unsigned
byte type (zpp_bits.h:1709, 1724, 1759, 1786): the conversion of a negative `char` to the unsigned `w`-bit
`value_type` extends the sign. -/
def byteAs (sgn : Bool) (w : Nat) (b : UInt8) : Nat :=
  if sgn && decide (128 ≤ b.toNat) then 2 ^ w - 256 + b.toNat else b.toNat

/-- `decSlow` on bytes of the archive's own type (zpp_bits.h:1706-1718, 1783-1802). -/
def decSlowAs (sgn : Bool) (w : Nat) : List UInt8 → (shift value len : Nat) → VRes
  | [], _, _, _ => .err .resultOutOfRange
  | b :: rest, shift, value, len =>
    if max w 32 ≤ shift then .ub
    else
      let next := byteAs sgn w b
      let value' := (value ||| ((next &&& 0x7f) <<< shift)) % 2 ^ w
      if next ≥ 0x80 then decSlowAs sgn w rest (shift + 7) value' (len + 1)
      else .ok value' (len + 1)

/-- `decFast` on bytes of the archive's own type (zpp_bits.h:1719-1741, 1803-1830). -/
def decFastAs (sgn : Bool) (w : Nat) : List (Nat × Nat) → List UInt8 → (value len : Nat) → VRes
  | [], _, _, _ => .err .valueTooLarge
  | _ :: _, [], _, _ => .ub
  | (mask, shift) :: steps, b :: rest, value, len =>
    if max w 32 ≤ shift then .ub
    else
      let next := byteAs sgn w b
      let value' := (value ||| ((next &&& mask) <<< shift)) % 2 ^ w
      if next < 0x80 then .ok value' (len + 1)
      else decFastAs sgn w steps rest value' (len + 1)

/-- `decode_varint` on bytes of the archive's own type, as called in constant evaluation
(zpp_bits.h:1703-1743, 1763-1764). -/
def decodeVarintAs (sgn : Bool) (n : Nat) (data : List UInt8) : VRes :=
  if data.length < varintMaxSize n then decSlowAs sgn (8 * n) data 0 0 0
  else decFastAs sgn (8 * n) (fastSteps (varintMaxSize n)) data 0 0

/-- Reading a varint in constant evaluation: first byte shortcut, else `decode_varint` on the archive's own
bytes (zpp_bits.h:1757-1764). -/
def readVarintConst (sgn : Bool) (n : Nat) (data : List UInt8) : VRes :=
  match data with
  | b :: _ =>
    if byteAs sgn (8 * n) b &&& 0x80 = 0 then .ok (byteAs sgn (8 * n) b) 1 else decodeVarintAs sgn n data
  | [] => decodeVarintAs sgn n data

/-- Reading a varint at run time on an archive over `char` or over bytes: the shortcut looks at the archive's
own byte, `decode_varint` gets the bytes as `std::byte` (zpp_bits.h:1757-1771). -/
def readVarintRun (sgn : Bool) (n : Nat) (data : List UInt8) : VRes :=
  match data with
  | b :: _ =>
    if byteAs sgn (8 * n) b &&& 0x80 = 0 then .ok (byteAs sgn (8 * n) b) 1 else decodeVarint n data
  | [] => decodeVarint n data

/-- The writing loop of a varint into the remaining bytes of the archive, with its index `position`
(zpp_bits.h:1691-1697). The first argument is loop fuel. `none` is a write outside the buffer. -/
def varintStoreLoop (pos : Nat) : (fuel value position : Nat) → List UInt8 → Option (List UInt8 × Nat)
  | 0, value, position, d =>
    match storeByte d (pos + position) (UInt8.ofNat value) with
    | none => none
    | some d' => some (d', position + 1)
  | fuel + 1, value, position, d =>
    if value ≥ 0x80 then
      match storeByte d (pos + position) (UInt8.ofNat ((value &&& 0x7f) ||| 0x80)) with
      | none => none
      | some d' => varintStoreLoop pos fuel (value >>> 7) (position + 1) d'
    else
      match storeByte d (pos + position) (UInt8.ofNat value) with
      | none => none
      | some d' => some (d', position + 1)

/-- The writing loop followed by `archive.position() += position` (zpp_bits.h:1691-1700). -/
def varintStoreAt (value : Nat) : OutM := fun st =>
  match varintStoreLoop st.pos value value 0 st.data with
  | some (d, n) => (.ok, ⟨d, st.pos + n⟩)
  | none => (.ub, st)

end Zpp
