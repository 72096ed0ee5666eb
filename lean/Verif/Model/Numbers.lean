import Verif.Model.Base
/-!
# Model of `numbers::big_endian` (zpp_bits.h:5180-5316), of the hash functions (5318-5534) and of hex literals (5552-5586)

An object of type `big_endian<T>` with `sizeof(T) = n` is its member `value`, a number below `256^n`, on a host with
byte order `e`. `std::bit_cast` to an array of bytes is `hostBytes e n`, back it is `hostNat e`.
-/

namespace Zpp

/-- The loop of the constructor (zpp_bits.h:5195-5199): `data[n-1-i] = value & 0xff; value >>= 8`. The last element is
written first. -/
def beDigits : Nat → Nat → List UInt8
  | 0, _ => []
  | n + 1, value => beDigits n (value >>> 8) ++ [UInt8.ofNat (value &&& 0xff)]

/-- `big_endian(value)` (zpp_bits.h:5193-5202). -/
def beMake (e : Endian) (n value : Nat) : Nat := hostNat e (beDigits n value)

/-- One iteration of the loop of `operator<<` (zpp_bits.h:5209-5229), in place. `v` is the shift amount. Since
`offset = value % 8` is at most 7, `CHAR_BIT - offset` is positive and the branch for negative offsets (5226-5228) is
not modelled. -/
def shlStep (n v : Nat) (data : List UInt8) (i : Nat) : List UInt8 :=
  let offset := v % 8
  let current := i + v / 8
  if current ≥ n then data.set i 0
  else
    let data1 := data.set i (UInt8.ofNat ((data.getD current 0).toNat <<< offset))
    if current = n - 1 then data1
    else data1.set i (UInt8.ofNat ((data1.getD i 0).toNat ||| ((data1.getD (current + 1) 0).toNat >>> (8 - offset))))

/-- `operator<<` (zpp_bits.h:5204-5232). -/
def beShl (e : Endian) (n x v : Nat) : Nat :=
  hostNat e ((List.range n).foldl (shlStep n v) (hostBytes e n x))

/-- One iteration of the loop of `operator>>` (zpp_bits.h:5239-5260), in place; `j` counts up and the index `i` down.
`i - v / 8` is a `size_t` and wraps to a huge number when negative, which the comparison catches. -/
def shrStep (n v : Nat) (data : List UInt8) (j : Nat) : List UInt8 :=
  let i := n - 1 - j
  let offset := v % 8
  let current := subSz i (v / 8)
  if current ≥ n then data.set i 0
  else
    let data1 := data.set i (UInt8.ofNat ((data.getD current 0).toNat >>> offset))
    if current = 0 then data1
    else data1.set i (UInt8.ofNat ((data1.getD i 0).toNat ||| ((data1.getD (current - 1) 0).toNat <<< (8 - offset))))

/-- `operator>>` (zpp_bits.h:5234-5263). -/
def beShr (e : Endian) (n x v : Nat) : Nat :=
  hostNat e ((List.range n).foldl (shrStep n v) (hostBytes e n x))

/-- The loop of `operator+` (zpp_bits.h:5271-5278) from the last byte to the first with `remaining` as carry.
Simplification: the indices are visited once each, so the loop is a recursion over the reversed arrays. -/
def addBytes : List UInt8 → List UInt8 → Nat → List UInt8
  | a :: as, b :: bs, remaining =>
    let byteAddition := (a.toNat + b.toNat + remaining) % 2 ^ 16
    UInt8.ofNat (byteAddition &&& 0xff) :: addBytes as bs ((byteAddition >>> 8) &&& 0xff)
  | _, _, _ => []

/-- `operator+` (zpp_bits.h:5265-5281). -/
def beAdd (e : Endian) (n x y : Nat) : Nat :=
  hostNat e (addBytes (hostBytes e n x).reverse (hostBytes e n y).reverse 0).reverse

/-- `operator~` (zpp_bits.h:5283-5286). -/
def beNot (n x : Nat) : Nat := 256 ^ n - 1 - x

/-- `operator&`, `operator^`, `operator|` (zpp_bits.h:5294-5307) work on the members. -/
def beAnd (x y : Nat) : Nat := x &&& y
/-- See `beAnd`. -/
def beXor (x y : Nat) : Nat := x ^^^ y
/-- See `beAnd`. -/
def beOr (x y : Nat) : Nat := x ||| y

/-- `operator<=>` is defaulted and compares the members (zpp_bits.h:5309-5310). -/
def beLt (x y : Nat) : Bool := x < y

/-! ## Hash functions -/

/-- `big_endian<std::uint32_t>` on host `e`. -/
abbrev W := Nat

/-- `align(v, a)` (zpp_bits.h:5329, 5418). -/
def alignUp (v a : Nat) : Nat := (v + (a - 1)) / a * a

/-- The padded message (zpp_bits.h:5337-5347, 5462-5472). `none` is a program that does not compile: `to_bytes_one`
serializes into 4096 bytes (3214-3222), and the length of the zero bytes wraps around. -/
def shaMessage (e : Endian) (msg : List UInt8) : Option (List UInt8) :=
  let n := msg.length
  if 0x1000 < n then none
  else if alignUp (n + 1) 64 < n + 1 + 8 then none
  else some (msg ++ [0x80] ++ List.replicate (alignUp (n + 1) 64 - n - 1 - 8) 0 ++ hostBytes e 8 (beMake e 8 (n * 8)))

/-- The 16 words of a chunk (zpp_bits.h:5349-5354, 5474-5479): `from_bytes` copies the bytes into the members. -/
def shaWords (e : Endian) : Nat → List UInt8 → List W
  | 0, _ => []
  | k + 1, bs => hostNat e (bs.take 4) :: shaWords e k (bs.drop 4)

/-- `rotate_left` (zpp_bits.h:5326-5328). -/
def shaRotl (e : Endian) (x : W) (c : Nat) : W := beOr (beShl e 4 x c) (beShr e 4 x (4 * 8 - c))

/-- `rotate_right` (zpp_bits.h:5415-5417). -/
def shaRotr (e : Endian) (x : W) (c : Nat) : W := beOr (beShr e 4 x c) (beShl e 4 x (4 * 8 - c))

/-- `w[i]` for `i ≥ 16` in sha1 (zpp_bits.h:5356-5359). -/
def sha1Extend (e : Endian) (w : List W) (i : Nat) : List W :=
  w ++ [shaRotl e (beXor (beXor (beXor (w.getD (i - 3) 0) (w.getD (i - 8) 0)) (w.getD (i - 14) 0)) (w.getD (i - 16) 0)) 1]

/-- The array `w` of sha1 (zpp_bits.h:5353-5359). -/
def sha1Schedule (e : Endian) (chunk : List W) : List W := (List.range' 16 64).foldl (sha1Extend e) chunk

/-- `a, b, c, d, e` (zpp_bits.h:5361-5365). -/
structure S1 where
  a : W
  b : W
  c : W
  d : W
  e : W
deriving DecidableEq, Repr

/-- `f` and `k` of iteration `i` (zpp_bits.h:5368-5382). -/
def sha1FK (e : Endian) (i : Nat) (s : S1) : W × W :=
  if i ≤ 19 then (beOr (beAnd s.b s.c) (beAnd (beNot 4 s.b) s.d), beMake e 4 0x5a827999)
  else if i ≤ 39 then (beXor (beXor s.b s.c) s.d, beMake e 4 0x6ed9eba1)
  else if i ≤ 59 then (beOr (beOr (beAnd s.b s.c) (beAnd s.b s.d)) (beAnd s.c s.d), beMake e 4 0x8f1bbcdc)
  else (beXor (beXor s.b s.c) s.d, beMake e 4 0xca62c1d6)

/-- One iteration of the main loop of sha1 (zpp_bits.h:5367-5390). -/
def sha1Round (e : Endian) (w : List W) (s : S1) (i : Nat) : S1 :=
  let fk := sha1FK e i s
  let temp := beAdd e 4 (beAdd e 4 (beAdd e 4 (beAdd e 4 (shaRotl e s.a 5) fk.1) s.e) fk.2) (w.getD i 0)
  ⟨temp, s.a, shaRotl e s.b 30, s.c, s.d⟩

/-- One chunk of sha1 (zpp_bits.h:5349-5397). -/
def sha1Chunk (e : Endian) (h : S1) (chunk : List W) : S1 :=
  let w := sha1Schedule e chunk
  let s := (List.range 80).foldl (sha1Round e w) h
  ⟨beAdd e 4 h.a s.a, beAdd e 4 h.b s.b, beAdd e 4 h.c s.c, beAdd e 4 h.d s.d, beAdd e 4 h.e s.e⟩

/-- The loop over the `k` chunks of the message (zpp_bits.h:5349-5352). -/
def sha1Loop (e : Endian) : Nat → List UInt8 → S1 → S1
  | 0, _, h => h
  | k + 1, bs, h => sha1Loop e k (bs.drop 64) (sha1Chunk e h (shaWords e 16 bs))

/-- `sha1<Object>()` with the default digest type, for an object with the bytes `msg` (zpp_bits.h:5323-5405). -/
def sha1 (e : Endian) (msg : List UInt8) : Option (List UInt8) :=
  match shaMessage e msg with
  | none => none
  | some m =>
    let h0 : S1 := ⟨beMake e 4 0x67452301, beMake e 4 0xefcdab89, beMake e 4 0x98badcfe, beMake e 4 0x10325476,
      beMake e 4 0xc3d2e1f0⟩
    let h := sha1Loop e (m.length / 64) m h0
    some (hostBytes e 4 h.a ++ hostBytes e 4 h.b ++ hostBytes e 4 h.c ++ hostBytes e 4 h.d ++ hostBytes e 4 h.e)

/-- The constants `k` (zpp_bits.h:5429-5460). -/
def sha256K : List Nat :=
  [0x428a2f98, 0x71374491, 0xb5c0fbcf, 0xe9b5dba5, 0x3956c25b, 0x59f111f1, 0x923f82a4, 0xab1c5ed5,
   0xd807aa98, 0x12835b01, 0x243185be, 0x550c7dc3, 0x72be5d74, 0x80deb1fe, 0x9bdc06a7, 0xc19bf174,
   0xe49b69c1, 0xefbe4786, 0x0fc19dc6, 0x240ca1cc, 0x2de92c6f, 0x4a7484aa, 0x5cb0a9dc, 0x76f988da,
   0x983e5152, 0xa831c66d, 0xb00327c8, 0xbf597fc7, 0xc6e00bf3, 0xd5a79147, 0x06ca6351, 0x14292967,
   0x27b70a85, 0x2e1b2138, 0x4d2c6dfc, 0x53380d13, 0x650a7354, 0x766a0abb, 0x81c2c92e, 0x92722c85,
   0xa2bfe8a1, 0xa81a664b, 0xc24b8b70, 0xc76c51a3, 0xd192e819, 0xd6990624, 0xf40e3585, 0x106aa070,
   0x19a4c116, 0x1e376c08, 0x2748774c, 0x34b0bcb5, 0x391c0cb3, 0x4ed8aa4a, 0x5b9cca4f, 0x682e6ff3,
   0x748f82ee, 0x78a5636f, 0x84c87814, 0x8cc70208, 0x90befffa, 0xa4506ceb, 0xbef9a3f7, 0xc67178f2]

/-- `w[i]` for `i ≥ 16` in sha256 (zpp_bits.h:5481-5487). -/
def sha256Extend (e : Endian) (w : List W) (i : Nat) : List W :=
  let x := w.getD (i - 15) 0
  let y := w.getD (i - 2) 0
  let s0 := beXor (beXor (shaRotr e x 7) (shaRotr e x 18)) (beShr e 4 x 3)
  let s1 := beXor (beXor (shaRotr e y 17) (shaRotr e y 19)) (beShr e 4 y 10)
  w ++ [beAdd e 4 (beAdd e 4 (beAdd e 4 (w.getD (i - 16) 0) s0) (w.getD (i - 7) 0)) s1]

/-- The array `w` of sha256 (zpp_bits.h:5478-5487). -/
def sha256Schedule (e : Endian) (chunk : List W) : List W := (List.range' 16 48).foldl (sha256Extend e) chunk

/-- `a, ..., h` (zpp_bits.h:5489-5496). -/
structure S2 where
  a : W
  b : W
  c : W
  d : W
  e : W
  f : W
  g : W
  h : W
deriving DecidableEq, Repr

/-- One iteration of the main loop of sha256 (zpp_bits.h:5498-5516). -/
def sha256Round (e : Endian) (w : List W) (s : S2) (i : Nat) : S2 :=
  let s1 := beXor (beXor (shaRotr e s.e 6) (shaRotr e s.e 11)) (shaRotr e s.e 25)
  let ch := beXor (beAnd s.e s.f) (beAnd (beNot 4 s.e) s.g)
  let temp1 := beAdd e 4 (beAdd e 4 (beAdd e 4 (beAdd e 4 s.h s1) ch) (beMake e 4 (sha256K.getD i 0))) (w.getD i 0)
  let s0 := beXor (beXor (shaRotr e s.a 2) (shaRotr e s.a 13)) (shaRotr e s.a 22)
  let maj := beXor (beXor (beAnd s.a s.b) (beAnd s.a s.c)) (beAnd s.b s.c)
  let temp2 := beAdd e 4 s0 maj
  ⟨beAdd e 4 temp1 temp2, s.a, s.b, s.c, beAdd e 4 s.d temp1, s.e, s.f, s.g⟩

/-- One chunk of sha256 (zpp_bits.h:5474-5526). -/
def sha256Chunk (e : Endian) (h : S2) (chunk : List W) : S2 :=
  let w := sha256Schedule e chunk
  let s := (List.range 64).foldl (sha256Round e w) h
  ⟨beAdd e 4 h.a s.a, beAdd e 4 h.b s.b, beAdd e 4 h.c s.c, beAdd e 4 h.d s.d, beAdd e 4 h.e s.e,
    beAdd e 4 h.f s.f, beAdd e 4 h.g s.g, beAdd e 4 h.h s.h⟩

/-- The loop over the `k` chunks of the message (zpp_bits.h:5474-5477). -/
def sha256Loop (e : Endian) : Nat → List UInt8 → S2 → S2
  | 0, _, h => h
  | k + 1, bs, h => sha256Loop e k (bs.drop 64) (sha256Chunk e h (shaWords e 16 bs))

/-- `sha256<Object>()` with the default digest type, for an object with the bytes `msg` (zpp_bits.h:5412-5534). -/
def sha256 (e : Endian) (msg : List UInt8) : Option (List UInt8) :=
  match shaMessage e msg with
  | none => none
  | some m =>
    let h0 : S2 := ⟨beMake e 4 0x6a09e667, beMake e 4 0xbb67ae85, beMake e 4 0x3c6ef372, beMake e 4 0xa54ff53a,
      beMake e 4 0x510e527f, beMake e 4 0x9b05688c, beMake e 4 0x1f83d9ab, beMake e 4 0x5be0cd19⟩
    let h := sha256Loop e (m.length / 64) m h0
    some (hostBytes e 4 h.a ++ hostBytes e 4 h.b ++ hostBytes e 4 h.c ++ hostBytes e 4 h.d ++ hostBytes e 4 h.e ++
      hostBytes e 4 h.f ++ hostBytes e 4 h.g ++ hostBytes e 4 h.h)

/-! ## Hex literals. Characters are their codes. -/

/-- `tolower` (zpp_bits.h:5555-5560): `'A'` is 65, `'Z'` is 90, `'a'` is 97. -/
def hexToLower (c : Nat) : Nat := if 65 ≤ c ∧ c ≤ 90 then c - 65 + 97 else c

/-- The condition on the characters (zpp_bits.h:5564-5568): `'0'` is 48, `'9'` is 57, `'f'` is 102. -/
def hexCharOk (c : Nat) : Bool :=
  (decide (48 ≤ c) && decide (c ≤ 57)) || (decide (97 ≤ hexToLower c) && decide (hexToLower c ≤ 102))

/-- `hex` (zpp_bits.h:5570-5576). -/
def hexDigit (c : Nat) : Nat := if 97 ≤ c then c - 97 + 0xa else c - 48

/-- The loop (zpp_bits.h:5579-5584), two characters at a time. -/
def hexPairs : List Nat → List UInt8
  | l :: r :: rest =>
    UInt8.ofNat ((hexDigit (hexToLower l) <<< 4) ||| hexDigit (hexToLower r)) :: hexPairs rest
  | _ => []

/-- `"..."_decode_hex` (zpp_bits.h:5552-5586); `none` is rejected by a `static_assert`. -/
def decodeHex (s : List Nat) : Option (List UInt8) :=
  if s.length % 2 ≠ 0 then none
  else if s.all hexCharOk then some (hexPairs s)
  else none

end Zpp
