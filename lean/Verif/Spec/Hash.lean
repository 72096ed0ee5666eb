/-!
# Specification: numbers read from bytes, SHA-1 and SHA-256 (FIPS 180-4), hexadecimal strings

Independent of the model of the code.
-/

namespace Zpp

/-- The number written by bytes in big-endian order, most significant byte first. -/
def beValue (bs : List UInt8) : Nat := bs.foldl (fun acc b => acc * 256 + b.toNat) 0

namespace Fips

/-- The 8 bytes of a 64-bit number, most significant first (FIPS 180-4, 5.1.1). -/
def len64 (n : Nat) : List UInt8 :=
  [UInt8.ofNat (n / 2 ^ 56), UInt8.ofNat (n / 2 ^ 48), UInt8.ofNat (n / 2 ^ 40), UInt8.ofNat (n / 2 ^ 32),
   UInt8.ofNat (n / 2 ^ 24), UInt8.ofNat (n / 2 ^ 16), UInt8.ofNat (n / 2 ^ 8), UInt8.ofNat n]

/-- The four bytes of a word, most significant first. -/
def wordBytes (x : BitVec 32) : List UInt8 :=
  [UInt8.ofNat (x.toNat / 2 ^ 24), UInt8.ofNat (x.toNat / 2 ^ 16), UInt8.ofNat (x.toNat / 2 ^ 8), UInt8.ofNat x.toNat]

/-- Padding (5.1.1): a one bit, the least number of zero bits, and the length in bits; the total is a multiple of 512 bits. -/
def pad (msg : List UInt8) : List UInt8 :=
  msg ++ [0x80] ++ List.replicate ((119 - msg.length % 64) % 64) 0 ++ len64 (8 * msg.length)

/-- Word `t` of a block (5.2.1). -/
def word (block : List UInt8) (t : Nat) : BitVec 32 := BitVec.ofNat 32 (beValue ((block.drop (4 * t)).take 4))

/-- Functions of 4.1.1 and 4.1.2. -/
def ch (x y z : BitVec 32) : BitVec 32 := (x &&& y) ^^^ (~~~x &&& z)
/-- Functions of 4.1.1 and 4.1.2. -/
def maj (x y z : BitVec 32) : BitVec 32 := (x &&& y) ^^^ (x &&& z) ^^^ (y &&& z)
/-- Functions of 4.1.1. -/
def parity (x y z : BitVec 32) : BitVec 32 := x ^^^ y ^^^ z

/-- Message schedule of SHA-1 (6.1.2, step 1). -/
def sched1 (block : List UInt8) (t : Nat) : BitVec 32 :=
  if t < 16 then word block t
  else (sched1 block (t - 3) ^^^ sched1 block (t - 8) ^^^ sched1 block (t - 14) ^^^ sched1 block (t - 16)).rotateLeft 1
termination_by t

/-- Constants of SHA-1 (4.2.1). -/
def k1 (t : Nat) : BitVec 32 :=
  if t < 20 then 0x5a827999#32 else if t < 40 then 0x6ed9eba1#32 else if t < 60 then 0x8f1bbcdc#32 else 0xca62c1d6#32

/-- The function of step `t` of SHA-1 (4.1.1). -/
def f1 (t : Nat) (x y z : BitVec 32) : BitVec 32 :=
  if t < 20 then ch x y z else if t < 40 then parity x y z else if t < 60 then maj x y z else parity x y z

/-- The five words of the state of SHA-1. -/
structure H1 where
  a : BitVec 32
  b : BitVec 32
  c : BitVec 32
  d : BitVec 32
  e : BitVec 32

/-- Step `t` (6.1.2, step 3). -/
def step1 (block : List UInt8) (s : H1) (t : Nat) : H1 :=
  ⟨s.a.rotateLeft 5 + f1 t s.b s.c s.d + s.e + k1 t + sched1 block t, s.a, s.b.rotateLeft 30, s.c, s.d⟩

/-- One block (6.1.2). -/
def block1 (h : H1) (block : List UInt8) : H1 :=
  let s := (List.range 80).foldl (step1 block) h
  ⟨s.a + h.a, s.b + h.b, s.c + h.c, s.d + h.d, s.e + h.e⟩

/-- Block `i` of a padded message. -/
def nthBlock (m : List UInt8) (i : Nat) : List UInt8 := (m.drop (64 * i)).take 64

/-- SHA-1 (6.1). -/
def sha1 (msg : List UInt8) : List UInt8 :=
  let m := pad msg
  let h := (List.range (m.length / 64)).foldl (fun h i => block1 h (nthBlock m i))
    ⟨0x67452301#32, 0xefcdab89#32, 0x98badcfe#32, 0x10325476#32, 0xc3d2e1f0#32⟩
  wordBytes h.a ++ wordBytes h.b ++ wordBytes h.c ++ wordBytes h.d ++ wordBytes h.e

/-- Functions of 4.1.2. -/
def Sigma0 (x : BitVec 32) : BitVec 32 := x.rotateRight 2 ^^^ x.rotateRight 13 ^^^ x.rotateRight 22
/-- Functions of 4.1.2. -/
def Sigma1 (x : BitVec 32) : BitVec 32 := x.rotateRight 6 ^^^ x.rotateRight 11 ^^^ x.rotateRight 25
/-- Functions of 4.1.2. -/
def sigma0 (x : BitVec 32) : BitVec 32 := x.rotateRight 7 ^^^ x.rotateRight 18 ^^^ (x >>> 3)
/-- Functions of 4.1.2. -/
def sigma1 (x : BitVec 32) : BitVec 32 := x.rotateRight 17 ^^^ x.rotateRight 19 ^^^ (x >>> 10)

/-- Message schedule of SHA-256 (6.2.2, step 1). -/
def sched2 (block : List UInt8) (t : Nat) : BitVec 32 :=
  if t < 16 then word block t
  else sigma1 (sched2 block (t - 2)) + sched2 block (t - 7) + sigma0 (sched2 block (t - 15)) + sched2 block (t - 16)
termination_by t

/-- Constants of SHA-256 (4.2.2). -/
def k2 : List (BitVec 32) :=
  [0x428a2f98#32, 0x71374491#32, 0xb5c0fbcf#32, 0xe9b5dba5#32, 0x3956c25b#32, 0x59f111f1#32, 0x923f82a4#32, 0xab1c5ed5#32,
   0xd807aa98#32, 0x12835b01#32, 0x243185be#32, 0x550c7dc3#32, 0x72be5d74#32, 0x80deb1fe#32, 0x9bdc06a7#32, 0xc19bf174#32,
   0xe49b69c1#32, 0xefbe4786#32, 0x0fc19dc6#32, 0x240ca1cc#32, 0x2de92c6f#32, 0x4a7484aa#32, 0x5cb0a9dc#32, 0x76f988da#32,
   0x983e5152#32, 0xa831c66d#32, 0xb00327c8#32, 0xbf597fc7#32, 0xc6e00bf3#32, 0xd5a79147#32, 0x06ca6351#32, 0x14292967#32,
   0x27b70a85#32, 0x2e1b2138#32, 0x4d2c6dfc#32, 0x53380d13#32, 0x650a7354#32, 0x766a0abb#32, 0x81c2c92e#32, 0x92722c85#32,
   0xa2bfe8a1#32, 0xa81a664b#32, 0xc24b8b70#32, 0xc76c51a3#32, 0xd192e819#32, 0xd6990624#32, 0xf40e3585#32, 0x106aa070#32,
   0x19a4c116#32, 0x1e376c08#32, 0x2748774c#32, 0x34b0bcb5#32, 0x391c0cb3#32, 0x4ed8aa4a#32, 0x5b9cca4f#32, 0x682e6ff3#32,
   0x748f82ee#32, 0x78a5636f#32, 0x84c87814#32, 0x8cc70208#32, 0x90befffa#32, 0xa4506ceb#32, 0xbef9a3f7#32, 0xc67178f2#32]

/-- The eight words of the state of SHA-256. -/
structure H2 where
  a : BitVec 32
  b : BitVec 32
  c : BitVec 32
  d : BitVec 32
  e : BitVec 32
  f : BitVec 32
  g : BitVec 32
  h : BitVec 32

/-- Step `t` (6.2.2, step 3). -/
def step2 (block : List UInt8) (s : H2) (t : Nat) : H2 :=
  let t1 := s.h + Sigma1 s.e + ch s.e s.f s.g + k2.getD t 0 + sched2 block t
  let t2 := Sigma0 s.a + maj s.a s.b s.c
  ⟨t1 + t2, s.a, s.b, s.c, s.d + t1, s.e, s.f, s.g⟩

/-- One block (6.2.2). -/
def block2 (h : H2) (block : List UInt8) : H2 :=
  let s := (List.range 64).foldl (step2 block) h
  ⟨s.a + h.a, s.b + h.b, s.c + h.c, s.d + h.d, s.e + h.e, s.f + h.f, s.g + h.g, s.h + h.h⟩

/-- SHA-256 (6.2). -/
def sha256 (msg : List UInt8) : List UInt8 :=
  let m := pad msg
  let h := (List.range (m.length / 64)).foldl (fun h i => block2 h (nthBlock m i))
    ⟨0x6a09e667#32, 0xbb67ae85#32, 0x3c6ef372#32, 0xa54ff53a#32, 0x510e527f#32, 0x9b05688c#32, 0x1f83d9ab#32, 0x5be0cd19#32⟩
  wordBytes h.a ++ wordBytes h.b ++ wordBytes h.c ++ wordBytes h.d ++ wordBytes h.e ++ wordBytes h.f ++ wordBytes h.g ++
    wordBytes h.h

end Fips

/-! ## Hexadecimal strings; characters are their codes -/

/-- The value of a hexadecimal digit. -/
inductive HexVal : Nat → Nat → Prop
  | digit (c : Nat) (h : '0'.toNat ≤ c ∧ c ≤ '9'.toNat) : HexVal c (c - '0'.toNat)
  | upper (c : Nat) (h : 'A'.toNat ≤ c ∧ c ≤ 'F'.toNat) : HexVal c (10 + (c - 'A'.toNat))
  | lower (c : Nat) (h : 'a'.toNat ≤ c ∧ c ≤ 'f'.toNat) : HexVal c (10 + (c - 'a'.toNat))

/-- A string of hexadecimal digits spells bytes. -/
inductive Spells : List Nat → List UInt8 → Prop
  | nil : Spells [] []
  | cons {l r x y : Nat} {s : List Nat} {bs : List UInt8} : HexVal l x → HexVal r y → Spells s bs →
    Spells (l :: r :: s) (UInt8.ofNat (16 * x + y) :: bs)

end Zpp
