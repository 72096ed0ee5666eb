/-!
# Base vocabulary of the model: outcomes, `size_t` arithmetic, bytes

Everything cited below refers to `/repo/zpp_bits.h`.
-/

namespace Zpp

/-- Byte order of a scalar in memory or on the wire (`std::endian`, used at zpp_bits.h:1110-1129). -/
inductive Endian
  | little
  | big
deriving DecidableEq, Repr, Inhabited

/-- `endian::swapped` as a function of the native order (zpp_bits.h:1127-1128). -/
def Endian.swap : Endian → Endian
  | .little => .big
  | .big => .little

/-- The `std::errc` codes the library returns (zpp_bits.h:111-164, README "Error Codes").
`user n` stands for an error code produced by user code (RPC functions returning `errc`). -/
inductive Errc
  | resultOutOfRange
  | noBufferSpace
  | valueTooLarge
  | messageSize
  | notSupported
  | badMessage
  | invalidArgument
  | protocolError
  | user (n : Nat)
deriving DecidableEq, Repr, Inhabited

/-- Outcome of an archive operation.
* `ok` / `err e` : the call returned an `errc` (zpp_bits.h:111-164);
* `badAlloc` : a standard container threw while growing (`length_error`/`bad_alloc`);
* `ub` : the C++ execution has undefined behaviour (out-of-bounds access, null dereference,
  over-wide shift, falling off the end of a non-void function);
* `stack` : the recursion depth given to the model is exhausted (stack overflow);
* `hang` : a loop ran longer than its model fuel (would be a non-terminating loop);
* `illFormed` : the combination of type and value does not exist in C++ (does not compile). -/
inductive Status
  | ok
  | err (e : Errc)
  | badAlloc
  | ub
  | stack
  | hang
  | illFormed
deriving DecidableEq, Repr, Inhabited

/-- Largest `std::size_t` (64-bit host); also the "no limit" value of `alloc_limit`
(zpp_bits.h:693, 703). -/
def sizeMax : Nat := 2 ^ 64 - 1

/-- Reduction of a `size_t` result modulo `2^64`. -/
def wrap (n : Nat) : Nat := n % 2 ^ 64

/-- `size_t` subtraction `a - b` for operands below `2^64`, wrapping when `b > a`
(e.g. `size - m_position`, zpp_bits.h:1969, 2057, 2612). -/
def subSz (a b : Nat) : Nat := if b ≤ a then a - b else a + 2 ^ 64 - b

theorem subSz_of_le {a b : Nat} (h : b ≤ a) : subSz a b = a - b := by simp [subSz, h]

/-- The `n` low bytes of `x`, least significant first: the object representation of an `n`-byte
unsigned integer on a little-endian host. -/
def leBytes : Nat → Nat → List UInt8
  | 0, _ => []
  | n + 1, x => UInt8.ofNat (x % 256) :: leBytes n (x / 256)

/-- Value of a little-endian digit string. -/
def leNat : List UInt8 → Nat
  | [] => 0
  | b :: bs => b.toNat + 256 * leNat bs

/-- Object representation of an `n`-byte scalar `x` on a host with byte order `e`
(what `memcpy(&item)` sees, zpp_bits.h:2081, 2636). -/
def hostBytes : Endian → Nat → Nat → List UInt8
  | .little, n, x => leBytes n x
  | .big, n, x => (leBytes n x).reverse

/-- Inverse of `hostBytes`. -/
def hostNat : Endian → List UInt8 → Nat
  | .little, bs => leNat bs
  | .big, bs => leNat bs.reverse

@[simp] theorem leBytes_length (n x : Nat) : (leBytes n x).length = n := by
  induction n generalizing x with
  | zero => rfl
  | succ n ih => simp [leBytes, ih]

theorem leNat_leBytes (n x : Nat) (h : x < 256 ^ n) : leNat (leBytes n x) = x := by
  induction n generalizing x with
  | zero => simp at h; simp [leBytes, leNat, h]
  | succ n ih =>
    have h2 : x / 256 < 256 ^ n := by
      rw [Nat.pow_succ] at h
      exact Nat.div_lt_of_lt_mul (by omega)
    simp only [leBytes, leNat, ih _ h2]
    have h3 : (UInt8.ofNat (x % 256)).toNat = x % 256 := by simp
    omega

theorem leNat_lt (bs : List UInt8) : leNat bs < 256 ^ bs.length := by
  induction bs with
  | nil => simp [leNat]
  | cons b bs ih =>
    have := b.toNat_lt
    simp only [leNat, List.length_cons, Nat.pow_succ]
    omega

theorem leBytes_leNat (bs : List UInt8) : leBytes bs.length (leNat bs) = bs := by
  induction bs with
  | nil => rfl
  | cons b bs ih =>
    have := b.toNat_lt
    simp only [List.length_cons, leBytes, leNat]
    have h1 : (b.toNat + 256 * leNat bs) % 256 = b.toNat := by omega
    have h2 : (b.toNat + 256 * leNat bs) / 256 = leNat bs := by omega
    rw [h1, h2, ih]
    simp

@[simp] theorem hostBytes_length (e : Endian) (n x : Nat) : (hostBytes e n x).length = n := by
  cases e <;> simp [hostBytes]

theorem hostNat_hostBytes (e : Endian) (n x : Nat) (h : x < 256 ^ n) :
    hostNat e (hostBytes e n x) = x := by
  cases e <;> simp [hostNat, hostBytes, leNat_leBytes _ _ h]

theorem hostBytes_hostNat (e : Endian) (bs : List UInt8) :
    hostBytes e bs.length (hostNat e bs) = bs := by
  cases e
  · simp [hostNat, hostBytes, leBytes_leNat]
  · have := leBytes_leNat bs.reverse
    simp only [List.length_reverse] at this
    simp [hostNat, hostBytes, this]

theorem hostNat_lt (e : Endian) (bs : List UInt8) : hostNat e bs < 256 ^ bs.length := by
  cases e
  · exact leNat_lt bs
  · have := leNat_lt bs.reverse
    simpa [hostNat] using this

end Zpp
