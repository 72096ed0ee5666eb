import Verif.Model.Out
/-!
# Where the memory of a growing buffer is

`Model/Out` knows the bytes of the buffer. Here the buffer is a `std::vector`: its elements are in a block of memory with a capacity,
and it moves to another block when it becomes longer than that. Pointers, spans and views into the old block dangle then.
-/

namespace Zpp

/-- The memory of a vector: the block its elements are in, and `capacity()`. -/
structure Storage where
  block : Nat
  cap : Nat
deriving DecidableEq, Repr, Inhabited

/-- `vector.resize(n)` (called at zpp_bits.h:1999 and 2450): the block is kept if and only if `n` is at most the capacity. A new block
has a number not used before, and whatever capacity the implementation chooses (`policy`), at least `n`. -/
def Storage.resize (policy : Nat → Nat → Nat) (s : Storage) (n : Nat) : Storage :=
  if n ≤ s.cap then s else ⟨s.block + 1, max n (policy s.cap n)⟩

/-- `out(items...)` (zpp_bits.h:2443-2456): the buffer is enlarged while the items are written, then fitted. Simplified: the
enlargements of one call are taken as one, to the last of the sizes (sizes never decrease within a call, so the block is kept by
all of them if and only if it is kept by the last). -/
def outCallS (policy : Nat → Nat → Nat) (d : Nat) (c : Cfg) (noFit : Bool) (items : List (Ty × Val)) (x : OutSt × Storage) : OutSt × Storage :=
  ((outCall d c noFit items x.1).2,
    (x.2.resize policy (encMany d c items x.1).2.data.length).resize policy (outCall d c noFit items x.1).2.data.length)

/-- A history of calls (zpp_bits.h:2443-2456); each may or may not fit the buffer. -/
def callsS (policy : Nat → Nat → Nat) (d : Nat) (c : Cfg) : List (Bool × List (Ty × Val)) → OutSt × Storage → OutSt × Storage
  | [], x => x
  | (noFit, items) :: rest, x => callsS policy d c rest (outCallS policy d c noFit items x)

end Zpp
