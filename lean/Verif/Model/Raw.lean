import Verif.Model.Out
import Verif.Model.In
/-!
# Raw memory: `bytes(items)`, `bytes(items, count)`, `as_bytes(object)`
-/

namespace Zpp

/-- `class bytes` (zpp_bits.h:999-1057): a pointer to items and a count. `mem` is the memory of the items the pointer points
to, up to the end of the container or array it was made from; `item` is `sizeof(Item)`. `bytes(items)` and `as_bytes(object)`
have the count of the items there are (1005-1008, 1054-1057), `bytes(items, count)` the given one, which is not compared with
it (1010-1013). -/
structure Raw where
  mem : List UInt8
  item : Nat
  count : Nat
deriving Repr, DecidableEq

/-- `bytes(items)`, `as_bytes(object)`. -/
def Raw.all (mem : List UInt8) (item : Nat) : Raw := ⟨mem, item, mem.length / item⟩

/-- `size_in_bytes()` (zpp_bits.h:1020-1023), in `size_t`. -/
def Raw.size (r : Raw) : Nat := wrap (r.count * r.item)

/-- Writing (zpp_bits.h:2087-2141). Copying from behind the items is undefined. -/
def rawOut (g : Growth) (r : Raw) : OutM := fun st =>
  if r.size = 0 then (.ok, st)
  else (claim g r.size).andThen (fun st' => if r.size ≤ r.mem.length then memcpyAt (r.mem.take r.size) st' else (.ub, st')) st

/-- Reading (zpp_bits.h:2647-2685): the outcome, the memory of the items afterwards, the position. Copying from behind the
input or to behind the items is undefined. -/
def rawIn (r : Raw) (data : List UInt8) (p : Nat) : Status × List UInt8 × Nat :=
  if r.size = 0 then (.ok, r.mem, p)
  else if subSz data.length p < r.size then (.err .resultOutOfRange, r.mem, p)
  else if p + r.size ≤ data.length ∧ r.size ≤ r.mem.length then
    (.ok, (data.drop p).take r.size ++ r.mem.drop r.size, p + r.size)
  else (.ub, r.mem, p)

end Zpp
