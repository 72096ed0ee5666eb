import Verif.Spec.Archive
import Verif.Model.In
/-!
# Specification: searching a table of records without reading it

A table holds records of equal size `w`, one behind the other, in increasing order. A program looks for the first record that does not come before what it looks for:

    std::size_t lo = 0, hi = n;
    record r;
    while (lo < hi) {
        auto mid = lo + (hi - lo) / 2;
        in.position() = base + mid * w;
        if (auto result = in(r); failure(result)) return result;
        if (before(r)) lo = mid + 1; else hi = mid;
    }

Setting the position is `basic_in::position()` (zpp_bits.h:2547-2550), reading is `basic_in::operator()` (zpp_bits.h:2532-2535).
-/

namespace Zpp.Spec

/-- How the search ended: with which result of the archive, at which record, and after how many records read. -/
structure SearchEnd where
  s : Status
  at_ : Nat
  reads : Nat
deriving DecidableEq

/-- The object read. -/
def firstOf : List Val → Val
  | [v] => v
  | _ => .unit

/-- The loop, at most `fuel` rounds; `r` is the record read last, which the next one is read into. -/
def searchLoop (d : Nat) (c : Cfg) (file : List UInt8) (t : Ty) (base w : Nat) (before : Val → Bool) : Nat → Nat → Nat → Val → Nat → SearchEnd
  | 0, lo, _, _, reads => ⟨.ok, lo, reads⟩
  | fuel + 1, lo, hi, r, reads =>
    if lo < hi then
      let mid := lo + (hi - lo) / 2
      let x := decMany d c file [(t, r)] (base + mid * w)
      match x.s with
      | .ok => if before (firstOf x.vs) then searchLoop d c file t base w before fuel (mid + 1) hi (firstOf x.vs) (reads + 1)
               else searchLoop d c file t base w before fuel lo mid (firstOf x.vs) (reads + 1)
      | s => ⟨s, lo, reads + 1⟩
    else ⟨.ok, lo, reads⟩

/-- The search in a table of `n` records that starts at `base`. `n` rounds are more than enough. -/
def search (d : Nat) (c : Cfg) (file : List UInt8) (t : Ty) (base w n : Nat) (before : Val → Bool) (r : Val) : SearchEnd :=
  searchLoop d c file t base w before n 0 n r 0

end Zpp.Spec
