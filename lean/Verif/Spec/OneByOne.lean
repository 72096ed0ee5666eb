import Verif.Spec.Archive
import Verif.Spec.Input
/-!
# Specification: containers written and read one element at a time

A program that does not hold a whole container in memory can write the number of elements and then the elements, one call of the
archive for each, or read the number and then the elements in a loop. In C++:

```
out(size_type(n)); for (...) out(element);
in(n); for (size_type i = 0; i < n; ++i) { in(element); use(element); }
```
-/

namespace Zpp.Spec

/-- The size type declared for a container (if any) and the type of its elements; those of a map are pairs. -/
def streamedAs : Ty → Option (Option SizeTy × Ty)
  | .seq _ sz t => some (sz, t)
  | .assoc _ _ sz key none => some (sz, key)
  | .assoc _ _ sz key (some m) => some (sz, .struct false [key, m])
  | _ => none

/-- The object that holds the number of elements: an unsigned integer of the width of the size type, or a `vsize_t`. -/
def countTy : SizeTy → Ty
  | .fixed k => .scalar .int k
  | .varint => .varint 8 false
  | .none => .empty

/-- One call for the number of elements (none for containers without a size), and one call for each element. -/
def oneByOne (sz : SizeTy) (t : Ty) (vs : List Val) : List (List (Ty × Val)) :=
  (if sz = .none then [] else [[(countTy sz, .num vs.length)]]) ++ vs.map fun v => [(t, v)]

/-- `n` elements read by one call each, always into the same object, which holds `old` before the first. The first call that fails
ends the loop. -/
def readEach (d : Nat) (c : Cfg) (data : List UInt8) (t : Ty) : Nat → Val → Nat → ResL
  | 0, _, p => ⟨.ok, [], p⟩
  | n + 1, old, p =>
    match decMany d c data [(t, old)] p with
    | ⟨.ok, v :: _, p'⟩ => let r := readEach d c data t n v p'; ⟨r.s, v :: r.vs, r.p⟩
    | ⟨s, _, p'⟩ => ⟨s, [], p'⟩

/-- The number of elements is read first, and then as many elements. -/
def readCounted (d : Nat) (c : Cfg) (data : List UInt8) (sz : SizeTy) (t : Ty) (old : Val) (p : Nat) : ResL :=
  match decMany d c data [(countTy sz, .num 0)] p with
  | ⟨.ok, .num n :: _, p'⟩ => readEach d c data t n old p'
  | ⟨s, _, p'⟩ => ⟨s, [], p'⟩

end Zpp.Spec
