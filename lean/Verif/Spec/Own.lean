import Verif.Model.Own
import Verif.Spec.Located
/-!
# Views that are safe to write
-/

namespace Zpp.Spec
open Zpp

/-- The place is inside of its buffer, which is not `b`. -/
def Elsewhere (m : Memory) (b : Nat) (pl : Place) : Prop := pl.buf ≠ b ∧ pl.off + pl.len ≤ (m pl.buf).length

/-- The place is in the buffer `b`, in front of the position `p`. -/
def Behind (b p : Nat) (pl : Place) : Prop := pl.buf = b ∧ pl.off + pl.len ≤ p

/-- The place is in the buffer `b`, which has `n` bytes, at or behind the position `p`. -/
def Ahead (b p n : Nat) (pl : Place) : Prop := pl.buf = b ∧ p ≤ pl.off ∧ pl.off + pl.len ≤ n

/-- Objects as they look. -/
def lookItems (m : Memory) (items : List (Ty × LVal)) : List (Ty × Val) := items.map fun x => (x.1, x.2.look m)

end Zpp.Spec
