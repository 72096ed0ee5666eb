import Verif.Spec.Archive
import Verif.Model.Out
/-!
# Specification: options that do not belong to the format
-/

namespace Zpp.Spec

/-- Two output archives have the same position, and their buffers hold the same bytes; where one buffer is longer it has zeros. -/
structure SameOut (a b : OutSt) : Prop where
  left : Valid a
  right : Valid b
  pos : a.pos = b.pos
  bytes : ∀ i : Nat, a.data[i]?.getD 0 = b.data[i]?.getD 0

/-- The first archive has `k` bytes more in front; behind them both have the same bytes (and zeros where one buffer is longer), and they are at the same place. -/
structure SameBehind (k : Nat) (a b : OutSt) : Prop where
  left : Valid a
  right : Valid b
  pos : a.pos = k + b.pos
  bytes : ∀ i : Nat, a.data[k + i]?.getD 0 = b.data[i]?.getD 0

/-- There was no room: a fixed buffer is too small, a growing one reached its limit, or the host has no memory. -/
def NoRoom (s : Status) : Prop := s = .err .resultOutOfRange ∨ s = .err .noBufferSpace ∨ s = .badAlloc

/-- Several calls on one archive, up to the first that does not succeed. -/
def outSeq (d : Nat) (c : Cfg) (noFit : Bool) : List (List (Ty × Val)) → OutM
  | [] => OutM.skip
  | items :: calls => (outCall d c noFit items).andThen (outSeq d c noFit calls)

end Zpp.Spec
