import Verif.Model.Fetch
/-! # Memory that changes while it is read: what is assumed and what is claimed -/

namespace Zpp.Spec

/-- The contents of the memory change, its size does not. -/
def Sized (L : Nat) (mem : Mem) : Prop := ∀ p j, (mem p j).length = L

/-- Every byte of `data` was in the memory at its place, at some time. -/
def Held (mem : Mem) (data : List UInt8) : Prop := ∀ i : Nat, ∀ b, data[i]? = some b → ∃ p j, (mem p j)[i]? = some b

/-- The byte compared and the byte used as the value are one and the same: nobody writes in between (or the compiler fetches it once). -/
def Steady (mem : Mem) : Prop := ∀ p : Nat, (mem p 1)[p]? = (mem p 0)[p]?

end Zpp.Spec
