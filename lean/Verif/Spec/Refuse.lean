import Verif.Spec.Input
/-!
# Specification: limits that only refuse
-/

namespace Zpp.Spec

/-- `g'` allows at least what `g` allows: a higher allocation limit or none, and at least as much memory. -/
structure Looser (g g' : Growth) : Prop where
  limit : g'.limit = sizeMax ∨ (g.limit ≠ sizeMax ∧ g.limit ≤ g'.limit)
  mem : g.maxMem ≤ g'.maxMem

/-- A refusal for lack of room: `message_size`, or an exception of the container. -/
def Refused (s : Status) : Prop := s = .err .messageSize ∨ s = .badAlloc

end Zpp.Spec
