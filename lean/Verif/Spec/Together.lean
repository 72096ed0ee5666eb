import Verif.Spec.Threads
/-!
# Specification: a message put together by several threads

The parts of a message are written by one thread each, into the places they have in the message. The program knows how many bytes each part
takes (for types of a fixed layout from the types, otherwise because it has written the part before).
-/

namespace Zpp.Spec

/-- Thread `i` has an output archive over the place of part `i` behind `base`, a `std::span` of `lens[i]` bytes, and makes one call that writes the
part. All other threads do nothing. -/
def together (d : Nat) (c : Cfg) (noFit : Bool) (base : Nat) (parts : List (List (Ty × Val))) (lens : List Nat) (i : Nat) : Thread :=
  match parts[i]? with
  | some items => ⟨base + (lens.take i).sum, lens.getD i 0, d, c, noFit, 0, 0, [.write items], []⟩
  | none => ⟨0, 0, d, c, noFit, 0, 0, [], []⟩

end Zpp.Spec
