import Verif.Model.Duplex
import Verif.Spec.Archive
import Verif.Spec.Input
/-!
# Specification: a queue of objects
-/

namespace Zpp.Spec

/-- `Fifo q ops outs q'`: on a first-in-first-out queue of objects holding `q`, the calls `ops` give the objects `outs`
(one list per call; writing gives none) and leave `q'`. A read asks for objects of the types at the front of the
queue. -/
inductive Fifo : List (Ty × Val) → List Op → List (List Val) → List (Ty × Val) → Prop
  | done (q : List (Ty × Val)) : Fifo q [] [] q
  | write {q q' items : List (Ty × Val)} {ops : List Op} {outs : List (List Val)} :
      Fifo (q ++ items) ops outs q' → Fifo q (.write items :: ops) ([] :: outs) q'
  | read {front rest q' dests : List (Ty × Val)} {ops : List Op} {outs : List (List Val)} :
      dests.map Prod.fst = front.map Prod.fst → Fifo rest ops outs q' →
      Fifo (front ++ rest) (.read dests :: ops) (front.map Prod.snd :: outs) q'

/-- All objects written by a history, in order. -/
def written : List Op → List (Ty × Val)
  | [] => []
  | .write items :: ops => items ++ written ops
  | .read _ :: ops => written ops

/-- The buffer can hold `N` bytes: a growing buffer by limit and memory, a fixed buffer by its size. -/
def RoomFor (g : Growth) (size N : Nat) : Prop :=
  if g.resizable then LimitRoom g N ∧ MemRoom g N else N ≤ size

end Zpp.Spec
