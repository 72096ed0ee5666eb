import Verif.Model.RpcMany
import Verif.Spec.RpcVersions
/-!
# Specification: ideal connections to one service

Every connection has its queues of messages; the functions of all of them act on one world.
-/

namespace Zpp.Spec

/-- A history on ideal connections: at each step one connection `j` does something (`IdealStep`), in the world the steps before have
left, whichever connections they happened on; the queues of the other connections stay as they are. `fns j` are the functions
the client of connection `j` knows, `a j` and `b j` its queues of requests and responses. `sent` lists all messages with their
connections. -/
inductive IdealMany {σ : Type} (fns : Nat → Fns σ) (a b : Nat → Chan) :
    List (Nat × NetOp) → σ → (Nat → Queues) → List NetRes → List (Nat × Chan × Msg) → σ → (Nat → Queues) → Prop
  | done (w : σ) (q : Nat → Queues) : IdealMany fns a b [] w q [] [] w q
  | step {j : Nat} {op : NetOp} {ops : List (Nat × NetOp)} {w w1 w2 : σ} {q q2 : Nat → Queues} {q1 : Queues} {r : NetRes}
      {rs : List NetRes} {s : List (Chan × Msg)} {ss : List (Nat × Chan × Msg)} :
      IdealStep (fns j) (a j) (b j) op w (q j) r s w1 q1 →
      IdealMany fns a b ops w1 (fun j' => if j' = j then q1 else q j') rs ss w2 q2 →
      IdealMany fns a b ((j, op) :: ops) w q (r :: rs) (s.map (fun m => (j, m)) ++ ss) w2 q2

/-- The messages sent over connection `j`. -/
def sentOver (j : Nat) (sent : List (Nat × Chan × Msg)) : List (Chan × Msg) :=
  (sent.filter fun m => m.1 = j).map Prod.snd

end Zpp.Spec
