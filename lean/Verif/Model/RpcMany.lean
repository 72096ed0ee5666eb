import Verif.Model.RpcVersions
/-!
# Many clients of one service

Clients and servers (zpp_bits.h:3842-4305) over any number of connections, the bound functions acting on one world: globals or the
object given to the servers as `context` (4044-4049, 4304). Operations of different connections are interleaved in any order.
Simplification: operations do not overlap (the library does no locking; functions that run at the same time are not modelled).
-/

namespace Zpp

/-- State: the world, and the buffers of every connection. -/
structure ManySt (σ : Type) where
  world : σ
  conn : Nat → Chan → Duplex

/-- Connection `j` sees the world and its own buffers. -/
def ManySt.at {σ : Type} (s : ManySt σ) (j : Nat) : NetSt σ := ⟨s.world, s.conn j⟩

/-- One operation on connection `j`, whose client has the bindings of `ns j` and whose server has the bindings `served j`
(zpp_bits.h:3870-4024, 4275-4300). -/
def manyStep {σ : Type} (ns : Nat → Net σ) (served : Nat → List (Binding σ)) (j : Nat) (op : NetOp) (s : ManySt σ) :
    NetRes × ManySt σ :=
  let r := stepBetween (ns j) (served j) op (s.at j)
  (r.1, ⟨r.2.world, fun j' => if j' = j then r.2.buf else s.conn j'⟩)

/-- A history: operations with the connection they happen on (as `netRun`). -/
def manyRun {σ : Type} (ns : Nat → Net σ) (served : Nat → List (Binding σ)) :
    List (Nat × NetOp) → ManySt σ → List NetRes × ManySt σ
  | [], s => ([], s)
  | (j, op) :: ops, s =>
    let r := manyStep ns served j op s
    let rs := manyRun ns served ops r.2
    (r.1 :: rs.1, rs.2)

end Zpp
