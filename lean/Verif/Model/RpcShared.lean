import Verif.Model.RpcVersions
/-!
# Several services over the same archives

`rpc<...>::client` and `rpc<...>::server` keep references to the archives they are given (zpp_bits.h:3845-3849, 4026-4027, 4038-4049, 4302-4304).
A program can so give the same archives to the clients and servers of several services: two peers that call each other over one pair of buffers (each
is the client of one service and the server of another one, or of the same one: `client_server`, 4312-4331), or several services behind one another on the same connection.
-/

namespace Zpp

/-- A history: operations with the service they belong to. Service `j` has the client bindings, buffers and options of `ns j` and the server bindings
`served j`; all of them work on the same buffers, whose positions they share (zpp_bits.h:3870-4024, 4275-4300). Simplification, as in `manyRun`:
operations do not overlap. -/
def sharedRun {σ : Type} (ns : Nat → Net σ) (served : Nat → List (Binding σ)) :
    List (Nat × NetOp) → NetSt σ → List NetRes × NetSt σ
  | [], s => ([], s)
  | (j, op) :: ops, s =>
    let r := stepBetween (ns j) (served j) op s
    let rs := sharedRun ns served ops r.2
    (r.1 :: rs.1, rs.2)

end Zpp
