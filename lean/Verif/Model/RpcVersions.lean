import Verif.Model.Rpc
/-!
# Clients and servers of different `rpc` types

A client is compiled with one list of bindings, the server with another one (zpp_bits.h:3835-4343): another version of the
service, or a client that knows only some of its functions. The type of the ids, which is that of the first binding
(zpp_bits.h:3838-3840), is the same for both.
-/

namespace Zpp

/-- One operation on a connection whose client has the bindings of `n` and whose server has the bindings `served`: the server's
operations (zpp_bits.h:4059-4139, 4275-4300) look for the id in `served`; the client's (3870-4024) use only the bindings of `n`.
`serveId i` serves the id the client has for its binding `i`. -/
def stepBetween {σ : Type} (n : Net σ) (served : List (Binding σ)) (op : NetOp) (s : NetSt σ) : NetRes × NetSt σ :=
  match op with
  | .serve => netServe { n with bindings := served } s
  | .serveId i =>
    match n.bindings[i]? with
    | some bd =>
      netServed n s (callBinding n.d n.sc n.noFit bd.id s.world (s.buf n.a).data (s.buf n.a).rpos
        ⟨(s.buf n.b).data, (s.buf n.b).wpos⟩ served)
    | none => ((.illFormed, none), s)
  | .request withId i args => netRequest n withId i args s
  | .requestOpaque withId i items => netRequestOpaque n withId i items s
  | .response i => netResponse n i s

/-- A history of operations on such a connection (as `netRun`). -/
def runBetween {σ : Type} (n : Net σ) (served : List (Binding σ)) : List NetOp → NetSt σ → List NetRes × NetSt σ
  | [], s => ([], s)
  | op :: ops, s =>
    let r := stepBetween n served op s
    let rs := runBetween n served ops r.2
    (r.1 :: rs.1, rs.2)

end Zpp
