import Verif.Spec.Rpc
/-!
# Specification: a server that receives its requests in pieces

A program receives the bytes of requests in pieces, as from a socket, and serves them with `server::serve()` (zpp_bits.h:4292-4300). After each piece it
serves until `serve` reports `result_out_of_range`; then it sets the position of the input archive back to where the request began (`position()`, 2542-2550)
and waits for the next piece. From time to time it discards the bytes it has read.
-/

namespace Zpp.Spec

/-- The program: the bytes it holds, the position of the input archive, the world the functions act on, the output archive, and what `serve` returned for the
requests served so far. -/
structure PieceServer (σ : Type) where
  data : List UInt8
  pos : Nat
  world : σ
  out : OutSt
  log : List Status

/-- Serve, at most `n` times, until a request is not complete. `none`: undefined behaviour and the like, or served `n` times. -/
def serveLoop {σ : Type} (d : Nat) (c : Cfg) (noFit : Bool) (idTy : Ty) (bindings : List (Binding σ)) : Nat → PieceServer σ → Option (PieceServer σ)
  | 0, _ => none
  | n + 1, x =>
    match serve d c noFit idTy bindings x.world x.data x.pos x.out with
    | ⟨.err .resultOutOfRange, w, _, o⟩ => some { x with world := w, out := o }
    | ⟨.err e, w, p, o⟩ => serveLoop d c noFit idTy bindings n ⟨x.data, p, w, o, x.log ++ [.err e]⟩
    | ⟨.ok, w, p, o⟩ => serveLoop d c noFit idTy bindings n ⟨x.data, p, w, o, x.log ++ [.ok]⟩
    | _ => none

/-- A piece arrives. `discard`: the bytes in front of the position are dropped before. A request has at least one byte, so there are no more requests than
bytes. -/
def PieceServer.arrive {σ : Type} (d : Nat) (c : Cfg) (noFit : Bool) (idTy : Ty) (bindings : List (Binding σ)) (discard : Bool) (piece : List UInt8)
    (x : PieceServer σ) : Option (PieceServer σ) :=
  let x := if discard then { x with data := x.data.drop x.pos, pos := 0 } else x
  serveLoop d c noFit idTy bindings ((x.data ++ piece).length + 1) { x with data := x.data ++ piece }

/-- Pieces arrive one after the other. -/
def servePieces {σ : Type} (d : Nat) (c : Cfg) (noFit : Bool) (idTy : Ty) (bindings : List (Binding σ)) :
    List (Bool × List UInt8) → PieceServer σ → Option (PieceServer σ)
  | [], x => some x
  | (discard, piece) :: rest, x => (x.arrive d c noFit idTy bindings discard piece).bind (servePieces d c noFit idTy bindings rest)

/-- Requests for functions that exist, with as many arguments as parameters. -/
def Asks {σ : Type} (fns : Fns σ) (reqs : List (Nat × List Val)) : Prop :=
  ∀ r ∈ reqs, ∃ fn, fns r.1 = some fn ∧ r.2.length = fn.params.length

/-- One call of a function: what `serve` returns, the world afterwards, the reply. -/
def calledOnce {σ : Type} (body : Body σ) (w : σ) (args : List Val) : Status × σ × List (Ty × Val) :=
  match body with
  | .void f => (.ok, f w args, [])
  | .errc f =>
    match f w args with
    | (none, w') => (.ok, w', [])
    | (some e, w') => (.err e, w', [])
  | .value t f => (.ok, (f w args).2, [(t, (f w args).1)])

/-- Calling the functions requests ask for, each exactly once, in order: what `serve` returns for each, the world afterwards, and the replies.
A request is the index of a function and its arguments. -/
def callAll {σ : Type} (fns : Fns σ) : List (Nat × List Val) → σ → List Status × σ × List (Ty × Val)
  | [], w => ([], w, [])
  | (i, args) :: rest, w =>
    match fns i with
    | none => ([], w, [])
    | some fn =>
      let r := calledOnce fn.body w args
      let rs := callAll fns rest r.2.1
      (r.1 :: rs.1, rs.2.1, r.2.2 ++ rs.2.2)

end Zpp.Spec
