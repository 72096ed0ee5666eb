import Verif.Spec.ServePieces
import Verif.Spec.Indexed
/-!
# Specification: remote calls over a connection that loses, repeats and reorders messages

A client numbers its requests. It writes the number and the request (`client::request`, zpp_bits.h:3870-3983) into a new buffer and sends this buffer, again and again
until it has the reply; then it goes on with the next request. The server reads the number. If it is the next one, the server writes it to the reply, calls
`server::serve()` (zpp_bits.h:4292-4300), and keeps the reply; if it is the last one served, the server sends the kept reply again. The client reads the number of a reply
and, if it is the one it waits for, the result. A function without result is confirmed by a reply with the number only.

The connection may deliver every buffer sent never, once, many times, and in any order.
-/

namespace Zpp.Spec

/-- Client and server. -/
structure LossyProg (σ : Type) where
  dc : Nat
  cc : Cfg
  ds : Nat
  cs : Cfg
  noFit : Bool
  idTy : Ty
  bindings : List (Binding σ)
  reqs : List (Nat × List Val)

/-- Their state: the request the client is at and the results it has; the buffers sent in both directions; the number the server waits for, the last reply, the world the
functions act on, and what `serve` returned. -/
structure Lossy (σ : Type) where
  cur : Nat
  got : List (List Val)
  toServer : List (List UInt8)
  toClient : List (List UInt8)
  next : Nat
  last : List UInt8
  world : σ
  log : List Status

/-- The client sends its request (again); a buffer sent to the server arrives; a buffer sent to the client arrives. -/
inductive LossyEv
  | send
  | toServer (i : Nat)
  | toClient (j : Nat)

/-- Objects with a number in front. -/
def numbered (n : Nat) (items : List (Ty × Val)) : List (Ty × Val) := (posTy, .num n) :: items

/-- The objects of a request. -/
def LossyProg.request {σ : Type} (P : LossyProg σ) (r : Nat × List Val) : List (Ty × Val) := msgItems (boundFns P.bindings) P.idTy (.req true r.1 r.2)

/-- The destinations for the result of a request. -/
def LossyProg.result {σ : Type} (P : LossyProg σ) (k : Nat) : List (Ty × Val) :=
  match P.reqs[k]? with
  | some r =>
    match boundFns P.bindings r.1 with
    | some fn =>
      match fn.body with
      | .value t _ => [(t, dflt P.cc P.dc t)]
      | _ => []
    | none => []
  | none => []

/-- The client sends its request. `none`: writing failed. -/
def LossyProg.sends {σ : Type} (P : LossyProg σ) (x : Lossy σ) : Option (Lossy σ) :=
  match P.reqs[x.cur]? with
  | none => some x
  | some r =>
    match outCall P.dc P.cc P.noFit (numbered x.cur (P.request r)) ⟨[], 0⟩ with
    | (.ok, st) => some { x with toServer := x.toServer ++ [st.data.take st.pos] }
    | _ => none

/-- A buffer arrives at the server. `none`: its number cannot be read, or the number of the reply cannot be written. -/
def LossyProg.serves {σ : Type} (P : LossyProg σ) (b : List UInt8) (x : Lossy σ) : Option (Lossy σ) :=
  match decMany P.ds P.cs b [(posTy, .num 0)] 0 with
  | ⟨.ok, [.num n], p⟩ =>
    if n = x.next then
      match outCall P.ds P.cs P.noFit [(posTy, .num n)] ⟨[], 0⟩ with
      | (.ok, o) =>
        let r := serve P.ds P.cs P.noFit P.idTy P.bindings x.world b p o
        let reply := r.o.data.take r.o.pos
        some { x with next := n + 1, last := reply, world := r.w, toClient := x.toClient ++ [reply], log := x.log ++ [r.s] }
      | _ => none
    else if n + 1 = x.next then some { x with toClient := x.toClient ++ [x.last] }
    else some x
  | _ => none

/-- A buffer arrives at the client. `none`: it cannot be read. -/
def LossyProg.receives {σ : Type} (P : LossyProg σ) (b : List UInt8) (x : Lossy σ) : Option (Lossy σ) :=
  match decMany P.dc P.cc b [(posTy, .num 0)] 0 with
  | ⟨.ok, [.num n], p⟩ =>
    if n = x.cur then
      match decMany P.dc P.cc b (P.result n) p with
      | ⟨.ok, vs, _⟩ => some { x with cur := n + 1, got := x.got ++ [vs] }
      | _ => none
    else some x
  | _ => none

/-- One event; a buffer that was not sent does not arrive. -/
def LossyProg.step {σ : Type} (P : LossyProg σ) (ev : LossyEv) (x : Lossy σ) : Option (Lossy σ) :=
  match ev with
  | .send => P.sends x
  | .toServer i =>
    match x.toServer[i]? with
    | some b => P.serves b x
    | none => some x
  | .toClient j =>
    match x.toClient[j]? with
    | some b => P.receives b x
    | none => some x

/-- A history. -/
def LossyProg.run {σ : Type} (P : LossyProg σ) : List LossyEv → Lossy σ → Option (Lossy σ)
  | [], x => some x
  | ev :: evs, x => (P.step ev x).bind (P.run evs)

/-- The start. -/
def lossyStart {σ : Type} (w : σ) : Lossy σ := ⟨0, [], [], [], 0, [], w, []⟩

/-- The results of calling the functions directly, one after the other. -/
def resultsOf {σ : Type} (fns : Fns σ) : List (Nat × List Val) → σ → List (List Val)
  | [], _ => []
  | (i, args) :: rest, w =>
    match fns i with
    | none => []
    | some fn => (calledOnce fn.body w args).2.2.map Prod.snd :: resultsOf fns rest (calledOnce fn.body w args).2.1

end Zpp.Spec
