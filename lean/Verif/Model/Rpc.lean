import Verif.Model.Duplex
/-!
# Calling functions with arguments read from an archive, and remote procedure calls

`apply`, `bind`, `bind_opaque`, `rpc` (zpp_bits.h:3362-3742, 3744-3833, 3835-4343), without the
`zpp_throwing.h` coroutine branches (`Model/RpcThrow`) and without exceptions thrown by the called functions.
The world the functions act on (globals, the server's `context` object) is an arbitrary type `σ`.
-/

namespace Zpp

/-- A callable by its return type: `void`, `errc` (`none` is success), or an object of type `t`; it gets the state of the
world and its arguments, and gives the new state of the world. -/
inductive Body (σ : Type)
  | void (f : σ → List Val → σ)
  | errc (f : σ → List Val → Option Errc × σ)
  | value (t : Ty) (f : σ → List Val → Val × σ)

/-- An `errc` returned by a function. -/
def codeStatus : Option Errc → Status
  | none => .ok
  | some e => .err e

/-- What `apply` returns: `code s` an `errc`; `value v` the function's result, or a `value_or_errc` holding it;
`failed s` a `value_or_errc` in the failure state with error `s` (`ok` is the error code 0, see `finish`)
(zpp_bits.h:3469-3529). Also used for outcomes without return: `code .ub` and the like. -/
inductive Applied
  | code (s : Status)
  | value (t : Ty) (v : Val)
  | failed (s : Status)
deriving Repr, Inhabited

/-- The call itself (zpp_bits.h:3637, 3645-3647, 3653-3655, 3662, 3670-3672, 3678-3680, 3695-3696, 3709-3719,
3725-3739). If the function has parameters and returns `errc`, `value_or_errc<errc>{errc}` picks the constructor from
`error_type` (zpp_bits.h:3488-3492) and not the one from a value: the result is in the failure state even if the function
succeeded. -/
def finish {σ : Type} (hasParams : Bool) (body : Body σ) (w : σ) (args : List Val) : Applied × σ :=
  match body with
  | .void f => (.code .ok, f w args)
  | .errc f => let r := f w args; (if hasParams then .failed (codeStatus r.1) else .code (codeStatus r.1), r.2)
  | .value t f => let r := f w args; (.value t r.1, r.2)

/-- What `apply` returns when the parameters cannot be read (zpp_bits.h:3641-3644, 3649-3652, 3666-3669, 3674-3677,
3700-3703, 3721-3724). -/
def refused {σ : Type} (body : Body σ) (s : Status) : Applied :=
  match body with
  | .value _ _ => .failed s
  | .errc _ => .failed s
  | .void _ => .code s

/-- `apply(function, archive)` and `apply(self, function, archive)` (zpp_bits.h:3625-3742): without parameters the
function is called right away; otherwise the parameters are read as one `std::tuple` (value-initialized) by one call
`archive(parameters)`, and the function is called if that succeeds. Gives the return value, the world and the new
position of the archive. -/
def apply {σ : Type} (d : Nat) (c : Cfg) (params : List Ty) (body : Body σ) (data : List UInt8) (p : Nat) (w : σ) :
    Applied × σ × Nat :=
  match params with
  | [] => let r := finish false body w []; (r.1, r.2, p)
  | _ :: _ =>
    match decode d c (.struct false params) (dflt c d (.struct false params)) data p with
    | ⟨.ok, v, p'⟩ => let r := finish true body w v.elems; (r.1, r.2, p')
    | ⟨s, _, p'⟩ => (refused body s, w, p')

/-- What an opaquely bound function returned. -/
inductive OpaqueRet
  | void
  | errc (e : Option Errc)
  | value (t : Ty) (v : Val)

/-- A function bound by `bind_opaque` (zpp_bits.h:3778-3832): one that gets the archives (any of `(in, out)`, `(in)`,
`(out)`, `()`) and may move their positions and write output, or one that gets the remaining input as a span, which it
may shorten: `bytes` gives the size of the span after the call. -/
inductive OpaqueFn (σ : Type)
  | archives (f : σ → List UInt8 → Nat → OutSt → OpaqueRet × σ × Nat × OutSt)
  | bytes (f : σ → List UInt8 → OpaqueRet × σ × Nat)

/-- The declared return type of a function (`function_traits::return_type`, zpp_bits.h:3362-3455). -/
inductive Ret
  | void
  | errc
  | value (t : Ty)

/-- The return type of a body. -/
def Body.ret {σ : Type} : Body σ → Ret
  | .void _ => .void
  | .errc _ => .errc
  | .value t _ => .value t

/-- `bind<Function, Id>` and `bind_opaque<Function, Id>` (zpp_bits.h:3744-3833); `ret` is the declared return type of an
opaque function (3774-3775). -/
inductive Binding (σ : Type)
  | bind (id : Val) (params : List Ty) (body : Body σ)
  | opaque (id : Val) (ret : Ret) (fn : OpaqueFn σ)

/-- `Binding::id::value`. -/
def Binding.id {σ : Type} : Binding σ → Val
  | .bind id _ _ => id
  | .opaque id _ _ => id

/-- `Binding::return_type` (zpp_bits.h:3751-3752, 3774-3775). -/
def Binding.ret {σ : Type} : Binding σ → Ret
  | .bind _ _ body => body.ret
  | .opaque _ ret _ => ret

/-- Result of serving a request: outcome, world, position of the server's input archive, state of its output archive. -/
structure Served (σ : Type) where
  s : Status
  w : σ
  p : Nat
  o : OutSt

/-- What `call_binding` does with the return value of `Binding::call` (zpp_bits.h:4064-4087): an `errc` is returned as
the outcome; a result is written to the output. -/
def answer {σ : Type} (d : Nat) (c : Cfg) (noFit : Bool) (o : OutSt) (w : σ) (p : Nat) : Applied → Served σ
  | .code s => ⟨s, w, p, o⟩
  | .failed s => ⟨s, w, p, o⟩
  | .value t v => let r := outCall d c noFit [(t, v)] o; ⟨r.1, w, p, r.2⟩

/-- The matching branch of `call_binding` for an ordinary binding (zpp_bits.h:4063-4087, 3755-3764). -/
def callBind {σ : Type} (d : Nat) (c : Cfg) (noFit : Bool) (params : List Ty) (body : Body σ) (w : σ) (data : List UInt8)
    (p : Nat) (o : OutSt) : Served σ :=
  let r := apply d c params body data p w
  answer d c noFit o r.2.1 r.2.2 r.1

/-- The matching branch of `call_binding` for an opaque binding (zpp_bits.h:4101-4131, 3778-3832). The branch for
functions returning `value_or_errc` (4115-4128) is never selected, because its condition compares `value_type` with
`value_or_errc` of the whole type. -/
def callOpaque {σ : Type} (d : Nat) (c : Cfg) (noFit : Bool) (fn : OpaqueFn σ) (w : σ) (data : List UInt8) (p : Nat)
    (o : OutSt) : Served σ :=
  let finish (r : OpaqueRet) (w : σ) (p : Nat) (o : OutSt) : Served σ :=
    match r with
    | .void => ⟨.ok, w, p, o⟩
    | .errc e => ⟨codeStatus e, w, p, o⟩
    | .value t v => let r := outCall d c noFit [(t, v)] o; ⟨r.1, w, p, r.2⟩
  match fn with
  | .archives f => let r := f w data p o; finish r.1 r.2.1 r.2.2.1 r.2.2.2
  | .bytes f =>
    if data.length < p then ⟨.ub, w, p, o⟩
    else let r := f w (data.drop p); finish r.1 r.2.1 (p + r.2.2) o

/-- `server::call_binding<Bindings...>(id)` (zpp_bits.h:4059-4139): the first binding with the id. -/
def callBinding {σ : Type} (d : Nat) (c : Cfg) (noFit : Bool) (id : Val) (w : σ) (data : List UInt8) (p : Nat)
    (o : OutSt) : List (Binding σ) → Served σ
  | [] => ⟨.err .notSupported, w, p, o⟩
  | b :: bs =>
    if b.id = id then
      match b with
      | .bind _ params body => callBind d c noFit params body w data p o
      | .opaque _ _ fn => callOpaque d c noFit fn w data p o
    else callBinding d c noFit id w data p o bs

/-- `server::serve()` (zpp_bits.h:4292-4300): read the id, then `serve(id)` (4275-4290). -/
def serve {σ : Type} (d : Nat) (c : Cfg) (noFit : Bool) (idTy : Ty) (bs : List (Binding σ)) (w : σ) (data : List UInt8)
    (p : Nat) (o : OutSt) : Served σ :=
  match decMany d c data [(idTy, dflt c d idTy)] p with
  | ⟨.ok, vs, p'⟩ => callBinding d c noFit (vs.headD .unit) w data p' o bs
  | ⟨s, _, p'⟩ => ⟨s, w, p', o⟩

/-- `client::request<Id>(arguments...)` and `client::request_body<Id>(arguments...)` (zpp_bits.h:3870-3983): the id
(unless only the body is sent), then the arguments. The arguments are given as objects of the parameter
types, after the conversions of `convertArgs` (`Model/RpcArgs`). `request_body` without parameters does nothing. -/
def requestItems (withId : Bool) (idTy : Ty) (id : Val) (params : List Ty) (args : List Val) : List (Ty × Val) :=
  (if withId then [(idTy, id)] else []) ++ params.zip args

/-! ## Client and server connected by buffers -/

/-- The two buffers of a connection (they may be the same buffer, `client_server(in, out)` over `in_out`,
zpp_bits.h:4313-4316). -/
inductive Chan
  | one
  | two
deriving DecidableEq, Repr, Inhabited

/-- A client and a server of the same `rpc<Bindings...>` over buffers. `a` is the buffer requests are written to and
read from, `b` the buffer for responses. `cc`, `sc` configure the archives of client and server, which have no fitting
iff `noFit`. -/
structure Net (σ : Type) where
  d : Nat
  cc : Cfg
  sc : Cfg
  noFit : Bool
  a : Chan
  b : Chan
  idTy : Ty
  bindings : List (Binding σ)

/-- State of the connection. -/
structure NetSt (σ : Type) where
  world : σ
  buf : Chan → Duplex

/-- Replace one buffer. -/
def NetSt.set {σ : Type} (s : NetSt σ) (k : Chan) (x : Duplex) : NetSt σ :=
  { s with buf := fun k' => if k' = k then x else s.buf k' }

/-- Operations: `client.request<Id>(args...)` / `request_body` (`requestOpaque` if the function is bound opaquely: its
arguments are objects of any types), `server.serve()` / `server.serve(id)`, `client.response<Id>()`; the binding is given by
its index. -/
inductive NetOp
  | request (withId : Bool) (i : Nat) (args : List Val)
  | requestOpaque (withId : Bool) (i : Nat) (items : List (Ty × Val))
  | serve
  | serveId (i : Nat)
  | response (i : Nat)
deriving Repr, Inhabited

/-- What the caller of an operation sees: an `errc`, and for `response` the object. -/
abbrev NetRes := Status × Option Val

/-- The client asks (zpp_bits.h:3914-3926, 3971-3983). -/
def netRequest {σ : Type} (n : Net σ) (withId : Bool) (i : Nat) (args : List Val) (s : NetSt σ) : NetRes × NetSt σ :=
  match n.bindings[i]? with
  | some (.bind id params _) =>
    let r := (s.buf n.a).write n.d n.cc n.noFit (requestItems withId n.idTy id params args)
    ((r.1, none), s.set n.a r.2)
  | _ => ((.illFormed, none), s)

/-- The client asks for an opaquely bound function: the id (unless only the body is sent) and the arguments as they are
(zpp_bits.h:3881-3882, 3939-3940). -/
def netRequestOpaque {σ : Type} (n : Net σ) (withId : Bool) (i : Nat) (items : List (Ty × Val)) (s : NetSt σ) :
    NetRes × NetSt σ :=
  match n.bindings[i]? with
  | some (.opaque id _ _) =>
    let r := (s.buf n.a).write n.d n.cc n.noFit ((if withId then [(n.idTy, id)] else []) ++ items)
    ((r.1, none), s.set n.a r.2)
  | _ => ((.illFormed, none), s)

/-- The server's side of a `Served`: move the input position in buffer `a`, then the output of buffer `b`. -/
def netServed {σ : Type} (n : Net σ) (s : NetSt σ) (r : Served σ) : NetRes × NetSt σ :=
  let s1 := s.set n.a { s.buf n.a with rpos := r.p }
  let s2 := s1.set n.b { s1.buf n.b with data := r.o.data, wpos := r.o.pos }
  ((r.s, none), { s2 with world := r.w })

/-- The server serves (zpp_bits.h:4275-4300). -/
def netServe {σ : Type} (n : Net σ) (s : NetSt σ) : NetRes × NetSt σ :=
  netServed n s (serve n.d n.sc n.noFit n.idTy n.bindings s.world (s.buf n.a).data (s.buf n.a).rpos
    ⟨(s.buf n.b).data, (s.buf n.b).wpos⟩)

/-- The server serves a request whose id it got elsewhere (zpp_bits.h:4275-4290). -/
def netServeId {σ : Type} (n : Net σ) (i : Nat) (s : NetSt σ) : NetRes × NetSt σ :=
  match n.bindings[i]? with
  | some bd =>
    netServed n s (callBinding n.d n.sc n.noFit bd.id s.world (s.buf n.a).data (s.buf n.a).rpos
      ⟨(s.buf n.b).data, (s.buf n.b).wpos⟩ n.bindings)
  | none => ((.illFormed, none), s)

/-- The client reads the response (zpp_bits.h:3985-4024): nothing for `void` functions, otherwise an object of the
return type; `errc` is an object too (a struct holding a 32 bit enum). -/
def netResponse {σ : Type} (n : Net σ) (i : Nat) (s : NetSt σ) : NetRes × NetSt σ :=
  let get (t : Ty) : NetRes × NetSt σ :=
    let r := (s.buf n.b).read n.d n.cc [(t, dflt n.cc n.d t)]
    ((r.1, if r.1 = .ok then r.2.1.head? else none), s.set n.b r.2.2)
  match (n.bindings[i]?).map Binding.ret with
  | some .void => ((.ok, none), s)
  | some .errc => get (.struct true [.scalar .enum 4])
  | some (.value t) => get t
  | none => ((.illFormed, none), s)

/-- One operation. -/
def netStep {σ : Type} (n : Net σ) : NetOp → NetSt σ → NetRes × NetSt σ
  | .request withId i args => netRequest n withId i args
  | .requestOpaque withId i items => netRequestOpaque n withId i items
  | .serve => netServe n
  | .serveId i => netServeId n i
  | .response i => netResponse n i

/-- A history of operations: what the callers saw, and the final state. -/
def netRun {σ : Type} (n : Net σ) : List NetOp → NetSt σ → List NetRes × NetSt σ
  | [], s => ([], s)
  | op :: ops, s =>
    let r := netStep n op s
    let rs := netRun n ops r.2
    (r.1 :: rs.1, rs.2)

end Zpp
