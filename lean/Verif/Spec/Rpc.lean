import Verif.Model.Rpc
import Verif.Spec.Queue
/-!
# Specification: remote procedure calls

An ideal connection carries messages in order and loses nothing; the ideal server takes the next request, calls the
function with that id on the arguments and sends the result. There are no bytes.
-/

namespace Zpp.Spec

/-- A value-initialized destination for each type (what the library declares before it reads parameters). -/
def fresh (c : Cfg) (d : Nat) (ts : List Ty) : List (Ty × Val) := ts.map fun t => (t, dflt c d t)

/-- A function of a service: its id, the types of its parameters, and what it does. `opaq`: it reads its parameters
itself. -/
structure Fn (σ : Type) where
  id : Val
  params : List Ty
  body : Body σ
  opaq : Bool

/-- What an opaquely bound function with this body returns, and the world it leaves. -/
def opaqueResult {σ : Type} (body : Body σ) (w : σ) (args : List Val) : OpaqueRet × σ :=
  match body with
  | .void f => (.void, f w args)
  | .errc f => (.errc (f w args).1, (f w args).2)
  | .value t f => (.value t (f w args).1, (f w args).2)

/-- A binding provides a function. By `bind`: the same id, parameters and body. By `bind_opaque`: the C++ function gets the
input archive; wherever objects of the parameter types can be read, it leaves the archive behind them, does what the body
does on those objects, returns its result and leaves the output archive alone. -/
def Provides {σ : Type} (d : Nat) (c : Cfg) (fn : Fn σ) (b : Binding σ) : Prop :=
  match fn.opaq with
  | false => b = .bind fn.id fn.params fn.body
  | true => ∃ f, b = .opaque fn.id fn.body.ret (.archives f) ∧
      ∀ w data p o args p', decMany d c data (fresh c d fn.params) p = ⟨.ok, args, p'⟩ →
        f w data p o = ((opaqueResult fn.body w args).1, (opaqueResult fn.body w args).2, p', o)

/-- The functions of a service, by index. -/
abbrev Fns (σ : Type) := Nat → Option (Fn σ)

/-- The functions bound by `bind`. -/
def boundFns {σ : Type} (bindings : List (Binding σ)) : Fns σ := fun i =>
  match bindings[i]? with
  | some (.bind id params body) => some ⟨id, params, body, false⟩
  | _ => none

/-- A message: a request for the function with index `i` (with or without its id), or the result of a call. -/
inductive Msg
  | req (withId : Bool) (i : Nat) (args : List Val)
  | resp (i : Nat) (v : Val)

/-- The objects a message consists of. -/
def msgItems {σ : Type} (fns : Fns σ) (idTy : Ty) : Msg → List (Ty × Val)
  | .req withId i args =>
    match fns i with
    | some fn => (if withId then [(idTy, fn.id)] else []) ++ fn.params.zip args
    | none => []
  | .resp i v =>
    match fns i with
    | some fn =>
      match fn.body with
      | .value t _ => [(t, v)]
      | _ => []
    | none => []

/-- Calling a function: what the server's `serve` returns, the new world, and the response if there is one. -/
def idealCall {σ : Type} (i : Nat) (body : Body σ) (w : σ) (args : List Val) : Status × σ × List Msg :=
  match body with
  | .void f => (.ok, f w args, [])
  | .errc f =>
    match f w args with
    | (none, w') => (.ok, w', [])
    | (some e, w') => (.err e, w', [])
  | .value _ f => (.ok, (f w args).2, [.resp i (f w args).1])

/-- The messages waiting in each buffer. -/
abbrev Queues := Chan → List Msg

/-- Append messages to the queue `k`. -/
def push (k : Chan) (ms : List Msg) (q : Queues) : Queues := fun k' => if k' = k then q k' ++ ms else q k'

/-- Replace the queue `k`. -/
def setQueue (k : Chan) (ms : List Msg) (q : Queues) : Queues := fun k' => if k' = k then ms else q k'

/-- The client's call that asks for a function: `args` are objects of the types of its parameters. -/
def askFor {σ : Type} (fn : Fn σ) (withId : Bool) (i : Nat) (args : List Val) : NetOp :=
  if fn.opaq then .requestOpaque withId i (fn.params.zip args) else .request withId i args

/-- `IdealStep fns a b op w q res sent w' q'`: on the ideal connection to a service with the functions `fns`, with request
queue `a` and response queue `b` (which may be the same), in the world `w` with queues `q`, the operation gives `res`, sends
the messages `sent` and leads to `w'`, `q'`. A server only serves if a request is next, a client only asks for a response if
that response is next. -/
inductive IdealStep {σ : Type} (fns : Fns σ) (a b : Chan) :
    NetOp → σ → Queues → NetRes → List (Chan × Msg) → σ → Queues → Prop
  | request {withId : Bool} {i : Nat} {args : List Val} {fn : Fn σ} {w : σ}
      {q : Queues} : fns i = some fn → args.length = fn.params.length →
      IdealStep fns a b (askFor fn withId i args) w q (.ok, none) [(a, .req withId i args)] w
        (push a [.req withId i args] q)
  | serve {i : Nat} {args : List Val} {fn : Fn σ} {w : σ} {q : Queues}
      {rest : List Msg} : fns i = some fn → q a = .req true i args :: rest →
      IdealStep fns a b .serve w q ((idealCall i fn.body w args).1, none)
        ((idealCall i fn.body w args).2.2.map fun m => (b, m)) (idealCall i fn.body w args).2.1
        (push b (idealCall i fn.body w args).2.2 (setQueue a rest q))
  | serveId {i : Nat} {args : List Val} {fn : Fn σ} {w : σ} {q : Queues}
      {rest : List Msg} : fns i = some fn → q a = .req false i args :: rest →
      IdealStep fns a b (.serveId i) w q ((idealCall i fn.body w args).1, none)
        ((idealCall i fn.body w args).2.2.map fun m => (b, m)) (idealCall i fn.body w args).2.1
        (push b (idealCall i fn.body w args).2.2 (setQueue a rest q))
  | response {i : Nat} {v : Val} {fn : Fn σ} {t : Ty} {f : σ → List Val → Val × σ} {w : σ}
      {q : Queues} {rest : List Msg} : fns i = some fn → fn.body = .value t f → q b = .resp i v :: rest →
      IdealStep fns a b (.response i) w q (.ok, some v) [] w (setQueue b rest q)
  | responseVoid {i : Nat} {fn : Fn σ} {f : σ → List Val → σ} {w : σ} {q : Queues} :
      fns i = some fn → fn.body = .void f → IdealStep fns a b (.response i) w q (.ok, none) [] w q

/-- A history on the ideal connection: operations, what the callers see, and all messages sent. -/
inductive IdealRun {σ : Type} (fns : Fns σ) (a b : Chan) :
    List NetOp → σ → Queues → List NetRes → List (Chan × Msg) → σ → Queues → Prop
  | done (w : σ) (q : Queues) : IdealRun fns a b [] w q [] [] w q
  | step {op : NetOp} {ops : List NetOp} {w w1 w2 : σ} {q q1 q2 : Queues} {r : NetRes} {rs : List NetRes}
      {s ss : List (Chan × Msg)} : IdealStep fns a b op w q r s w1 q1 →
      IdealRun fns a b ops w1 q1 rs ss w2 q2 → IdealRun fns a b (op :: ops) w q (r :: rs) (s ++ ss) w2 q2

/-- The objects of the messages sent through the buffer `k`, in order. -/
def sentItems {σ : Type} (fns : Fns σ) (idTy : Ty) (k : Chan) (sent : List (Chan × Msg)) :
    List (Ty × Val) :=
  ((sent.filter fun m => m.1 = k).map fun m => msgItems fns idTy m.2).flatten

/-- The sender can write the objects of the message and the receiver can read them (with one level of stack to
spare). -/
def MsgOk {σ : Type} (n : Net σ) (fns : Fns σ) (m : Msg) : Prop :=
  let items := msgItems fns n.idTy m
  StackOk (n.d - 1) items ∧
  match m with
  | .req _ _ _ => Supported n.cc items ∧ Readable n.sc items
  | .resp _ _ => Supported n.sc items ∧ Readable n.cc items

/-- What `serve` makes of the return value of an opaquely bound function that left the world `w`, the input position `p` and
the output `o`: nothing is written for `void` and `errc`, any other result is appended to the output by one output call. -/
def opaqueReply {σ : Type} (d : Nat) (c : Cfg) (noFit : Bool) (w : σ) (p : Nat) (o : OutSt) : OpaqueRet → Served σ
  | .void => ⟨.ok, w, p, o⟩
  | .errc none => ⟨.ok, w, p, o⟩
  | .errc (some e) => ⟨.err e, w, p, o⟩
  | .value t v => ⟨(outCall d c noFit [(t, v)] o).1, w, p, (outCall d c noFit [(t, v)] o).2⟩

end Zpp.Spec
